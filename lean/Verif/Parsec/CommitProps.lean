import Verif.Parsec.CommitShards

/-!
# C85: a transaction happens on all its shards or on none

The statements are about the states a broker, its shards and the network can
reach (`Runs`) if the user asks for all locks before committing and does nothing
but roll back once it started to (`Orderly`).  They use only what the user and
the shards see: which requests were made (`Touched`, `KeyAsked`), what the user
asked for (`UserCommit`) and was told, and what the shards store.
-/
namespace Verif.Parsec.Broker

/-- Shard `i` committed `t`. -/
def Committed (w : World) (i : Nat) (t : Tn) : Prop :=
  ∃ a ∈ w.log i, (∃ j c, a.req.call = .commit j t c) ∧ a.result = none

/-- How often shard `i` committed `t`. -/
def commitCount (w : World) (i : Nat) (t : Tn) : Nat := (w.log i).countP (Served.isCommit t)

/-- Shard `i` committed `t` exactly once, writing what `u` says about the keys for
which it was asked for a lock, and nothing else. -/
def WrotePart (w : World) (i : Nat) (t : Tn) (u : List (Key × Value)) : Prop :=
  commitCount w i t = 1 ∧ ∃ a ∈ w.log i, ((∃ j c, a.req.call = .commit j t c) ∧ a.result = none) ∧
    ∀ k, (KeyAsked t w.h i k → a.after k = (u.lookup k).getD (a.before k)) ∧
      (¬KeyAsked t w.h i k → a.after k = a.before k)

/-- Shard `i` did not commit `t` yet but holds it prepared, ready to write what
`u` says about the keys for which it was asked for a lock, and nothing else. -/
def WillWritePart (w : World) (i : Nat) (t : Tn) (u : List (Key × Value)) : Prop :=
  ¬Committed w i t ∧ ∃ tk, (w.shard i).ticket t = some tk ∧ tk.state = .prepared ∧
    ∀ k, (KeyAsked t w.h i k → tk.update.lookup k = u.lookup k) ∧
      (¬KeyAsked t w.h i k → tk.update.lookup k = none)

/-- The user asked to commit with `u`, after asking for a lock for each of its keys. -/
def UserUpdate (w : World) (t : Tn) (u : List (Key × Value)) : Prop :=
  UserCommit t w.h u ∧ ∀ q ∈ u, ∃ j, KeyAsked t w.h j q.1

theorem isCommit_iff' {t : Tn} {a : Served} :
    a.isCommit t = true ↔ (∃ j c, a.req.call = .commit j t c) ∧ a.result = none := by
  rw [isCommit_iff]
  constructor
  · rintro ⟨j, c, h1, h2⟩
    exact ⟨⟨j, c, h1⟩, h2⟩
  · rintro ⟨⟨j, c, h1⟩, h2⟩
    exact ⟨j, c, h1, h2⟩

theorem committed_iff {w : World} {i : Nat} {t : Tn} :
    Committed w i t ↔ ∃ a ∈ w.log i, a.isCommit t = true :=
  exists_congr fun _ => and_congr_right fun _ => isCommit_iff'.symm

theorem not_committed {w : World} {i : Nat} {t : Tn} (h : (w.log i).countP (Served.isCommit t) = 0) :
    ¬Committed w i t := by
  rw [committed_iff]
  rintro ⟨a, h1, h2⟩
  exact List.countP_eq_zero.mp h a h1 h2

/-- What was asked before a commit. -/
theorem Committed.asked {n : Nat} {own : Tn → Prop} {w : World} (hl : Link n own w) {j : Nat} {t : Tn}
    (h : Committed w j t) : ∃ c, Asked t w.h (.commit j t c) := by
  obtain ⟨a, h1, ⟨i, c, h2⟩, _⟩ := h
  have h3 := log_seq h1
  obtain ⟨t', h4⟩ := hl.origin j a.req h3
  have h5 := h4.ticket
  rw [h2] at h5
  cases h5
  obtain ⟨⟨call, ep⟩, res, bf, af⟩ := a
  dsimp only at h2 h3 h4
  subst h2
  exact ⟨c, h4.now (hl.commits j t c ep h3)⟩

theorem asked_commit {t : Tn} {h : Hist} {j : Nat} {c : Cont} (ha : Asked t h (.commit j t c)) : CommitAsked t h := by
  obtain ⟨x, h1, h2⟩ := ha
  exact ⟨x, attempt_subset h1, j, c, h2⟩

/-- What a shard that reported to have prepared has or did. -/
theorem reported_kept {n : Nat} {own : Tn → Prop} {w : World} (hl : Link n own w) {i : Nat} (hh : Held own w i)
    {t : Tn} (hr : ReportedPrepared t w.h i) (hn : ¬RollbackAsked t w.h) :
    ∃ a ∈ w.log i, (∃ u' c, a.req = ⟨.prepare i t u' c, epoch t w.h⟩) ∧ ∃ u, UserUpdate w t u ∧
      (WillWritePart w i t u ∨ WrotePart w i t u) := by
  obtain ⟨post, c, p, o, pre, h1, _⟩ := hr
  have h0 : (Event.prepared c t i none p, o) ∈ attempt t w.h := by
    rw [h1]
    exact List.mem_append_right _ List.mem_cons_self
  obtain ⟨a, h2, u', c', h3, h4⟩ := hl.reports.prepared t i ⟨_, h0, c, p, rfl⟩
  obtain ⟨t', h5⟩ := hl.origin i a.req (log_seq h2)
  have h6 := h5.ticket
  rw [h3] at h6
  cases h6
  have h7 := h5.now (by rw [h3])
  rw [h3] at h7
  obtain ⟨u, h8, h9, h10⟩ := hl.ball.parts t i u' c' h7
  refine ⟨a, h2, ⟨u', c', h3⟩, u, ⟨h8, h10⟩, ?_⟩
  rcases hh.kept t u' c' a h2 h3 h4 hn with ⟨⟨tk, h11, h12, h13⟩, h14⟩ | ⟨h11, b, h12, h13, h14⟩
  · refine .inl ⟨not_committed h14, tk, h11, h12, fun k => ?_⟩
    rw [h13]
    exact h9 k
  · refine .inr ⟨h11, b, h12, isCommit_iff'.mp h13, fun k => ⟨fun hk => ?_, fun hk => ?_⟩⟩
    · rw [h14 k, (h9 k).1 hk]
    · rw [h14 k, (h9 k).2 hk]
      rfl

/-- **C85.** If any shard committed `t`, every shard which was asked for a lock for
`t` has committed it too, once and with its part of the user's update, or holds it
prepared with this part; no such shard will be asked to roll it back. -/
theorem C85_atomic {n me : Nat} {own : Tn → Prop} {w : World} (hr : Runs n me own Orderly w) {j : Nat} {t : Tn}
    (hc : Committed w j t) (i : Nat) (hi : Touched t w.h i) :
    (∃ u, UserUpdate w t u ∧ (WillWritePart w i t u ∨ WrotePart w i t u)) ∧
      ∀ r ∈ w.net i, ∀ c, r.call ≠ .rollback i t c := by
  have hl := hr.link
  obtain ⟨c, ha⟩ := hc.asked hl
  obtain ⟨h1, h2, _⟩ := hl.decided t (asked_commit ha)
  obtain ⟨a, h3, ⟨u', c', h4⟩, h5⟩ := reported_kept hl (hr.held i) (h2 i hi) h1
  refine ⟨h5, fun r hrn d h6 => h1 ?_⟩
  have h7 := hl.order i
  unfold World.seq at h7
  rw [List.pairwise_append] at h7
  have hrs : r ∈ w.seq i := List.mem_append_right _ hrn
  obtain ⟨t', h8⟩ := hl.origin i r hrs
  have h9 := h8.ticket
  rw [h6] at h9
  cases h9
  have h10 := h7.2.2 a.req (List.mem_map.mpr ⟨a, h3, rfl⟩) r hrn i i t (by rw [h4]; rfl) h8.ticket
  unfold Request.stage at h10
  rw [h4, h6] at h10
  dsimp only [Call.rank] at h10
  have h11 := h8.old
  have h12 := h8.now (by omega)
  rw [h6] at h12
  exact ⟨i, d, h12⟩

/-- **C85.** A transaction is committed only if its shard was asked for a lock for it
and prepared. -/
theorem C85_once {n me : Nat} {own : Tn → Prop} {w : World} (hr : Runs n me own Orderly w) {j : Nat} {t : Tn}
    (hc : Committed w j t) : ∃ u, UserUpdate w t u ∧ WrotePart w j t u := by
  have hl := hr.link
  obtain ⟨c, ha⟩ := hc.asked hl
  obtain ⟨h1, _, h2⟩ := hl.decided t (asked_commit ha)
  obtain ⟨x, hx, hxc⟩ := ha
  obtain ⟨_, h3⟩ := h2 j c ⟨x, attempt_subset hx, hxc⟩
  obtain ⟨_, _, _, u, h4, h5⟩ := reported_kept hl (hr.held j) h3 h1
  refine ⟨u, h4, ?_⟩
  rcases h5 with h5 | h5
  · exact absurd hc h5.1
  · exact h5

/-- Nothing was asked for `t` in the current attempt: then no shard knows it or
committed it. -/
theorem idle_clean {n me : Nat} {own : Tn → Prop} {w : World} (hr : Runs n me own Orderly w) {t : Tn} (ho : own t)
    (hq : ∀ c i, c.ticket = some (i, t) → ¬Asked t w.h c) (i : Nat) :
    (w.shard i).ticket t = none ∧ ¬Committed w i t := by
  have hl := hr.link
  have hh := hr.held i
  refine ⟨?_, ?_⟩
  · refine Classical.byContradiction fun hne => ?_
    obtain ⟨r, h1, k, ty, f, cb, h2, h3⟩ := hh.fresh t ho hne
    have h4 := log_seq h1
    obtain ⟨t', h5⟩ := hl.origin i r.req h4
    have h6 := h5.ticket
    rw [h2] at h6
    cases h6
    by_cases h7 : r.req.ep = epoch t w.h
    · exact hq _ i h5.ticket (h5.now h7)
    · have h8 := h5.old
      obtain ⟨⟨call, ep⟩, res, bf, af⟩ := r
      dsimp only at h2 h3 h4 h7 h8
      subst h2
      obtain ⟨a, h9, c, h10, h11⟩ := hl.ended i t k ty f cb ep h4 (by omega)
      have h12 := h3 a h9 c (by rw [h10]) h11
      rw [h10] at h12
      dsimp only at h12
      omega
  · intro hc
    obtain ⟨c, ha⟩ := hc.asked hl
    exact hq _ i rfl ha

/-- **C85.** Once the user was told that `t` is rolled back, and until something is
asked for `t` again, no shard has any record of `t`, none ever committed it, and
nothing served for `t` changed a value. -/
theorem C85_rolled_back {n me : Nat} {own : Tn → Prop} {w : World} (hr : Runs n me own Orderly w) {t : Tn} {cb : Nat}
    {post pre : Hist} {e : Event} {o : Out} (hh : w.h = post ++ (e, o) :: pre) (ho : Said.rollback cb t none ∈ o.said)
    (hq : ∀ x ∈ post, ∀ c ∈ x.2.calls, ∀ i, c.ticket ≠ some (i, t)) (i : Nat) :
    (w.shard i).ticket t = none ∧ ¬Committed w i t ∧
      ∀ a ∈ w.log i, a.req.call.ticket = some (i, t) → a.after = a.before := by
  have hx : o.said.any (Said.aborts t) = true :=
    List.any_eq_true.mpr ⟨_, ho, by simp [Said.aborts]⟩
  have hl := hr.link
  have hidle : ∀ c i, c.ticket = some (i, t) → ¬Asked t w.h c := by
    rintro c i hc ⟨x, h1, h2⟩
    rw [hh] at h1
    clear hh
    induction post with
    | nil =>
      rw [List.nil_append, attempt_end hx] at h1
      cases h1
    | cons y post ih =>
      rw [List.cons_append] at h1
      rcases (mem_attempt_cons h1).2 with rfl | h1
      · exact hq x List.mem_cons_self c h2 i hc
      · exact ih (fun z hz => hq z (List.mem_cons_of_mem _ hz)) h1
  have hown : own t := by
    have : ∀ {h : Hist} {s : State}, Run n h s → (∃ x ∈ h, x.2.said.any (Said.aborts t) = true) → Issued t h := by
      intro h s hrun
      induction hrun with
      | start => rintro ⟨x, hx, _⟩; cases hx
      | @step h s s' e o hrun hp hs ih =>
        rintro ⟨x, hx, h1⟩
        have hmono : Issued t h → Issued t ((e, o) :: h) := by
          rintro ⟨y, hy, h2⟩
          exact ⟨y, List.mem_cons_of_mem _ hy, h2⟩
        rcases List.mem_cons.mp hx with rfl | hx
        · obtain ⟨tk, _, h2, _⟩ := aborts_next hrun.inv hp hs h1
          exact hmono (hrun.inv.issued t tk h2)
        · exact hmono (ih ⟨x, hx, h1⟩)
    exact hl.own t (this hl.run ⟨(e, o), by rw [hh]; simp, hx⟩)
  obtain ⟨h1, h2⟩ := idle_clean hr hown hidle i
  refine ⟨h1, h2, fun a ha h3 => (hr.held i).still a ha fun x => ?_⟩
  rw [Bool.eq_false_iff]
  intro h4
  obtain ⟨j, c, h5, h6⟩ := isCommit_iff.mp h4
  rw [h5] at h3
  cases h3
  exact h2 ⟨a, ha, ⟨_, _, h5⟩, h6⟩

/-- A committed ticket stays so. -/
theorem next_committed {e : Event} {tk tk' : Ticket} (hs : tk.state = .committed)
    (hn : (next e (some tk)).1 = some tk') : tk'.state = .committed := by
  cases e with
  | ticketNumber cb r => cases r <;> simp [next, stay] at hn <;> rw [← hn, hs]
  | tryLock cb t ok => simp [next, stay, hs] at hn; rw [← hn, hs]
  | foundKey cb t k ty r ok => cases r <;> simp [next, stay, hs] at hn <;> rw [← hn, hs]
  | locked cb t k i r =>
    cases r with
    | error e => simp [next, stay] at hn; rw [← hn, hs]
    | value v =>
      simp only [next] at hn
      repeat' split at hn
      all_goals
        simp only [stay, Option.some.injEq] at hn
        rw [← hn]
        exact hs
  | commit cb t u p =>
    simp only [next, Option.some.injEq] at hn
    rw [← hn, Ticket.commit_state, hs]
  | prepared c t i r p => simp [next, stay, hs] at hn; rw [← hn, hs]
  | committed c t i r p => simp [next, stay, hs] at hn; rw [← hn, hs]
  | rollback cb t p => simp [next, stay, hs] at hn; rw [← hn, hs]
  | rolledBack c t i r p => simp [next, stay, hs] at hn; rw [← hn, hs]
  | finish cb t p =>
    simp only [next, hs, Option.some.injEq] at hn
    rw [← hn]
    exact hs
  | finished c t i r =>
    simp only [next, if_pos hs] at hn
    repeat' split at hn
    all_goals simp only [stay, Option.some.injEq, reduceCtorEq] at hn
    all_goals
      rw [← hn]
      exact hs
  | recover cb => simp [next, stay] at hn; rw [← hn, hs]
  | gotTickets cb i r p => simp [next, stay] at hn; rw [← hn, hs]

/-- What holds after the user was told that `t` is committed. -/
structure Told (h : Hist) (s : State) (t : Tn) : Prop where
  issued : Issued t h
  state : ∀ tk, s.tickets.lookup t = some tk → tk.state = .committed
  all : ∀ j, Touched t h j → ReportedCommitted t h j

theorem told_step {n : Nat} {h : Hist} {s s' : State} {e : Event} {o : Out} (hr : Run n h s) (hp : Plain h e)
    (hs : step s e = some (s', o)) {t : Tn} (hi : Told h s t) : Told ((e, o) :: h) s' t := by
  have inv := hr.inv
  have hiss : Issued t ((e, o) :: h) := by
    obtain ⟨y, hy, h2⟩ := hi.issued
    exact ⟨y, List.mem_cons_of_mem _ hy, h2⟩
  have quiet : o.said.any (Said.aborts t) = false → (∀ k ty f cb j, Call.tryLock j t k ty f cb ∉ o.calls) →
      ∀ j, Touched t ((e, o) :: h) j → ReportedCommitted t ((e, o) :: h) j := by
    rintro hx hc j ⟨k, ty, f, cb, h1⟩
    rcases h1.cases with h1 | h1
    · exact absurd h1 (hc k ty f cb j)
    · exact (hi.all j ⟨k, ty, f, cb, h1⟩).mono hx
  cases ht : e.ticket with
  | none =>
    obtain ⟨h1, h2, h3⟩ := no_ticket inv hp ht hs
    exact ⟨hiss, by rw [h1]; exact hi.state, quiet (h3 t) (by rw [h2]; simp)⟩
  | some t0 =>
    have hst := step_next hp.plain ht hs
    by_cases hne : t = t0
    · subst hne
      cases hl : s.tickets.lookup t with
      | none =>
        have h1 := hst.calls
        have h2 := hst.said
        have h3 := hst.own
        rw [hl] at h1 h2 h3
        rw [(next_none e).1] at h1
        rw [(next_none e).2.1] at h2
        dsimp only at h1 h2 h3
        refine ⟨hiss, fun tk h4 => ?_, quiet h2 (by rw [h1]; simp)⟩
        rcases (next_none e).2.2 with h5 | ⟨cb, q, rfl, _⟩
        · rw [h5, h4] at h3; cases h3
        · obtain ⟨t', m⟩ := q
          cases ht
          exact absurd hi.issued hp
      | some tk =>
        have h0 := hi.state tk hl
        have h1 := hst.calls
        have h2 := hst.said
        have h3 := hst.own
        rw [hl] at h1 h2 h3
        dsimp only at h1 h2 h3
        refine ⟨hiss, fun tk' h4 => next_committed h0 (by rw [← h3, h4]), quiet ?_ ?_⟩
        · cases hx : o.said.any (Said.aborts t) with
          | false => rfl
          | true =>
            rw [hx] at h2
            have := (next_abort h2.symm).1
            rw [h0] at this; cases this
        · intro k ty f cb j h4
          rw [h1] at h4
          have hm := next_makes ht h4
          generalize (next e (some tk)).1 = nx at hm
          cases hm with
          | tryLock hb => rw [h0] at hb; cases hb
    · refine ⟨hiss, fun tk h4 => hi.state tk (by rw [← hst.other t hne]; exact h4), quiet (hst.saidOther t hne) ?_⟩
      intro k ty f cb j h4
      obtain ⟨i, h5⟩ := calls_ticket inv hp ht hs _ h4
      cases h5
      exact hne rfl

theorem told_of_said {n : Nat} {h : Hist} {s : State} (hr : Run n h s) {t : Tn} {cb : Nat}
    (hc : ∃ x ∈ h, Said.commit cb t none ∈ x.2.said) : Told h s t := by
  induction hr with
  | start => obtain ⟨x, hx, _⟩ := hc; cases hx
  | @step h s s' e o hrun hp hs ih =>
    obtain ⟨x, hx, h1⟩ := hc
    rcases List.mem_cons.mp hx with rfl | hx
    · obtain ⟨tk, tk', h2, _, h4, h5⟩ := success_said hp hs h1
      refine ⟨(hrun.step hp hs).inv.issued t tk' h4, fun tk2 h6 => ?_, fun j hj => C47_success_partial hrun hp hs h1 j hj⟩
      rw [h4] at h6
      cases h6
      exact h5
    · exact told_step hrun hp hs (ih ⟨x, hx, h1⟩)

/-- **C85.** Once the user was told that `t` is committed, every shard which was asked
for a lock for `t` has committed it, once, writing its part of an update the user
asked for and nothing else. -/
theorem C85_committed {n me : Nat} {own : Tn → Prop} {w : World} (hr : Runs n me own Orderly w) {t : Tn} {cb : Nat}
    (hc : ∃ x ∈ w.h, Said.commit cb t none ∈ x.2.said) (i : Nat) (hi : Touched t w.h i) :
    ∃ u, UserUpdate w t u ∧ WrotePart w i t u := by
  have hl := hr.link
  obtain ⟨post, c, p, o, pre, h1, _⟩ := (told_of_said hl.run hc).all i hi
  have h0 : (Event.committed c t i none p, o) ∈ attempt t w.h := by
    rw [h1]
    exact List.mem_append_right _ List.mem_cons_self
  obtain ⟨a, h2, d, h3, h4⟩ := hl.reports.committed t i ⟨_, h0, c, p, rfl⟩
  exact C85_once hr ⟨a, h2, ⟨i, d, by rw [h3]⟩, h4⟩

/-- **C85.** If the user asks to commit with one update `u` only, and is told that `t`
is committed, each shard wrote its part of `u`, and each key of `u` is one which some
shard was asked to lock, so all of `u` was written. -/
theorem C85_whole_update {n me : Nat} {own : Tn → Prop} {w : World} (hr : Runs n me own Orderly w) {t : Tn} {cb : Nat}
    (hc : ∃ x ∈ w.h, Said.commit cb t none ∈ x.2.said) {u : List (Key × Value)}
    (hu : ∀ u', UserCommit t w.h u' → u' = u) :
    (∀ i, Touched t w.h i → WrotePart w i t u) ∧
      ((∃ i, Touched t w.h i) → ∀ q ∈ u, ∃ i, Touched t w.h i ∧ ∃ a ∈ w.log i,
        ((∃ j c, a.req.call = .commit j t c) ∧ a.result = none) ∧ u.lookup q.1 = some (a.after q.1)) := by
  have h1 : ∀ i, Touched t w.h i → UserUpdate w t u ∧ WrotePart w i t u := by
    intro i hi
    obtain ⟨u', h1, h2⟩ := C85_committed hr hc i hi
    have h3 := hu u' h1.1
    subst h3
    exact ⟨h1, h2⟩
  refine ⟨fun i hi => (h1 i hi).2, ?_⟩
  rintro ⟨i0, hi0⟩ q hq
  obtain ⟨j, ty, f, cb', hj⟩ := (h1 i0 hi0).1.2 q hq
  have htj : Touched t w.h j := ⟨q.1, ty, f, cb', hj⟩
  obtain ⟨_, a, h3, h4, h5⟩ := (h1 j htj).2
  refine ⟨j, htj, a, h3, h4, ?_⟩
  rw [(h5 q.1).1 ⟨ty, f, cb', hj⟩]
  have : (u.lookup q.1).isSome := by
    clear hu h1 h5
    induction u with
    | nil => cases hq
    | cons p u ih =>
      obtain ⟨x, y⟩ := p
      rw [List.lookup_cons]
      cases hb : q.1 == x with
      | true => rfl
      | false =>
        rcases List.mem_cons.mp hq with rfl | hq
        · simp at hb
        · exact ih hq
  obtain ⟨v, hv⟩ := Option.isSome_iff_exists.mp this
  rw [hv]
  rfl

end Verif.Parsec.Broker
