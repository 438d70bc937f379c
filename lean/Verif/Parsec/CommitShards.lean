import Verif.Parsec.CommitLink

/-!
# What the served requests tell about the shards
-/
namespace Verif.Parsec.Broker

/-- A successful commit of `t`. -/
def Served.isCommit (t : Tn) (a : Served) : Bool :=
  match a.req.call with
  | .commit _ x _ => x = t && a.result.isNone
  | _ => false

theorem isCommit_iff {t : Tn} {a : Served} :
    a.isCommit t = true ↔ ∃ i c, a.req.call = .commit i t c ∧ a.result = none := by
  unfold Served.isCommit
  cases a.req.call <;> simp

/-- Shard `i` holds `t` prepared with the update `u`. -/
def HoldsPrepared (w : World) (i : Nat) (t : Tn) (u : List (Key × Value)) : Prop :=
  ∃ tk, (w.shard i).ticket t = some tk ∧ tk.state = .prepared ∧ tk.update = u

/-- Shard `i` committed `t` once, writing `u`. -/
def Wrote (w : World) (i : Nat) (t : Tn) (u : List (Key × Value)) : Prop :=
  (w.log i).countP (Served.isCommit t) = 1 ∧
    ∃ a ∈ w.log i, a.isCommit t = true ∧ ∀ k, a.after k = (u.lookup k).getD (a.before k)

/-- The invariant about one shard. -/
structure Held (own : Tn → Prop) (w : World) (i : Nat) : Prop where
  reach : Reach (w.shard i)
  /-- What was prepared is there or was committed. -/
  kept : ∀ t u c a, a ∈ w.log i → a.req = ⟨.prepare i t u c, epoch t w.h⟩ → a.result = none → ¬RollbackAsked t w.h →
    (HoldsPrepared w i t u ∧ (w.log i).countP (Served.isCommit t) = 0) ∨ Wrote w i t u
  /-- What was committed is not prepared again. -/
  done : ∀ t a, a ∈ w.log i → a.isCommit t = true → ¬isPrepared (w.shard i) t
  /-- There is no record of `t` after a rollback until a lock is asked for again. -/
  fresh : ∀ t, own t → (w.shard i).ticket t ≠ none → ∃ r ∈ w.log i, ∃ k ty f cb, r.req.call = .tryLock i t k ty f cb ∧
    ∀ a ∈ w.log i, ∀ c, a.req.call = .rollback i t c → a.result = none → a.req.ep < r.req.ep
  /-- Only successful commits change values. -/
  still : ∀ a ∈ w.log i, (∀ t, a.isCommit t = false) → a.after = a.before

theorem op_ticket {me : Nat} {c : Call} {op : Op} (h : c.op me = some op) {i : Nat} {t : Tn}
    (ht : c.ticket = some (i, t)) : op.ticket = t := by
  cases c <;> simp [Call.op] at h <;> subst h <;> simp [Call.ticket] at ht <;> exact ht.2

theorem ticket_of_phase {s : Parsec.State} {t : Tn} : s.ticket t = none ↔ phaseOf s t = none := by
  unfold phaseOf
  cases s.ticket t <;> simp

theorem isPrepared_other {s s' : Parsec.State} (hr : Reach s) {op : Op} {o : Parsec.Out}
    (he : exec s op = some (s', o)) {t : Tn} (ht : t ≠ op.ticket) : phaseOf s' t = phaseOf s t := by
  rw [exec_phase hr.inv he]
  unfold phaseStep
  rw [if_pos ht]

/-- Requests for other transactions. -/
theorem holdsPrepared_other {s s' : Parsec.State} (hr : Reach s) {op : Op} {o : Parsec.Out}
    (he : exec s op = some (s', o)) {t : Tn} (ht : t ≠ op.ticket) {u : List (Key × Value)}
    (h : ∃ tk, s.ticket t = some tk ∧ tk.state = .prepared ∧ tk.update = u) :
    ∃ tk, s'.ticket t = some tk ∧ tk.state = .prepared ∧ tk.update = u := by
  obtain ⟨tk, h1, h2, h3⟩ := h
  refine ⟨tk, exec_prepared hr.inv h1 h2 he ?_ ?_, h2, h3⟩
  · rintro rfl
    exact ht rfl
  · rintro rfl
    exact ht rfl

theorem Held.start {n : Nat} {own : Tn → Prop} {w : World} (h : w.Initial n own) (i : Nat) : Held own w i where
  reach := h.shard i
  kept := by intro t u c a ha; rw [h.log] at ha; cases ha
  done := by intro t a ha; rw [h.log] at ha; cases ha
  fresh := fun t ht hn => absurd (h.clean i t ht) hn
  still := by intro a ha; rw [h.log] at ha; cases ha

/-- The broker does something. -/
theorem Held.event {own : Tn → Prop} {w : World} {i : Nat} (hh : Held own w i)
    (horigin : ∀ r ∈ w.seq i, ∃ t, Origin w.h i r t) (e : Event) (s : State) (o : Out) :
    Held own (w.event e s o) i where
  reach := hh.reach
  kept := by
    intro t u c a ha h1 h2 h3
    have ha : a ∈ w.log i := ha
    have h1 : a.req = ⟨.prepare i t u c, epoch t ((e, o) :: w.h)⟩ := h1
    have h3 : ¬RollbackAsked t ((e, o) :: w.h) := h3
    cases hx : o.said.any (Said.aborts t) with
    | false =>
      rw [epoch_cons hx] at h1
      exact hh.kept t u c a ha h1 h2 fun h4 => h3 (h4.mono hx)
    | true =>
      rw [epoch_cons_end hx] at h1
      obtain ⟨t', h4⟩ := horigin a.req (List.mem_append_left _ (List.mem_map.mpr ⟨a, ha, rfl⟩))
      have h5 := h4.old
      have h6 := h4.ticket
      rw [h1] at h5 h6
      cases h6
      dsimp only at h5
      omega
  done := hh.done
  fresh := hh.fresh
  still := hh.still

/-- Something else happens. -/
theorem Held.congr {own : Tn → Prop} {w w' : World} {i : Nat} (hh : Held own w i) (h1 : w'.h = w.h)
    (h2 : w'.shard i = w.shard i) (h3 : w'.log i = w.log i) : Held own w' i where
  reach := by rw [h2]; exact hh.reach
  kept := by
    unfold HoldsPrepared Wrote
    rw [h1, h2, h3]
    exact hh.kept
  done := by rw [h2, h3]; exact hh.done
  fresh := by rw [h2, h3]; exact hh.fresh
  still := by rw [h3]; exact hh.still

/-- Another broker's request is served. -/
theorem Held.other {own : Tn → Prop} {w : World} {i : Nat} (hh : Held own w i) {j : Nat}
    {op : Op} {s : Parsec.State} {o : Parsec.Out} (hn : ¬own op.ticket)
    (horigin : ∀ r ∈ w.seq i, ∃ t, Origin w.h i r t ∧ own t)
    (he : exec (w.shard j) op = some (s, o)) : Held own { w with shard := put w.shard j s } i := by
  by_cases hj : i ≠ j
  · exact hh.congr rfl (put_other _ _ hj) rfl
  · have hj := Classical.not_not.mp hj
    subst hj
    have hput : put w.shard i s i = s := put_same _ _ _
    refine ⟨?_, ?_, ?_, ?_, hh.still⟩
    · show Reach (put w.shard i s i)
      rw [hput]; exact hh.reach.step he
    · intro t u c a ha h1 h2 h3
      have ht : t ≠ op.ticket := by
        rintro rfl
        obtain ⟨t', h4, h5⟩ := horigin a.req (List.mem_append_left _ (List.mem_map.mpr ⟨a, ha, rfl⟩))
        have h6 := h4.ticket
        rw [h1] at h6
        cases h6
        exact hn h5
      rcases hh.kept t u c a ha h1 h2 h3 with ⟨h4, h5⟩ | h4
      · refine .inl ⟨?_, h5⟩
        unfold HoldsPrepared
        dsimp only
        rw [hput]
        exact holdsPrepared_other hh.reach he ht h4
      · exact .inr h4
    · intro t a ha h1
      show ¬isPrepared (put w.shard i s i) t
      rw [hput]
      have ht : t ≠ op.ticket := by
        rintro rfl
        obtain ⟨j, c, h2, _⟩ := isCommit_iff.mp h1
        obtain ⟨t', h4, h5⟩ := horigin a.req (List.mem_append_left _ (List.mem_map.mpr ⟨a, ha, rfl⟩))
        have h6 := h4.ticket
        rw [h2] at h6
        cases h6
        exact hn h5
      rw [← phase_eq_prepared, isPrepared_other hh.reach he ht, phase_eq_prepared]
      exact hh.done t a ha h1
    · intro t ht
      show (put w.shard i s i).ticket t ≠ none → _
      rw [hput]
      intro h1
      refine hh.fresh t ht fun h2 => h1 ?_
      rw [ticket_of_phase] at h2 ⊢
      rw [isPrepared_other hh.reach he (by rintro rfl; exact hn ht)]
      exact h2

/-- A record appears only when the first lock is asked for. -/
theorem none_stays {s s' : Parsec.State} {op : Op} {o : Parsec.Out} (he : exec s op = some (s', o)) {t : Tn}
    (ht : op.ticket = t) (hn : s.ticket t = none) (hn' : s'.ticket t ≠ none) :
    ∃ b k ty f cb, op = .tryLock t b k ty f cb := by
  cases op with
  | tryLock x b k ty f cb =>
    cases ht
    exact ⟨b, k, ty, f, cb, rfl⟩
  | prepare x u =>
    cases ht
    simp only [exec, prepare, show s.ticket x = none from hn, Option.some.injEq, Prod.mk.injEq] at he
    rw [← he.1] at hn'
    exact absurd hn hn'
  | commit x =>
    cases ht
    simp only [exec, Parsec.commit, show s.ticket x = none from hn, Option.some.injEq, Prod.mk.injEq] at he
    rw [← he.1] at hn'
    exact absurd hn hn'
  | rollback x =>
    cases ht
    simp only [exec, Parsec.rollback, show s.ticket x = none from hn, Option.some.injEq, Prod.mk.injEq] at he
    rw [← he.1] at hn'
    exact absurd hn hn'
  | finish x =>
    cases ht
    simp only [exec, Parsec.finish, show s.ticket x = none from hn, Option.some.injEq, Prod.mk.injEq] at he
    rw [← he.1] at hn'
    exact absurd hn hn'

/-- A prepared transaction can be committed. -/
theorem commit_prepared {s s' : Parsec.State} {o : Parsec.Out} {t : Tn} {tk : Parsec.Ticket}
    (he : exec s (.commit t) = some (s', o)) (h1 : s.ticket t = some tk) (h2 : tk.state = .prepared) :
    o.result = none ∧ ∀ k, s'.value k = (tk.update.lookup k).getD (s.value k) := by
  have hr : o.result = none := by
    simp only [exec, Parsec.commit, h1, h2, Option.some.injEq] at he
    simp only [ne_eq, not_true_eq_false, if_false, Prod.mk.injEq] at he
    rw [← he.2]
  refine ⟨hr, ?_⟩
  obtain ⟨tk', h3, _, h4⟩ := C43_commit_writes t he hr
  rw [h1] at h3
  cases h3
  exact h4

theorem countP_snoc {α : Type} (p : α → Bool) (l : List α) (x : α) :
    (l ++ [x]).countP p = l.countP p + if p x = true then 1 else 0 := by
  rw [List.countP_append, List.countP_singleton]

/-- A request of this broker is served. -/
theorem Held.serve {own : Tn → Prop} {w : World} {i me : Nat} (hh : Held own w i) {r : Request}
    {rest : List Request} {op : Op} {s : Parsec.State} {o : Parsec.Out} {t0 : Tn}
    (hor : Origin w.h i r t0) (ho : r.call.op me = some op) (he : exec (w.shard i) op = some (s, o))
    (hlog : ∀ a ∈ w.log i, ∃ t, Origin w.h i a.req t)
    (hord : ∀ a ∈ w.log i, InOrder a.req r)
    (hcom : ∀ a ∈ w.log i, ∀ t c, a.req.call = .commit i t c → a.req.ep = epoch t w.h) :
    Held own (w.serve i r rest s o) i := by
  have hop := op_ticket ho hor.ticket
  have hsh : (w.serve i r rest s o).shard i = s := put_same _ _ _
  have hlg : (w.serve i r rest s o).log i = w.log i ++ [⟨r, o.result, (w.shard i).value, s.value⟩] := put_same _ _ _
  have hhist : (w.serve i r rest s o).h = w.h := rfl
  have hx : ∀ t, t ≠ t0 → Served.isCommit t ⟨r, o.result, (w.shard i).value, s.value⟩ = false := by
    intro t ht
    rw [Bool.eq_false_iff]
    intro h1
    obtain ⟨j, c, h2, _⟩ := isCommit_iff.mp h1
    have h3 := hor.ticket
    dsimp only at h2
    rw [h2] at h3
    cases h3
    exact ht rfl
  -- a commit of what was committed fails
  have hagain : ∀ a ∈ w.log i, a.isCommit t0 = true →
      Served.isCommit t0 ⟨r, o.result, (w.shard i).value, s.value⟩ = false := by
    intro a ha h1
    rw [Bool.eq_false_iff]
    intro h2
    obtain ⟨j, c, h3, h4⟩ := isCommit_iff.mp h2
    dsimp only at h3 h4
    rw [h3] at ho
    cases ho
    obtain ⟨tk, h5, h6, _⟩ := C43_commit_writes t0 he h4
    exact hh.done t0 a ha h1 ⟨tk, h5, h6⟩
  refine ⟨?_, ?_, ?_, ?_, ?_⟩
  · rw [hsh]; exact hh.reach.step he
  · unfold HoldsPrepared Wrote
    rw [hsh, hlg, hhist]
    intro t u c a ha h1 h2 h3
    by_cases ht : t = t0
    · subst ht
      rcases List.mem_append.mp ha with ha | ha
      · have h4 := hord a ha i i t (by rw [h1]; rfl) hor.ticket
        unfold Request.stage at h4
        rw [h1] at h4
        have hr := rank_le r.call
        have hold := hor.old
        have hnow : r.ep = epoch t w.h := by
          generalize r.call.rank = q at h4 hr
          dsimp only [Call.rank] at h4
          omega
        rcases hh.kept t u c a ha h1 h2 h3 with ⟨⟨tk, h5, h6, h7⟩, h8⟩ | ⟨h5, b, h6, h7, h8⟩
        · by_cases hc : op = .commit t
          · subst hc
            obtain ⟨h9, h10⟩ := commit_prepared he h5 h6
            have hisc : Served.isCommit t ⟨r, o.result, (w.shard i).value, s.value⟩ = true := by
              rw [isCommit_iff]
              dsimp only
              have h11 := hor.ticket
              cases hrc : r.call <;> rw [hrc] at ho h11 <;> simp [Call.op] at ho
              cases h11
              exact ⟨_, _, rfl, h9⟩
            refine .inr ⟨by rw [countP_snoc, h8, if_pos hisc], _,
              List.mem_append_right _ (List.mem_singleton.mpr rfl), hisc, ?_⟩
            rw [h7] at h10
            exact h10
          · have hrb : op ≠ .rollback t := by
              rintro rfl
              have h11 := hor.ticket
              have h12 := hor.now hnow
              cases hrc : r.call <;> rw [hrc] at ho h11 h12 <;> simp [Call.op] at ho
              cases h11
              exact h3 ⟨_, _, h12⟩
            refine .inl ⟨⟨tk, exec_prepared hh.reach.inv h5 h6 he hc hrb, h6, h7⟩, ?_⟩
            rw [countP_snoc, h8, if_neg]
            intro h9
            obtain ⟨j, d, h10, _⟩ := isCommit_iff.mp h9
            dsimp only at h10
            rw [h10] at ho
            cases ho
            exact hc rfl
        · refine .inr ⟨?_, b, List.mem_append_left _ h6, h7, h8⟩
          rw [countP_snoc, h5, if_neg (by rw [hagain b h6 h7]; decide)]
      · rw [List.mem_singleton] at ha
        subst ha
        dsimp only at h1 h2
        have hcnt : (w.log i).countP (Served.isCommit t) = 0 := by
          rw [List.countP_eq_zero]
          intro b hb h4
          obtain ⟨j, d, h5, _⟩ := isCommit_iff.mp h4
          obtain ⟨t', h6⟩ := hlog b hb
          have h7 := h6.ticket
          rw [h5] at h7
          cases h7
          have h8 := hord b hb i i t h6.ticket hor.ticket
          have h9 := hcom b hb t d h5
          unfold Request.stage at h8
          rw [h5, h1] at h8
          dsimp only [Call.rank] at h8
          omega
        rw [h1] at ho
        cases ho
        have h4 : prepare (w.shard i) t u = (s, o) := Option.some.inj he
        rcases prepare_cases (w.shard i) t u with h5 | ⟨tk, h5, h6, h7⟩
        · rw [h4] at h5
          exact absurd h2 h5.2
        · rw [h4] at h7
          simp only [Prod.mk.injEq] at h7
          refine .inl ⟨⟨{ tk with state := .prepared, update := u }, ?_, rfl, rfl⟩, ?_⟩
          · rw [h7.1]
            simp [State.setTicket]
          · rw [countP_snoc, hcnt, if_neg]
            intro h8
            obtain ⟨j, d, h9, _⟩ := isCommit_iff.mp h8
            dsimp only at h9
            rw [h1] at h9
            cases h9
    · rcases List.mem_append.mp ha with ha | ha
      · rcases hh.kept t u c a ha h1 h2 h3 with ⟨h4, h5⟩ | ⟨h4, b, h5, h6⟩
        · refine .inl ⟨holdsPrepared_other hh.reach he (by rw [hop]; exact ht) h4, ?_⟩
          rw [countP_snoc, h5, if_neg (by rw [hx t ht]; decide)]
        · refine .inr ⟨?_, b, List.mem_append_left _ h5, h6⟩
          rw [countP_snoc, h4, if_neg (by rw [hx t ht]; decide)]
      · rw [List.mem_singleton] at ha
        subst ha
        dsimp only at h1
        have h4 := hor.ticket
        rw [h1] at h4
        cases h4
        exact absurd rfl ht
  · rw [hsh, hlg]
    intro t a ha h1
    rw [← phase_eq_prepared]
    by_cases ht : t = t0
    · subst ht
      rw [exec_phase hh.reach.inv he]
      rcases List.mem_append.mp ha with ha | ha
      · have hnp := hh.done t a ha h1
        rw [← phase_eq_prepared] at hnp
        obtain ⟨j, d, h2, _⟩ := isCommit_iff.mp h1
        obtain ⟨t', h6⟩ := hlog a ha
        have h7 := h6.ticket
        rw [h2] at h7
        cases h7
        have h8 := hord a ha i i t h6.ticket hor.ticket
        have h9 := hcom a ha t d h2
        unfold Request.stage at h8
        rw [h2] at h8
        have hold := hor.old
        have hrank : r.call.rank = 2 := by
          have hr := rank_le r.call
          generalize r.call.rank = q at h8 hr ⊢
          dsimp only [Call.rank] at h8
          omega
        unfold phaseStep
        cases hrc : r.call <;> rw [hrc] at hrank ho <;> simp [Call.rank] at hrank <;> cases ho
        · cases hop
          simp only [Op.ticket, ne_eq, not_true_eq_false, if_false]
          split
          · simp
          · exact hnp
        · cases hop
          simp only [Op.ticket, ne_eq, not_true_eq_false, if_false]
          split
          · simp
          · exact hnp
      · rw [List.mem_singleton] at ha
        subst ha
        obtain ⟨j, d, h2, h3⟩ := isCommit_iff.mp h1
        dsimp only at h2 h3
        rw [h2] at ho
        cases ho
        simp [phaseStep, Op.ticket, h3]
    · rw [isPrepared_other hh.reach he (by rw [hop]; exact ht), phase_eq_prepared]
      rcases List.mem_append.mp ha with ha | ha
      · exact hh.done t a ha h1
      · rw [List.mem_singleton] at ha
        subst ha
        rw [hx t ht] at h1
        cases h1
  · rw [hsh, hlg]
    intro t hown hne
    by_cases ht : t = t0
    · subst ht
      by_cases hnone : (w.shard i).ticket t = none
      · obtain ⟨b, k, ty, f, cb, h1⟩ := none_stays he hop hnone hne
        have h3 := hor.ticket
        cases hrc : r.call <;> rw [hrc] at ho h3 <;> rw [h1] at ho <;> simp [Call.op] at ho
        rename_i j x k' ty' f' cb'
        cases h3
        refine ⟨_, List.mem_append_right _ (List.mem_singleton.mpr rfl), k', ty', f', cb', hrc, ?_⟩
        intro a ha c h4 h5
        rcases List.mem_append.mp ha with ha | ha
        · have h6 := hord a ha i i t (by rw [h4]; rfl) hor.ticket
          unfold Request.stage at h6
          rw [h4, hrc] at h6
          dsimp only [Call.rank] at h6
          dsimp only
          omega
        · rw [List.mem_singleton] at ha
          subst ha
          dsimp only at h4
          rw [hrc] at h4
          cases h4
      · obtain ⟨q, h1, k, ty, f, cb, h2, h3⟩ := hh.fresh t hown hnone
        refine ⟨q, List.mem_append_left _ h1, k, ty, f, cb, h2, ?_⟩
        intro a ha c h4 h5
        rcases List.mem_append.mp ha with ha | ha
        · exact h3 a ha c h4 h5
        · rw [List.mem_singleton] at ha
          subst ha
          dsimp only at h4 h5
          rw [h4] at ho
          cases ho
          exfalso
          apply hne
          rw [ticket_of_phase, exec_phase hh.reach.inv he]
          simp [phaseStep, Op.ticket, h5]
    · have hold : (w.shard i).ticket t ≠ none := by
        intro h1
        apply hne
        rw [ticket_of_phase] at h1 ⊢
        rw [isPrepared_other hh.reach he (by rw [hop]; exact ht), h1]
      obtain ⟨q, h1, k, ty, f, cb, h2, h3⟩ := hh.fresh t hown hold
      refine ⟨q, List.mem_append_left _ h1, k, ty, f, cb, h2, ?_⟩
      intro a ha c h4 h5
      rcases List.mem_append.mp ha with ha | ha
      · exact h3 a ha c h4 h5
      · rw [List.mem_singleton] at ha
        subst ha
        dsimp only at h4
        have h6 := hor.ticket
        rw [h4] at h6
        cases h6
        exact absurd rfl ht
  · rw [hlg]
    intro a ha h1
    rcases List.mem_append.mp ha with ha | ha
    · exact hh.still a ha h1
    · rw [List.mem_singleton] at ha
      subst ha
      dsimp only
      funext k
      by_cases hv : s.value k = (w.shard i).value k
      · exact hv
      · obtain ⟨t, _, h2, h3, _⟩ := exec_value hh.reach.inv he hv
        exfalso
        have h4 : Served.isCommit t ⟨r, o.result, (w.shard i).value, s.value⟩ = true := by
          rw [isCommit_iff]
          dsimp only
          subst h2
          cases hrc : r.call <;> rw [hrc] at ho <;> simp [Call.op] at ho
          subst ho
          exact ⟨_, _, rfl, h3⟩
        rw [h1 t] at h4
        cases h4

theorem Link.owned {n : Nat} {own : Tn → Prop} {w : World} (hl : Link n own w) {i : Nat} {r : Request} {t : Tn}
    (h : Origin w.h i r t) : own t := by
  obtain ⟨x, h1, h2⟩ := h.asked
  exact hl.own t (hl.run.inv.called x h1 r.call h2 i t h.ticket)

theorem log_seq {w : World} {i : Nat} {a : Served} (h : a ∈ w.log i) : a.req ∈ w.seq i :=
  List.mem_append_left _ (List.mem_map.mpr ⟨a, h, rfl⟩)

theorem Held.step {n me : Nat} {own : Tn → Prop} {ok : Hist → Event → Prop} {w w' : World} (hl : Link n own w)
    (hh : ∀ i, Held own w i) (h : w.Step me own ok w') : ∀ i, Held own w' i := by
  intro j
  cases h with
  | event hp ho hj hn hs => exact (hh j).event (hl.origin j) _ _ _
  | @serve i r rest op s o hn ho he =>
    by_cases hj : j = i
    · subst hj
      have hr : r ∈ w.seq j := List.mem_append_right _ (by rw [hn]; exact List.mem_cons_self)
      obtain ⟨t0, hor⟩ := hl.origin j r hr
      have hord := hl.order j
      unfold World.seq at hord
      rw [List.pairwise_append] at hord
      refine (hh j).serve hor ho he (fun a ha => hl.origin j a.req (log_seq ha))
        (fun a ha => hord.2.2 a.req (List.mem_map.mpr ⟨a, ha, rfl⟩) r (by rw [hn]; exact List.mem_cons_self))
        (fun a ha t c hc => ?_)
      have h1 := log_seq ha
      obtain ⟨⟨c', ep⟩, res, bf, af⟩ := a
      dsimp only at hc h1 ⊢
      subst hc
      exact hl.commits j t c ep h1
    · exact (hh j).congr rfl (put_other _ _ hj) (put_other _ _ hj)
  | lose h => exact (hh j).congr rfl rfl rfl
  | other hn he =>
    refine (hh j).other hn ?_ he
    intro r hr
    obtain ⟨t, h1⟩ := hl.origin j r hr
    exact ⟨t, h1, hl.owned h1⟩

theorem Runs.held {n me : Nat} {own : Tn → Prop} {w : World} (h : Runs n me own Orderly w) : ∀ i, Held own w i := by
  induction h with
  | start h => exact fun i => .start h i
  | step hr h ih => exact Held.step hr.link ih h

end Verif.Parsec.Broker
