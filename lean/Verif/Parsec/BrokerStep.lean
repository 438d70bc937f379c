import Verif.Parsec.BrokerInv

/-!
# The PArSEC broker: the invariant is kept
-/
namespace Verif.Parsec.Broker

theorem commitDone_plain {c : Cont} (hc : c.recovery = false) (s : State)
    (t : Tn) (r : Option Fail) (p : Option Stop) :
    commitDone s c t r p = (s, { said := [.commit c.cb t r] }) := by
  simp [commitDone, hc]

theorem rollbackDone_plain {c : Cont} (hc : c.recovery = false) (s : State)
    (t : Tn) (r : Option Fail) (p : Option Stop) :
    rollbackDone s c t r p = (s, { said := [.rollback c.cb t r] }) := by
  simp [rollbackDone, hc]

theorem finishDone_plain {c : Cont} (hc : c.recovery = false) (s : State)
    (t : Tn) (r : Option Fail) :
    finishDone s c t r = [.finish c.cb t r] := by
  simp [finishDone, hc]

theorem good_ticketNumber {h : Hist} {s : State} (inv : Inv h s) {cb t m : Nat}
    (hp : Plain h (.ticketNumber cb (some (t, m)))) :
    Good h s (.ticketNumber cb (some (t, m))) t
      (handleTicketNumber s cb (some (t, m))) := by
  have hno : s.tickets.lookup t = none := by
    cases hl : s.tickets.lookup t with
    | none => rfl
    | some tk => exact absurd (inv.issued t tk hl) hp
  have key : ∀ s1 : State, s1.tickets = s.tickets →
      Good h s (.ticketNumber cb (some (t, m))) t
        (s1.set t {}, { said := [.begin cb (.ok t)] }) := by
    intro s1 h1
    constructor
    · intro x hx
      rw [lookup_set, if_neg hx, h1]
    · simp
    · intro x _
      simp [Said.aborts]
    · refine .inr ⟨rfl, ?_⟩
      intro tk _
      exact ⟨rfl, cb, m, rfl⟩
    · intro tk htk
      rw [lookup_set, if_pos rfl] at htk
      rw [← Option.some.inj htk]
      refine TInv.init (by simp) ?_
      intro y hy c hc i hi
      exact hp (inv.called y hy c hc i t hi)
  unfold handleTicketNumber
  simp only
  by_cases hm : s.highest < m
  · simp only [if_pos hm, hno]
    exact key _ rfl
  · simp only [if_neg hm, hno]
    exact key _ rfl

theorem good_tryLock {h : Hist} {s : State} (inv : Inv h s) (cb : Nat) (t : Tn)
    (ok : Bool) : Good h s (.tryLock cb t ok) t (tryLock s cb t ok) := by
  unfold tryLock
  cases hl : s.tickets.lookup t with
  | none => exact Good.same inv rfl (by simp [Said.aborts])
  | some tk =>
    have hsaid : ∀ x, (if ok = true then [] else
        [Said.lock cb t (.error (.broker .directoryUnreachable))]).any
        (Said.aborts x) = false := by
      intro x
      cases ok <;> simp [Said.aborts]
    cases hst : tk.state with
    | prepared =>
      simp only [hst]
      exact Good.same inv rfl (by simp [Said.aborts])
    | committed =>
      simp only [hst]
      exact Good.same inv rfl (by simp [Said.aborts])
    | begun =>
      simp only [hst]
      exact Good.same inv rfl hsaid
    | aborted =>
      simp only [hst]
      refine Good.set hl (by simp) (fun x _ => hsaid x) ?_
      have ht := inv.ticket t tk hl
      refine ht.step (hsaid t) (by simp [Keyed]) ?_ (by simp)
        (fun _ _ => .inr hst) (by simp) (by simp) (by simp) (by simp) (by simp)
      exact fun _ => ⟨.inr hst, by simp⟩

theorem good_foundKey {h : Hist} {s : State} (inv : Inv h s) (cb : Nat) (t : Tn)
    (k : Key) (ty : LockType) (r : Option Nat) (ok : Bool) :
    Good h s (.foundKey cb t k ty r ok) t (handleFindKey s cb t k ty r ok) := by
  unfold handleFindKey
  cases hl : s.tickets.lookup t with
  | none => exact Good.same inv rfl (by simp [Said.aborts])
  | some tk =>
    have ht := inv.ticket t tk hl
    cases hst : tk.state with
    | prepared =>
      simp only [hst]
      exact Good.same inv rfl (by simp [Said.aborts])
    | committed =>
      simp only [hst]
      exact Good.same inv rfl (by simp [Said.aborts])
    | aborted =>
      simp only [hst]
      exact Good.same inv rfl (by simp [Said.aborts])
    | begun =>
      simp only [hst]
      cases r with
      | none => exact Good.same inv rfl (by simp [Said.aborts])
      | some i =>
        simp only
        cases hc : cached (((touch tk.shards i).lookup i).getD {}) k ty with
        | some v =>
          simp only
          refine Good.set hl (by simp) (by simp [Said.aborts]) ?_
          refine ht.step (by simp [Said.aborts]) (ht.keyed.touch i)
            ?_ ?_ (fun j hj => .inl (has_touch hj)) (by simp) ?_ ?_ ?_ ?_
          · exact fun _ => ⟨.inl hst, by simp⟩
          · simp [hst]
          · intro e he hs
            rcases mem_touch he with he | rfl
            · exact (ht.prepared e he hs).mono (by simp [Said.aborts])
            · simp at hs
          · intro e he hs
            rcases mem_touch he with he | rfl
            · exact (ht.committed e he hs).mono (by simp [Said.aborts])
            · simp at hs
          · simp [hst]
          · simp [hst]
        | none =>
          simp only
          have key : ∀ o : Out, (∀ c ∈ o.calls, c.ticket = some (i, t) ∧
              ∀ i c', c ≠ Call.commit i t c') →
              (∀ x, o.said.any (Said.aborts x) = false) →
              Good h s (.foundKey cb t k ty (some i) ok) t
                (s.set t {
                  state := .begun
                  shards := update (touch tk.shards i) i fun sh =>
                    { sh with keys := locking sh.keys k ty } }, o) := by
            intro o h1 h2
            refine Good.set hl (fun c hc => ⟨i, (h1 c hc).1⟩) (fun x _ => h2 x)
              ?_
            refine ht.step (h2 t) ((ht.keyed.touch i).update i _) ?_ ?_
              (fun j hj => .inl (by exact has_update.mpr (has_touch hj))) ?_ ?_ ?_ ?_ ?_
            · exact fun _ => ⟨.inl hst, fun i c hc => (h1 _ hc).2 i c rfl⟩
            · simp [hst]
            · intro c hc j hj
              rw [(h1 c hc).1] at hj
              simp only [Option.some.injEq, Prod.mk.injEq, and_true] at hj
              rw [← hj]
              exact has_update.mpr (has_touch_self _ _)
            · intro e he hs
              rcases mem_update he with ⟨_, he⟩ | ⟨hei, sh, hm, he⟩
              · rcases mem_touch he with he | rfl
                · exact (ht.prepared e he hs).mono (h2 t)
                · simp at hs
              · rw [he] at hs
                rcases mem_touch hm with hm | heq
                · rw [hei]
                  exact (ht.prepared _ hm hs).mono (h2 t)
                · simp only [Prod.mk.injEq, true_and] at heq
                  rw [heq] at hs
                  simp at hs
            · intro e he hs
              rcases mem_update he with ⟨_, he⟩ | ⟨hei, sh, hm, he⟩
              · rcases mem_touch he with he | rfl
                · exact (ht.committed e he hs).mono (h2 t)
                · simp at hs
              · rw [he] at hs
                rcases mem_touch hm with hm | heq
                · rw [hei]
                  exact (ht.committed _ hm hs).mono (h2 t)
                · simp only [Prod.mk.injEq, true_and] at heq
                  rw [heq] at hs
                  simp at hs
            · simp [hst]
            · simp [hst]
          cases ok with
          | true =>
            rw [if_pos rfl]
            exact key { calls := [.tryLock i t k ty
              (((touch tk.shards i).lookup i).getD {}).keys.isEmpty cb] }
              (by simp [Call.ticket]) (by simp)
          | false =>
            rw [if_neg (by simp)]
            exact key { said := [.lock cb t (.error
              (.broker .shardUnreachable))] } (by simp) (by simp [Said.aborts])

theorem good_locked {h : Hist} {s : State} (inv : Inv h s) {cb : Nat} {t : Tn}
    {k : Key} {i : Nat} {r : Answer} (hp : Plain h (.locked cb t k i r)) :
    Good h s (.locked cb t k i r) t (handleLock s cb t k i r) := by
  unfold handleLock
  cases r with
  | error e => exact Good.same inv rfl (by simp [Said.aborts])
  | value v =>
    simp only
    cases hl : s.tickets.lookup t with
    | none => exact Good.same inv rfl (by simp [Said.aborts])
    | some tk =>
      have ht := inv.ticket t tk hl
      obtain ⟨ty, f, ha⟩ := hp
      have hhas : has tk.shards i := ht.known _ i ha rfl
      simp only [touch_of_has hhas]
      have key : ∀ (f : Sh → Sh) (o : Out), (∀ sh, (f sh).state = sh.state) →
          o.calls = [] → (∀ x, o.said.any (Said.aborts x) = false) →
          Good h s (.locked cb t k i (.value v)) t
            (s.set t { tk with shards := update tk.shards i f }, o) := by
        intro f o hf h1 h2
        refine Good.set hl (by simp [h1]) (fun x _ => h2 x) ?_
        have hm : ∀ e ∈ update tk.shards i f, ∃ e' ∈ tk.shards,
            e'.1 = e.1 ∧ e'.2.state = e.2.state := by
          intro e he
          rcases mem_update he with ⟨_, he⟩ | ⟨hei, sh, hm, he⟩
          · exact ⟨e, he, rfl, rfl⟩
          · exact ⟨_, hm, hei.symm, by rw [he, hf]⟩
        refine ht.step (h2 t) (ht.keyed.update i _) ?_ ?_
          (fun j hj => .inl (has_update.mpr hj)) (by simp [h1]) ?_ ?_ ?_ ?_
        · exact fun hs => ⟨hs, by simp [h1]⟩
        · exact fun hs => ⟨hs, by simp [h1]⟩
        · intro e he hs
          obtain ⟨e', g1, g2, g3⟩ := hm e he
          rw [← g2]
          exact (ht.prepared e' g1 (by rw [g3, hs])).mono (h2 t)
        · intro e he hs
          obtain ⟨e', g1, g2, g3⟩ := hm e he
          rw [← g2]
          exact (ht.committed e' g1 (by rw [g3, hs])).mono (h2 t)
        · intro hs e he
          obtain ⟨e', g1, g2, g3⟩ := hm e he
          rw [← g2]
          exact (ht.decided hs e' g1).mono (h2 t)
        · intro hs e he
          obtain ⟨e', g1, g2, g3⟩ := hm e he
          rw [← g2]
          exact (ht.done hs e' g1).mono (h2 t)
      have hid : update tk.shards i (fun sh => sh) = tk.shards := by
        unfold update
        conv => rhs; rw [← List.map_id tk.shards]
        apply List.map_congr_left
        intro e _
        split <;> rfl
      have bad : Good h s (.locked cb t k i (.value v)) t
          (s.set t { tk with shards := tk.shards },
            { said := [.lock cb t (.error (.broker .invalidShardState))] }) := by
        have := key (fun sh => sh)
          { said := [.lock cb t (.error (.broker .invalidShardState))] }
          (fun _ => rfl) rfl (by simp [Said.aborts])
        rw [hid] at this
        exact this
      cases hk : (((tk.shards.lookup i).getD {}).keys).lookup k with
      | none => exact bad
      | some q =>
        simp only
        cases hq : q.locked with
        | true => exact bad
        | false => exact key _ _ (fun _ => rfl) rfl (by simp [Said.aborts])

/-- A loop that makes requests to shards. -/
theorem TInv.loop {t : Tn} {h : Hist} {tk : Ticket} (inv : TInv t h tk)
    {x : Event × Out} (hx : x.2.said.any (Said.aborts t) = false)
    {skip : SState → Bool} {to : SState} {p : Option Stop} {f : Nat × Sh → Call}
    (h1 : to ≠ .prepared) (h2 : to ≠ .committed)
    (hc : x.2.calls = (targets tk.shards skip p).map f)
    (hf : ∀ e, (f e).ticket = some (e.1, t))
    (hs : tk.state ≠ .aborted)
    (hcommit : tk.state = .begun → ∀ e i c, f e ≠ .commit i t c) :
    TInv t (x :: h) { tk with shards := mark tk.shards skip to p } := by
  have hm : ∀ e ∈ mark tk.shards skip to p, ∃ e' ∈ tk.shards,
      e'.1 = e.1 ∧ (e'.2.state = e.2.state ∨ e.2.state = to) := by
    intro e he
    rcases mem_mark he with he | ⟨sh, g1, _, _, g2⟩
    · exact ⟨e, he, rfl, .inl rfl⟩
    · exact ⟨_, g1, rfl, .inr (by rw [g2])⟩
  refine inv.step hx (inv.keyed.mark _ _ _) ?_ ?_
    (fun j hj => .inl (by exact has_mark.mpr hj)) ?_ ?_ ?_ ?_ ?_
  · intro hs'
    refine ⟨hs', ?_⟩
    intro i c hic
    rw [hc] at hic
    obtain ⟨e, _, he⟩ := List.mem_map.mp hic
    rcases hs' with hb | hb
    · exact hcommit hb e i c he
    · exact absurd hb hs
  · exact fun h' => absurd h' hs
  · intro c hc' i hi
    rw [hc] at hc'
    obtain ⟨e, he, rfl⟩ := List.mem_map.mp hc'
    rw [hf] at hi
    simp only [Option.some.injEq, Prod.mk.injEq, and_true] at hi
    exact has_mark.mpr ⟨e, (List.mem_filter.mp he).1, hi⟩
  · intro e he hes
    obtain ⟨e', g1, g2, g3⟩ := hm e he
    rcases g3 with g3 | g3
    · rw [← g2]
      exact (inv.prepared e' g1 (by rw [g3, hes])).mono hx
    · rw [g3] at hes
      exact absurd hes h1
  · intro e he hes
    obtain ⟨e', g1, g2, g3⟩ := hm e he
    rcases g3 with g3 | g3
    · rw [← g2]
      exact (inv.committed e' g1 (by rw [g3, hes])).mono hx
    · rw [g3] at hes
      exact absurd hes h2
  · intro hd e he
    obtain ⟨e', g1, g2, _⟩ := hm e he
    rw [← g2]
    exact (inv.decided hd e' g1).mono hx
  · intro hd e he
    obtain ⟨e', g1, g2, _⟩ := hm e he
    rw [← g2]
    exact (inv.done hd e' g1).mono hx

/-- What a result of a commit adds. -/
theorem said_commit (cb : Nat) (t : Tn) (r : Option Fail) (x : Tn) :
    (if r.isSome then [Said.commit cb t r] else []).any (Said.aborts x) =
      false := by
  split <;> simp [Said.aborts]

/-- Combines a change of the ticket with the result of a commit. -/
theorem commit_result {c : Cont} (hc : c.recovery = false) (s : State) (t : Tn)
    (r : Ticket × List Call × Option Fail) (p : Option Stop) :
    (if r.2.2.isSome then
      ((commitDone (s.set t r.1) c t r.2.2 p).1,
        ({ calls := r.2.1 ++ (commitDone (s.set t r.1) c t r.2.2 p).2.calls
           said := (commitDone (s.set t r.1) c t r.2.2 p).2.said } : Out))
      else (s.set t r.1, { calls := r.2.1 })) =
    (s.set t r.1,
      { calls := r.2.1
        said := if r.2.2.isSome then [.commit c.cb t r.2.2] else [] }) := by
  rw [commitDone_plain hc]
  split <;> simp

theorem rollback_result {c : Cont} (hc : c.recovery = false) (s : State) (t : Tn)
    (r : Ticket × List Call × Option Fail) (p : Option Stop) :
    (if r.2.2.isSome then
      ((rollbackDone (s.set t r.1) c t r.2.2 p).1,
        ({ calls := r.2.1 ++ (rollbackDone (s.set t r.1) c t r.2.2 p).2.calls
           said := (rollbackDone (s.set t r.1) c t r.2.2 p).2.said } : Out))
      else (s.set t r.1, { calls := r.2.1 })) =
    (s.set t r.1,
      { calls := r.2.1
        said := if r.2.2.isSome then [.rollback c.cb t r.2.2] else [] }) := by
  rw [rollbackDone_plain hc]
  split <;> simp

theorem good_commit {h : Hist} {s : State} (inv : Inv h s) (cb : Nat) (t : Tn)
    (u : List (Key × Value)) (p : Option Stop) :
    Good h s (.commit cb t u p) t (commit s t u ⟨cb, false⟩ p) := by
  unfold commit
  cases hl : s.tickets.lookup t with
  | none =>
    simp only
    rw [commitDone_plain rfl]
    exact Good.same inv rfl (by simp [Said.aborts])
  | some tk =>
    simp only
    have ht := inv.ticket t tk hl
    rw [commit_result rfl]
    cases hce : tk.commitError u with
    | some e =>
      simp only [Ticket.commit, hce]
      refine Good.set hl (by simp) (by simp [Said.aborts]) ?_
      exact ht.same (by simp [Said.aborts]) (by simp)
    | none =>
      have hst : tk.state = .begun ∨ tk.state = .prepared := by
        unfold Ticket.commitError at hce
        cases h1 : tk.state with
        | begun => exact .inl rfl
        | prepared => exact .inr rfl
        | committed => simp [h1] at hce
        | aborted => simp [h1] at hce
      simp only [Ticket.commit, hce]
      rcases hst with hst | hst
      · rw [if_neg (by simp [hst])]
        unfold Ticket.doPrepare
        refine Good.set hl ?_ (fun x _ => said_commit _ _ _ x) ?_
        · intro c hc
          obtain ⟨e, _, rfl⟩ := List.mem_map.mp hc
          exact ⟨e.1, rfl⟩
        · exact ht.loop (said_commit _ _ _ t) (by simp) (by simp) rfl
            (fun _ => rfl) (by simp [hst]) (by simp)
      · rw [if_pos hst]
        unfold Ticket.doCommit
        refine Good.set hl ?_ (fun x _ => said_commit _ _ _ x) ?_
        · intro c hc
          obtain ⟨e, _, rfl⟩ := List.mem_map.mp hc
          exact ⟨e.1, rfl⟩
        · exact ht.loop (said_commit _ _ _ t) (by simp) (by simp) rfl
            (fun _ => rfl) (by simp [hst]) (by simp [hst])

theorem mem_setState {l : List (Nat × Sh)} {i : Nat} {x : SState}
    {e : Nat × Sh} (h : e ∈ setState l i x) :
    (e.1 ≠ i ∧ e ∈ l) ∨ (e.1 = i ∧ e.2.state = x ∧ ∃ sh, (i, sh) ∈ l) := by
  rcases mem_update h with h | ⟨h1, sh, h2, h3⟩
  · exact .inl h
  · exact .inr ⟨h1, by rw [h3], sh, h2⟩

/-- A shard answered and its element is set to a new state. -/
theorem TInv.answer {t : Tn} {h : Hist} {tk : Ticket} (inv : TInv t h tk)
    {x : Event × Out} (hx : x.2.said.any (Said.aborts t) = false)
    (hc : x.2.calls = []) {i : Nat} {to : SState} (hs : tk.state ≠ .aborted)
    (hp : to = .prepared → ReportedPrepared t (x :: h) i)
    (hcm : to = .committed → ReportedCommitted t (x :: h) i) :
    TInv t (x :: h) { tk with shards := setState tk.shards i to } := by
  have hm : ∀ e ∈ setState tk.shards i to, ∃ e' ∈ tk.shards, e'.1 = e.1 := by
    intro e he
    rcases mem_setState he with ⟨_, he⟩ | ⟨hei, _, sh, he⟩
    · exact ⟨e, he, rfl⟩
    · exact ⟨_, he, hei.symm⟩
  refine inv.step hx (inv.keyed.setState _ _) ?_ ?_
    (fun j hj => .inl (by exact has_setState.mpr hj)) (by simp [hc]) ?_ ?_ ?_ ?_
  · exact fun hs' => ⟨hs', by simp [hc]⟩
  · exact fun hs' => absurd hs' hs
  · intro e he hes
    rcases mem_setState he with ⟨_, he⟩ | ⟨hei, hst, _⟩
    · exact (inv.prepared e he hes).mono hx
    · rw [hei]
      exact hp (by rw [← hst, hes])
  · intro e he hes
    rcases mem_setState he with ⟨_, he⟩ | ⟨hei, hst, _⟩
    · exact (inv.committed e he hes).mono hx
    · rw [hei]
      exact hcm (by rw [← hst, hes])
  · intro hd e he
    obtain ⟨e', g1, g2⟩ := hm e he
    rw [← g2]
    exact (inv.decided hd e' g1).mono hx
  · intro hd e he
    obtain ⟨e', g1, g2⟩ := hm e he
    rw [← g2]
    exact (inv.done hd e' g1).mono hx

theorem reportedPrepared_new {t : Tn} {h : Hist} {i : Nat} {c : Cont}
    {p : Option Stop} {o : Out} (ho : o.said.any (Said.aborts t) = false)
    {u : List (Key × Value)} (ha : Asked t h (.prepare i t u c)) :
    ReportedPrepared t ((.prepared c t i none p, o) :: h) i := by
  obtain ⟨x, hx, hc⟩ := ha
  refine ⟨[], c, p, o, attempt t h, attempt_cons ho, u, x, hx, hc⟩

theorem reportedCommitted_new {t : Tn} {h : Hist} {i : Nat} {c : Cont}
    {p : Option Stop} {o : Out} (ho : o.said.any (Said.aborts t) = false)
    (ha : Asked t h (.commit i t c)) :
    ReportedCommitted t ((.committed c t i none p, o) :: h) i := by
  obtain ⟨x, hx, hc⟩ := ha
  refine ⟨[], c, p, o, attempt t h, attempt_cons ho, x, hx, hc⟩

theorem good_prepared {h : Hist} {s : State} (inv : Inv h s) {c : Cont} {t : Tn}
    {i : Nat} {r : Option ShardError} {p : Option Stop}
    (hp : Plain h (.prepared c t i r p)) :
    Good h s (.prepared c t i r p) t (handlePrepare s c t i r p) := by
  obtain ⟨hc, u, ha⟩ := hp
  unfold handlePrepare
  cases hl : s.tickets.lookup t with
  | none =>
    simp only
    rw [commitDone_plain hc]
    exact Good.same inv rfl (by simp [Said.aborts])
  | some tk =>
    simp only
    have ht := inv.ticket t tk hl
    have hhas : has tk.shards i := ht.known _ i ha rfl
    cases hst : tk.state with
    | prepared =>
      simp only
      rw [commitDone_plain hc]
      exact Good.same inv rfl (by simp [Said.aborts])
    | committed =>
      simp only
      rw [commitDone_plain hc]
      exact Good.same inv rfl (by simp [Said.aborts])
    | aborted =>
      simp only
      rw [commitDone_plain hc]
      exact Good.same inv rfl (by simp [Said.aborts])
    | begun =>
      simp only
      rw [commit_result hc]
      unfold Ticket.handlePrepare
      simp only [touch_of_has hhas]
      have htk : ({ tk with shards := tk.shards } : Ticket) = tk := rfl
      have same : ∀ f : Option Fail,
          Good h s (.prepared c t i r p) t (s.set t tk,
            { calls := []
              said := if f.isSome then [.commit c.cb t f] else [] }) := by
        intro f
        refine Good.set hl (by simp) (fun x _ => said_commit _ _ _ x) ?_
        exact ht.same (said_commit _ _ _ t) (by simp)
      by_cases hpr : stateOf tk.shards i ≠ .preparing
      · simp only [if_pos hpr]
        exact same none
      · simp only [if_neg hpr]
        cases r with
        | some e =>
          simp only
          by_cases hw : e.code = .wounded
          · simp only [if_pos hw]
            split
            · exact same none
            · refine Good.set hl (by simp) (by simp [Said.aborts]) ?_
              exact ht.answer (by simp [Said.aborts]) rfl (by simp [hst])
                (by simp) (by simp)
          · simp only [if_neg hw]
            exact same (some (.shard e))
        | none =>
          simp only
          by_cases hall : ((setState tk.shards i .prepared).all fun e =>
              e.2.state = .prepared) = true
          · simp only [if_pos hall]
            unfold Ticket.doCommit
            simp only
            refine Good.set hl ?_ (fun x _ => said_commit _ _ _ x) ?_
            · intro c' hc'
              obtain ⟨e, _, rfl⟩ := List.mem_map.mp hc'
              exact ⟨e.1, rfl⟩
            · have hrep : ∀ (o : Out), o.said.any (Said.aborts t) = false →
                  ∀ e ∈ setState tk.shards i .prepared,
                  ReportedPrepared t ((.prepared c t i none p, o) :: h) e.1 := by
                intro o ho e he
                rcases mem_setState he with ⟨hne, he'⟩ | ⟨hei, _, _⟩
                · have : e.2.state = .prepared := by
                    simpa using List.all_eq_true.mp hall e he
                  exact (ht.prepared e he' this).mono ho
                · rw [hei]
                  exact reportedPrepared_new ho ha
              refine ht.step (said_commit _ _ _ t)
                ((ht.keyed.setState _ _).mark _ _ _) (by simp) (by simp)
                (fun j hj => .inl (by exact has_mark.mpr (has_setState.mpr hj)))
                ?_ ?_ ?_ ?_ (by simp)
              · intro c' hc' j hj
                obtain ⟨e, he, rfl⟩ := List.mem_map.mp hc'
                simp only [Call.ticket, Option.some.injEq, Prod.mk.injEq,
                  and_true] at hj
                exact has_mark.mpr ⟨e, (List.mem_filter.mp he).1, hj⟩
              · intro e he _
                rcases mem_mark he with he | ⟨sh, he, _⟩
                · exact hrep _ (said_commit _ _ _ t) e he
                · exact hrep _ (said_commit _ _ _ t) (e.1, sh) he
              · intro e he hes
                rcases mem_mark he with he | ⟨sh, he, _, _, g⟩
                · have : e.2.state = .prepared := by
                    simpa using List.all_eq_true.mp hall e he
                  rw [this] at hes
                  simp at hes
                · rw [g] at hes
                  simp at hes
              · intro _ e he
                rcases mem_mark he with he | ⟨sh, he, _⟩
                · exact hrep _ (said_commit _ _ _ t) e he
                · exact hrep _ (said_commit _ _ _ t) (e.1, sh) he
          · simp only [if_neg hall]
            refine Good.set hl (by simp) (by simp) ?_
            exact ht.answer (by simp) rfl (by simp [hst])
              (fun _ => reportedPrepared_new (by simp) ha) (by simp)

theorem good_committed {h : Hist} {s : State} (inv : Inv h s) {c : Cont} {t : Tn}
    {i : Nat} {r : Option ShardError} {p : Option Stop}
    (hp : Plain h (.committed c t i r p)) :
    Good h s (.committed c t i r p) t (handleCommit s c t i r p) := by
  obtain ⟨hc, ha⟩ := hp
  unfold handleCommit
  cases hl : s.tickets.lookup t with
  | none =>
    simp only
    rw [commitDone_plain hc]
    exact Good.same inv rfl (by simp [Said.aborts])
  | some tk =>
    simp only
    have ht := inv.ticket t tk hl
    have hhas : has tk.shards i := ht.known _ i ha rfl
    cases hst : tk.state with
    | begun =>
      simp only
      rw [commitDone_plain hc]
      exact Good.same inv rfl (by simp [Said.aborts])
    | committed =>
      simp only
      rw [commitDone_plain hc]
      exact Good.same inv rfl (by simp [Said.aborts])
    | aborted =>
      simp only
      rw [commitDone_plain hc]
      exact Good.same inv rfl (by simp [Said.aborts])
    | prepared =>
      simp only [touch_of_has hhas]
      split
      · rw [commitDone_plain hc]
        refine Good.set hl (by simp) (by simp [Said.aborts]) ?_
        rw [← hst]
        exact ht.same (by simp [Said.aborts]) (by simp)
      · split
        · rw [commitDone_plain hc]
          exact Good.same inv rfl (by simp [Said.aborts])
        · rename_i hr
          have hr' : r = none := by
            cases r with
            | none => rfl
            | some e => simp at hr
          subst hr'
          have hans : ∀ o : Out, o.calls = [] →
              o.said.any (Said.aborts t) = false →
              TInv t ((.committed c t i none p, o) :: h)
                { tk with shards := setState tk.shards i .committed } := by
            intro o h1 h2
            exact ht.answer h2 h1 (by simp [hst]) (by simp)
              (fun _ => reportedCommitted_new h2 ha)
          split
          · rename_i hall
            rw [commitDone_plain hc]
            refine Good.set hl (by simp) (by simp [Said.aborts]) ?_
            have h1 := hans { said := [.commit c.cb t none] } rfl
              (by simp [Said.aborts])
            constructor
            · exact h1.keyed
            · simp
            · simp
            · exact h1.known
            · exact h1.prepared
            · exact h1.committed
            · exact fun _ => h1.decided (.inl hst)
            · intro _ e he
              refine h1.committed e he ?_
              simpa using List.all_eq_true.mp hall e he
          · refine Good.set hl (by simp) (by simp) ?_
            rw [← hst]
            exact hans {} rfl (by simp)

theorem said_rollback (cb : Nat) (t : Tn) (r : Option Fail) (x : Tn) :
    (if r.isSome then [Said.rollback cb t r] else []).any (Said.aborts x) =
      false := by
  cases r <;> simp [Said.aborts]

theorem good_rollback {h : Hist} {s : State} (inv : Inv h s) (cb : Nat) (t : Tn)
    (p : Option Stop) :
    Good h s (.rollback cb t p) t (rollback s t ⟨cb, false⟩ p) := by
  unfold rollback
  cases hl : s.tickets.lookup t with
  | none =>
    simp only
    rw [rollbackDone_plain rfl]
    exact Good.same inv rfl (by simp [Said.aborts])
  | some tk =>
    simp only
    have ht := inv.ticket t tk hl
    cases hst : tk.state with
    | prepared =>
      simp only
      rw [rollbackDone_plain rfl]
      exact Good.same inv rfl (by simp [Said.aborts])
    | committed =>
      simp only
      rw [rollbackDone_plain rfl]
      exact Good.same inv rfl (by simp [Said.aborts])
    | aborted =>
      simp only
      rw [rollbackDone_plain rfl]
      exact Good.same inv rfl (by simp [Said.aborts])
    | begun =>
      simp only
      split
      · rename_i hemp
        rw [rollbackDone_plain rfl]
        refine Good.set hl (by simp) ?_ ?_
        · intro x hx
          simp [Said.aborts]
          exact fun h => hx h.symm
        · refine ht.aborted (by simp [Said.aborts]) ht.keyed hst (by simp) ?_
          intro e he
          simp only [List.isEmpty_iff] at hemp
          simp [hemp] at he
      · rw [rollback_result rfl]
        unfold Ticket.rollback
        refine Good.set hl ?_ (fun x _ => said_rollback _ _ _ x) ?_
        · intro c hc
          obtain ⟨e, _, rfl⟩ := List.mem_map.mp hc
          exact ⟨e.1, rfl⟩
        · exact ht.loop (said_rollback _ _ _ t) (by simp) (by simp) rfl
            (fun _ => rfl) (by simp [hst]) (by simp)

theorem good_rolledBack {h : Hist} {s : State} (inv : Inv h s) {c : Cont}
    {t : Tn} {i : Nat} {r : Option ShardError} {p : Option Stop}
    (hp : Plain h (.rolledBack c t i r p)) :
    Good h s (.rolledBack c t i r p) t (handleRollback s c t i r p) := by
  obtain ⟨hc, ha⟩ := hp
  unfold handleRollback
  cases hl : s.tickets.lookup t with
  | none =>
    simp only
    rw [rollbackDone_plain hc]
    exact Good.same inv rfl (by simp [Said.aborts])
  | some tk =>
    simp only
    have ht := inv.ticket t tk hl
    have hhas : has tk.shards i := ht.known _ i ha rfl
    cases hst : tk.state with
    | prepared =>
      simp only
      rw [rollbackDone_plain hc]
      exact Good.same inv rfl (by simp [Said.aborts])
    | committed =>
      simp only
      rw [rollbackDone_plain hc]
      exact Good.same inv rfl (by simp [Said.aborts])
    | aborted =>
      simp only
      rw [rollbackDone_plain hc]
      exact Good.same inv rfl (by simp [Said.aborts])
    | begun =>
      simp only [touch_of_has hhas]
      split
      · rw [rollbackDone_plain hc]
        refine Good.set hl (by simp) (by simp [Said.aborts]) ?_
        rw [← hst]
        exact ht.same (by simp [Said.aborts]) (by simp)
      · split
        · rw [rollbackDone_plain hc]
          exact Good.same inv rfl (by simp [Said.aborts])
        · split
          · rename_i hall
            rw [rollbackDone_plain hc]
            refine Good.set hl (by simp) ?_ ?_
            · intro x hx
              simp [Said.aborts]
              exact fun h => hx h.symm
            · refine ht.aborted (by simp [Said.aborts]) (ht.keyed.update _ _)
                hst (by simp) ?_
              intro e he
              simpa using List.all_eq_true.mp hall e he
          · refine Good.set hl (by simp) (by simp) ?_
            have hm : ∀ e ∈ update tk.shards i
                (fun _ => { state := .rolledBack, keys := [] }),
                e ∈ tk.shards ∨ e.2.state = .rolledBack := by
              intro e he
              rcases mem_update he with ⟨_, he⟩ | ⟨_, _, _, he⟩
              · exact .inl he
              · exact .inr (by rw [he])
            refine ht.step (by simp) (ht.keyed.update _ _) ?_ (by simp)
              (fun j hj => .inl (by exact has_update.mpr hj)) (by simp) ?_ ?_
              (by simp) (by simp)
            · exact fun _ => ⟨.inl hst, by simp⟩
            · intro e he hes
              rcases hm e he with he | he
              · exact (ht.prepared e he hes).mono (by simp)
              · rw [he] at hes
                simp at hes
            · intro e he hes
              rcases hm e he with he | he
              · exact (ht.committed e he hes).mono (by simp)
              · rw [he] at hes
                simp at hes

theorem said_finish (cb : Nat) (t : Tn) (r : Option Fail) (x : Tn) :
    (if r.isSome then [Said.finish cb t r] else []).any (Said.aborts x) =
      false := by
  cases r <;> simp [Said.aborts]

theorem good_finish {h : Hist} {s : State} (inv : Inv h s) (cb : Nat) (t : Tn)
    (p : Option Stop) :
    Good h s (.finish cb t p) t (finish s t ⟨cb, false⟩ p) := by
  unfold finish
  cases hl : s.tickets.lookup t with
  | none =>
    simp only [finishDone_plain]
    exact Good.same inv rfl (by simp [Said.aborts])
  | some tk =>
    simp only [finishDone_plain]
    have ht := inv.ticket t tk hl
    cases hst : tk.state with
    | begun =>
      exact Good.same inv rfl (by simp [Said.aborts])
    | prepared =>
      exact Good.same inv rfl (by simp [Said.aborts])
    | aborted =>
      exact Good.erase hl rfl (by simp [Said.aborts])
    | committed =>
      simp only
      unfold Ticket.finish
      refine Good.set hl ?_ (fun x _ => said_finish _ _ _ x) ?_
      · intro c hc
        obtain ⟨e, _, rfl⟩ := List.mem_map.mp hc
        exact ⟨e.1, rfl⟩
      · exact ht.loop (said_finish _ _ _ t) (by simp) (by simp) rfl
          (fun _ => rfl) (by simp [hst]) (by simp)

theorem good_finished {h : Hist} {s : State} (inv : Inv h s) {c : Cont}
    {t : Tn} {i : Nat} {r : Option ShardError}
    (hp : Plain h (.finished c t i r)) :
    Good h s (.finished c t i r) t (handleFinish s c t i r) := by
  obtain ⟨hc, ha⟩ := hp
  unfold handleFinish
  simp only [finishDone_plain hc]
  cases hl : s.tickets.lookup t with
  | none => exact Good.same inv rfl (by simp [Said.aborts])
  | some tk =>
    simp only
    have ht := inv.ticket t tk hl
    have hhas : has tk.shards i := ht.known _ i ha rfl
    cases hst : tk.state with
    | prepared => exact Good.same inv rfl (by simp [Said.aborts])
    | begun => exact Good.same inv rfl (by simp [Said.aborts])
    | aborted => exact Good.same inv rfl (by simp [Said.aborts])
    | committed =>
      simp only [touch_of_has hhas]
      split
      · refine Good.set hl (by simp) (by simp [Said.aborts]) ?_
        rw [← hst]
        exact ht.same (by simp [Said.aborts]) (by simp)
      · split
        · exact Good.same inv rfl (by simp [Said.aborts])
        · split
          · exact Good.erase hl rfl (by simp [Said.aborts])
          · refine Good.set hl (by simp) (by simp) ?_
            rw [← hst]
            exact ht.answer (by simp) rfl (by simp [hst]) (by simp) (by simp)

/-- An event keeps the invariant of all tickets. -/
theorem Good.inv {h : Hist} {s : State} (inv : Inv h s) {e : Event} {t : Tn}
    {r : State × Out} (hg : Good h s e t r) : Inv ((e, r.2) :: h) r.1 := by
  have hiss : ∀ x, Issued x h → Issued x ((e, r.2) :: h) := by
    rintro x ⟨y, hy, hx⟩
    exact ⟨y, List.mem_cons_of_mem _ hy, hx⟩
  constructor
  · intro x tk hx
    by_cases hxt : x = t
    · subst hxt
      rcases hg.known with h1 | ⟨_, h1⟩
      · obtain ⟨tk', h2⟩ := Option.isSome_iff_exists.mp h1
        exact hiss _ (inv.issued x tk' h2)
      · obtain ⟨_, cb, m, he⟩ := h1 tk hx
        exact ⟨_, List.mem_cons_self, cb, m, he⟩
    · rw [hg.other x hxt] at hx
      exact hiss _ (inv.issued x tk hx)
  · intro x hx c hc i t' hct
    rcases List.mem_cons.mp hx with rfl | hx
    · simp only at hc
      obtain ⟨j, hj⟩ := hg.calls c hc
      rw [hct] at hj
      simp only [Option.some.injEq, Prod.mk.injEq] at hj
      rcases hg.known with h1 | ⟨h1, _⟩
      · obtain ⟨tk', h2⟩ := Option.isSome_iff_exists.mp h1
        rw [hj.2]
        exact hiss _ (inv.issued t tk' h2)
      · rw [h1] at hc
        simp at hc
    · exact hiss _ (inv.called x hx c hc i t' hct)
  · intro x tk hx
    by_cases hxt : x = t
    · subst hxt
      exact hg.own tk hx
    · rw [hg.other x hxt] at hx
      refine (inv.ticket x tk hx).same (hg.said x hxt) ?_
      intro c hc i hct
      obtain ⟨j, hj⟩ := hg.calls c hc
      rw [hct] at hj
      simp only [Option.some.injEq, Prod.mk.injEq] at hj
      exact hxt hj.2

/-- Every event but a refused begin is `Good`. -/
theorem good_step {h : Hist} {s s' : State} (inv : Inv h s) {e : Event} {o : Out}
    (hp : Plain h e) (hs : step s e = some (s', o)) :
    (s' = s ∧ e.ticket = none ∧ o.calls = [] ∧
      ∀ x, o.said.any (Said.aborts x) = false) ∨
    ∃ t, e.ticket = some t ∧ Good h s e t (s', o) := by
  cases e with
  | ticketNumber cb r =>
    simp only [step, Option.some.injEq] at hs
    cases r with
    | none =>
      refine .inl ?_
      simp only [handleTicketNumber, Prod.mk.injEq] at hs
      rw [← hs.1, ← hs.2]
      exact ⟨rfl, rfl, rfl, by simp [Said.aborts]⟩
    | some q =>
      rw [← hs]
      exact .inr ⟨q.1, rfl, good_ticketNumber inv hp⟩
  | tryLock cb t ok =>
    simp only [step, Option.some.injEq] at hs
    rw [← hs]
    exact .inr ⟨t, rfl, good_tryLock inv cb t ok⟩
  | foundKey cb t k ty r ok =>
    simp only [step, Option.some.injEq] at hs
    rw [← hs]
    exact .inr ⟨t, rfl, good_foundKey inv cb t k ty r ok⟩
  | locked cb t k i r =>
    simp only [step, Option.some.injEq] at hs
    rw [← hs]
    exact .inr ⟨t, rfl, good_locked inv hp⟩
  | commit cb t u p =>
    simp only [step, Option.some.injEq] at hs
    rw [← hs]
    exact .inr ⟨t, rfl, good_commit inv cb t u p⟩
  | prepared c t i r p =>
    simp only [step, Option.some.injEq] at hs
    rw [← hs]
    exact .inr ⟨t, rfl, good_prepared inv hp⟩
  | committed c t i r p =>
    simp only [step, Option.some.injEq] at hs
    rw [← hs]
    exact .inr ⟨t, rfl, good_committed inv hp⟩
  | rollback cb t p =>
    simp only [step, Option.some.injEq] at hs
    rw [← hs]
    exact .inr ⟨t, rfl, good_rollback inv cb t p⟩
  | rolledBack c t i r p =>
    simp only [step, Option.some.injEq] at hs
    rw [← hs]
    exact .inr ⟨t, rfl, good_rolledBack inv hp⟩
  | finish cb t p =>
    simp only [step, Option.some.injEq] at hs
    rw [← hs]
    exact .inr ⟨t, rfl, good_finish inv cb t p⟩
  | finished c t i r =>
    simp only [step, Option.some.injEq] at hs
    rw [← hs]
    exact .inr ⟨t, rfl, good_finished inv hp⟩
  | recover cb => exact hp.elim
  | gotTickets cb i r p => exact hp.elim

theorem Run.inv {n : Nat} {h : Hist} {s : State} (hr : Run n h s) : Inv h s := by
  induction hr with
  | start => exact ⟨by simp, by simp, by simp⟩
  | step hr hp hs ih =>
    rcases good_step ih hp hs with ⟨rfl, h1, h2, h3⟩ | ⟨t, _, hg⟩
    · constructor
      · intro t tk ht
        obtain ⟨y, hy, hx⟩ := ih.issued t tk ht
        exact ⟨y, List.mem_cons_of_mem _ hy, hx⟩
      · intro x hx c hc i t hct
        rcases List.mem_cons.mp hx with rfl | hx
        · rw [h2] at hc
          simp at hc
        · obtain ⟨y, hy, hx⟩ := ih.called x hx c hc i t hct
          exact ⟨y, List.mem_cons_of_mem _ hy, hx⟩
      · intro t tk ht
        exact (ih.ticket t tk ht).same (h3 t) (by simp [h2])
    · exact hg.inv ih

end Verif.Parsec.Broker
