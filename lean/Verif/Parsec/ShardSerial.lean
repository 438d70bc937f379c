import Verif.Parsec.ShardProps

/-!
# Transactions of the PArSEC shard act on current data (C65)
-/
namespace Verif.Parsec

theorem heldAfter_cases (gs : List Waiter) (t : Tn) (x : Option LockType) :
    heldAfter gs t x = x ∨
    ∃ w ∈ gs, w.ticket = t ∧ heldAfter gs t x = some w.type := by
  unfold heldAfter
  cases h : gs.find? (fun w => w.ticket = t) with
  | none => exact Or.inl rfl
  | some w =>
    right
    refine ⟨w, List.mem_of_find?_eq_some h, ?_, rfl⟩
    simpa using List.find?_some h

/-- A lock gained by `acquire` is announced. -/
theorem acquire_gain {P : Tn → Prop} {D : Key → Prop} {s : State}
    (inv : InvP P D s) (keys : Key → Bool) {k : Key} {t : Tn}
    (h0 : heldOf s k t = none) (h1 : heldOf (acquire s keys).1 k t ≠ none) :
    ∃ w ∈ (s.lock k).queue, w.ticket = t ∧
      (w.cb, .value (s.value k)) ∈ (acquire s keys).2 k := by
  rw [heldOf_acquire inv] at h1
  split at h1
  · rename_i hk
    rcases heldAfter_cases (s.lock k).grant.2 t (heldOf s k t) with h | h
    · rw [h] at h1
      exact absurd h0 h1
    · obtain ⟨w, hw, h2, -⟩ := h
      refine ⟨w, grant_mem hw, h2, ?_⟩
      simp only [acquire, hk, if_true, List.mem_map]
      exact ⟨w, hw, rfl⟩
  · exact absurd h0 h1

/-- A lock gained by a request is announced with the current value. -/
theorem exec_gain {s : State} (inv : Inv s) {op : Op} {s' : State} {o : Out}
    (h : exec s op = some (s', o)) {k : Key} {t : Tn}
    (h0 : heldOf s k t = none) (h1 : heldOf s' k t ≠ none) :
    ∃ w ∈ queueWith s op k, w.ticket = t ∧
      (w.cb, .value (s'.value k)) ∈ o.calls k := by
  cases op with
  | tryLock t' b k' ty f cb =>
    rcases tryLock_cases h with ⟨e, he⟩ | ⟨he, hs, ho⟩
    · unfold refuse at he
      simp only [Prod.mk.injEq] at he
      rw [he.1] at h1
      exact absurd h0 h1
    · obtain ⟨i1, -, -, i4, -⟩ := accept_ok inv t' b k' ty cb he
      have h0' : heldOf (woundFold (addWaiter s t' ((s.ticket t').getD {}) b
          k' ty cb) k' (waitingOn t' ty (s.lock k')) t').st k t = none := by
        apply Classical.byContradiction
        intro hc
        have := i4 k t hc
        rw [h0] at this
        exact hc this
      rw [hs, woundTickets_eq] at h1
      obtain ⟨w, hw, h2, h3⟩ := acquire_gain i1 _ h0' h1
      have hw := woundFold_queue_sub _ _ _ _ _ w hw
      refine ⟨w, ?_, h2, ?_⟩
      · unfold queueWith
        simp only
        unfold addWaiter at hw
        simp only at hw
        by_cases hk : k' = k
        · subst hk
          obtain ⟨-, -, -, h4⟩ := lockError_none he
          rw [getD_queued] at h4
          simp only [if_true] at hw ⊢
          rcases (mem_enqueue (fun y hy => inv.not_in_queue h4 y hy)).mp hw
            with rfl | hw
          · exact List.mem_cons_self
          · exact List.mem_cons_of_mem _ hw
        · have hne : k ≠ k' := fun h => hk h.symm
          simpa [hk, hne] using hw
      · rw [ho, hs, woundTickets_eq]
        simp only [Calls.append]
        exact List.mem_append_right _ h3
  | prepare t' u =>
    have h' : prepare s t' u = (s', o) := Option.some.inj h
    rw [show s' = (prepare s t' u).1 by rw [h']] at h1
    rcases prepare_cases s t' u with hc | ⟨tk', g1, g2, g3⟩
    · rw [hc.1] at h1
      exact absurd h0 h1
    · rw [g3] at h1
      rw [setPrepared_held g1] at h1
      exact absurd h0 h1
  | commit t' =>
    have h' : commit s t' = (s', o) := Option.some.inj h
    rw [show s' = (commit s t').1 by rw [h']] at h1 ⊢
    rw [show o = (commit s t').2 by rw [h']]
    rcases commit_cases s t' with hc | ⟨tk, g1, -, g3⟩
    · rw [hc.1] at h1
      exact absurd h0 h1
    · rw [g3] at h1 ⊢
      have hinv := released_ok (tk' := { tk with state := .committed })
        (s := applied s tk) (inv.setValue _) (tk := tk) g1 rfl rfl
        (bare_committed tk)
      have h0' : heldOf (released (applied s tk) t'
          { tk with state := .committed } (some (committedRecord tk))) k t =
          none := by
        rw [heldOf_released (bare_committed tk)]
        split
        · rfl
        · exact h0
      obtain ⟨w, hw, h2, h3⟩ := acquire_gain hinv _ h0' h1
      exact ⟨w, unlock_queue_sub _ _ _ _ w hw, h2,
        List.mem_append_left _ h3⟩
  | rollback t' =>
    have h' : rollback s t' = (s', o) := Option.some.inj h
    rw [show s' = (rollback s t').1 by rw [h']] at h1 ⊢
    rw [show o = (rollback s t').2 by rw [h']]
    rcases rollback_cases s t' with hc | ⟨tk, g1, g3⟩
    · rw [hc.2] at h1
      exact absurd h0 h1
    · rw [g3] at h1 ⊢
      have hinv := released_ok (tk' := tk) inv g1 rfl rfl bare_none
      have h0' : heldOf (released s t' tk none) k t = none := by
        rw [heldOf_released bare_none]
        split
        · rfl
        · exact h0
      obtain ⟨w, hw, h2, h3⟩ := acquire_gain hinv _ h0' h1
      exact ⟨w, unlock_queue_sub _ _ _ _ w hw, h2,
        List.mem_append_left _ h3⟩
  | finish t' =>
    have h' : finish s t' = (s', o) := Option.some.inj h
    rw [show s' = (finish s t').1 by rw [h']] at h1
    rcases finish_cases s t' with hc | ⟨tk, g1, g2, g3⟩
    · rw [hc.1] at h1
      exact absurd h0 h1
    · exfalso
      rw [g3] at h1
      by_cases ht : t = t'
      · subst ht
        simp [heldOf, State.setTicket] at h1
      · simp [heldOf, State.setTicket, ht] at h1
        exact h1 h0

/-- `t` asked for a lock on `k` with callback `c` in the history. -/
def Asked (h : List (Op × Out)) (t : Tn) (k : Key) (c : Nat) : Prop :=
  ∃ b ty f o, (Op.tryLock t b k ty f c, o) ∈ h

/-- Everybody in a queue asked for it. -/
theorem queue_sub {s : State} (inv : Inv s) {op : Op} {s' : State} {o : Out}
    (h : exec s op = some (s', o)) (k : Key) :
    ∀ w ∈ (s'.lock k).queue, w ∈ queueWith s op k := by
  have hacq : ∀ (st : State) (keys : Key → Bool),
      ∀ w ∈ ((acquire st keys).1.lock k).queue, w ∈ (st.lock k).queue := by
    intro st keys w hw
    unfold acquire at hw
    simp only at hw
    split at hw
    · have := grant_queue (st.lock k).writer (st.lock k).readers
        (st.lock k).queue
      rw [← this]
      exact List.mem_append_right _ hw
    · exact hw
  cases op with
  | tryLock t' b k' ty f cb =>
    rcases tryLock_cases h with ⟨e, he⟩ | ⟨he, hs, ho⟩
    · unfold refuse at he
      simp only [Prod.mk.injEq] at he
      rw [he.1]
      intro w hw
      unfold queueWith
      simp only
      split
      · exact List.mem_cons_of_mem _ hw
      · exact hw
    · rw [hs, woundTickets_eq]
      intro w hw
      have hw := woundFold_queue_sub _ _ _ _ _ w (hacq _ _ w hw)
      unfold queueWith
      simp only
      unfold addWaiter at hw
      simp only at hw
      by_cases hk : k' = k
      · subst hk
        obtain ⟨-, -, -, h4⟩ := lockError_none he
        rw [getD_queued] at h4
        simp only [if_true] at hw ⊢
        rcases (mem_enqueue (fun y hy => inv.not_in_queue h4 y hy)).mp hw
          with rfl | hw
        · exact List.mem_cons_self
        · exact List.mem_cons_of_mem _ hw
      · have hne : k ≠ k' := fun h => hk h.symm
        simpa [hk, hne] using hw
  | prepare t' u =>
    have h' : prepare s t' u = (s', o) := Option.some.inj h
    rw [show s' = (prepare s t' u).1 by rw [h']]
    rcases prepare_cases s t' u with hc | ⟨tk', g1, g2, g3⟩
    · rw [hc.1]
      exact fun w hw => hw
    · rw [g3]
      exact fun w hw => hw
  | commit t' =>
    have h' : commit s t' = (s', o) := Option.some.inj h
    rw [show s' = (commit s t').1 by rw [h']]
    rcases commit_cases s t' with hc | ⟨tk, g1, -, g3⟩
    · rw [hc.1]
      exact fun w hw => hw
    · rw [g3]
      intro w hw
      exact unlock_queue_sub _ _ _ _ w (hacq _ _ w hw)
  | rollback t' =>
    have h' : rollback s t' = (s', o) := Option.some.inj h
    rw [show s' = (rollback s t').1 by rw [h']]
    rcases rollback_cases s t' with hc | ⟨tk, g1, g3⟩
    · rw [hc.2]
      exact fun w hw => hw
    · rw [g3]
      intro w hw
      exact unlock_queue_sub _ _ _ _ w (hacq _ _ w hw)
  | finish t' =>
    have h' : finish s t' = (s', o) := Option.some.inj h
    rw [show s' = (finish s t').1 by rw [h']]
    rcases finish_cases s t' with hc | ⟨tk, g1, g2, g3⟩
    · rw [hc.1]
      exact fun w hw => hw
    · rw [g3]
      exact fun w hw => hw

theorem asked_step {h : List (Op × Out)} {op : Op} {o : Out} {s : State}
    (ih : ∀ k, ∀ w ∈ (s.lock k).queue, Asked h w.ticket k w.cb) (k : Key) :
    ∀ w ∈ queueWith s op k, Asked ((op, o) :: h) w.ticket k w.cb := by
  intro w hw
  have hold : w ∈ (s.lock k).queue → Asked ((op, o) :: h) w.ticket k w.cb := by
    intro hw
    obtain ⟨b, ty, f, o', hm⟩ := ih k w hw
    exact ⟨b, ty, f, o', List.mem_cons_of_mem _ hm⟩
  unfold queueWith at hw
  cases op with
  | tryLock t b k' ty f cb =>
    simp only at hw
    split at hw
    · rename_i hk
      subst hk
      rcases List.mem_cons.mp hw with rfl | hw
      · exact ⟨b, ty, f, o, List.mem_cons_self⟩
      · exact hold hw
    · exact hold hw
  | prepare t u => exact hold hw
  | commit t => exact hold hw
  | rollback t => exact hold hw
  | finish t => exact hold hw

theorem queue_asked {value : Key → Value} {ts : List (Tn × RTicket)}
    {h : List (Op × Out)} {s : State} (hh : Hist value ts h s) (k : Key) :
    ∀ w ∈ (s.lock k).queue, Asked h w.ticket k w.cb := by
  induction hh generalizing k with
  | start wf =>
    intro w hw
    simp [recover] at hw
  | step hh he ih =>
    intro w hw
    exact asked_step ih k w (queue_sub hh.reach.inv he k w hw)

/-- `t`, which has a lock on `k` in state `s`, obtained it in some request of
the history, was given `v` for it through a callback of one of its own
requests, and has had the lock without interruption since. -/
def Given (value : Key → Value) (ts : List (Tn × RTicket))
    (h : List (Op × Out)) (s : State) (t : Tn) (k : Key) (v : Value) : Prop :=
  ∃ post pre op o s0 s1 c, h = post ++ (op, o) :: pre ∧
    Hist value ts pre s0 ∧ exec s0 op = some (s1, o) ∧
    (∀ ty, ¬ Holds s0 t k ty) ∧ (c, .value v) ∈ o.calls k ∧
    Asked ((op, o) :: pre) t k c ∧ Keeps t k s1 s

/-- `t` was prepared when the shard was started, and has kept its lock on `k`
since. -/
def Inherited (value : Key → Value) (ts : List (Tn × RTicket)) (s : State)
    (t : Tn) (k : Key) : Prop :=
  isPrepared (recover value ts) t ∧ Keeps t k (recover value ts) s

/-- **C65.** At any moment, what a transaction was given for a key when it
obtained the lock it has on that key is the key's current value; in particular
when it commits.  Hence the committed transactions, executed one after the
other in the order of their commits, would be given the same values.  On a shard
started from replicated data this is so for the transactions that were not
prepared before. -/
theorem C65_current {value : Key → Value} {ts : List (Tn × RTicket)}
    {h : List (Op × Out)} {s : State} (hh : Hist value ts h s) {t : Tn}
    {k : Key} {ty : LockType} (hold : Holds s t k ty) :
    Given value ts h s t k (s.value k) ∨ Inherited value ts s t k := by
  induction hh generalizing ty with
  | start wf =>
    right
    refine ⟨?_, .refl _⟩
    obtain ⟨tk, h1, h2⟩ := hold
    refine ⟨tk, h1, ?_⟩
    simp only [recover] at h1
    cases hl : ts.lookup t with
    | none => simp [hl] at h1
    | some r =>
      simp only [hl, Option.map_some, Option.some.injEq] at h1
      rw [← h1] at h2 ⊢
      simp only [recoverTicket] at h2 ⊢
      split at h2
      · rename_i hc
        simp only [Bool.and_eq_true, Bool.not_eq_true'] at hc
        simp [hc.1]
      · simp at h2
  | @step h s s' op o hh he ih =>
    have hr := hh.reach
    cases hprev : heldOf s k t with
    | some ty0 =>
      have h1 : Holds s t k ty0 := holds_iff.mpr hprev
      have hsame := (C43_value_stays hr (t := t) (k := k)
        (.step (.refl s) he ⟨ty0, h1⟩ ⟨ty, hold⟩)).1
      rcases ih h1 with
        ⟨post, pre, op', o', s0, s1, c, g1, g2, g3, g4, g5, g6, g7⟩ | ⟨g1, g2⟩
      · left
        rw [hsame]
        exact ⟨(op, o) :: post, pre, op', o', s0, s1, c, by rw [g1]; rfl, g2,
          g3, g4, g5, g6, .step g7 he ⟨ty0, h1⟩ ⟨ty, hold⟩⟩
      · right
        exact ⟨g1, .step g2 he ⟨ty0, h1⟩ ⟨ty, hold⟩⟩
    | none =>
      left
      have h1 : heldOf s' k t ≠ none := by
        rw [holds_iff] at hold
        rw [hold]
        simp
      obtain ⟨w, hw, h2, h3⟩ := exec_gain hr.inv he hprev h1
      have h4 := asked_step (o := o) (queue_asked hh) k w hw
      rw [h2] at h4
      refine ⟨[], h, op, o, s, s', w.cb, rfl, hh, he, ?_, h3, h4, .refl s'⟩
      intro ty' hc
      rw [holds_iff, hprev] at hc
      simp at hc

/-- A prepared transaction that keeps a lock stays prepared. -/
theorem Keeps.prepared {t : Tn} {k : Key} {s s' : State} (h : Keeps t k s s')
    (hr : Reach s) (hp : isPrepared s t) : isPrepared s' t := by
  induction h with
  | refl => exact hp
  | @step s' s'' op o hk he h1 h2 ih =>
    have hr' := (C43_value_stays hr hk).2
    obtain ⟨tk, ht, hst⟩ := ih
    by_cases hc : op = .commit t
    · exfalso
      subst hc
      have hph := exec_phase hr'.inv he t
      obtain ⟨ty, tk2, g1, g2⟩ := h2
      have hinv := (Reach.step hr' he).inv
      have hres : o.result = none := by
        simp only [exec, Option.some.injEq] at he
        rw [show o = (commit s' t).2 by rw [he]]
        unfold commit
        rw [ht]
        simp [hst]
      simp only [phaseStep, Op.ticket, ne_eq, not_true_eq_false, if_false,
        hres, if_true] at hph
      have : tk2.state = .committed := by
        unfold phaseOf Ticket.phase at hph
        rw [g1] at hph
        cases hs : tk2.state <;> simp [hs] at hph
        rfl
      have := (hinv.idle t tk2 g1 (Or.inr this)).1 k
      rw [this] at g2
      simp at g2
    · by_cases hb : op = .rollback t
      · exfalso
        subst hb
        have hph := exec_phase hr'.inv he t
        obtain ⟨ty, tk2, g1, g2⟩ := h2
        have hres : o.result = none := by
          simp only [exec, Option.some.injEq] at he
          rw [show o = (rollback s' t).2 by rw [he]]
          unfold rollback
          rw [ht]
        simp only [phaseStep, Op.ticket, ne_eq, not_true_eq_false, if_false,
          hres, if_true] at hph
        unfold phaseOf at hph
        rw [g1] at hph
        simp at hph
      · exact ⟨tk, exec_prepared hr'.inv ht hst he hc hb, hst⟩

/-- **C65.** A transaction that is not prepared was given the current values of
all keys it has locked, also on a shard started from replicated data. -/
theorem C65_unprepared {value : Key → Value} {ts : List (Tn × RTicket)}
    {h : List (Op × Out)} {s : State} (hh : Hist value ts h s) {t : Tn}
    (hn : ¬ isPrepared s t) {k : Key} {ty : LockType} (hold : Holds s t k ty) :
    Given value ts h s t k (s.value k) := by
  rcases C65_current hh hold with hg | ⟨h1, h2⟩
  · exact hg
  · have hw : WellFormed ts := by
      clear hn hold h2
      induction hh with
      | start wf => exact wf
      | step _ _ ih => exact ih
    exact absurd (h2.prepared (.start value ts hw) h1) hn

/-- **C65.** When a transaction commits on a shard that was started empty,
every key it has locked has the value it was given, and afterwards exactly the
keys of its update have changed. -/
theorem C65_commit {value : Key → Value} {h : List (Op × Out)}
    {s s' : State} (hh : Hist value [] h s) {t : Tn} {o : Out}
    (he : exec s (.commit t) = some (s', o)) (hok : o.result = none) :
    ∃ u, preparedUpdate [] t h = some u ∧
      (∀ k, s'.value k = (u.lookup k).getD (s.value k)) ∧
      (∀ k ty, Holds s t k ty → Given value [] h s t k (s.value k)) ∧
      (∀ p ∈ u, Holds s t p.1 .write) := by
  obtain ⟨tk, h1, h2, h3⟩ := C43_commit_writes t he hok
  refine ⟨tk.update, C43_exact_update hh h1 h2, h3, ?_, ?_⟩
  · intro k ty hold
    rcases C65_current hh hold with hg | ⟨⟨tk2, g1, -⟩, -⟩
    · exact hg
    · simp [recover] at g1
  · intro p hp
    exact ⟨tk, h1, (hh.reach.inv.prep t tk h1 h2).2 p hp⟩

/-- A transaction that reads key 2, updates key 1 and commits. -/
example : ((runOps fresh [.tryLock 1 0 [1] .write true 10,
    .tryLock 1 0 [2] .read false 11, .prepare 1 [([1], [7])],
    .commit 1]).map fun r => (r.1.value [1], r.2.map fun o =>
      o.calls [1] ++ o.calls [2])) =
    some ([7], [[(10, .value [])], [(11, .value [])], [], []]) := by decide

end Verif.Parsec
