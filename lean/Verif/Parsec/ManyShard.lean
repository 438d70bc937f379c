import Verif.Parsec.ManySys

/-!
# What one request does to the locks and the pending writes of a shard
-/
namespace Verif.Parsec

/-- `t` was wounded. -/
def isWounded (s : State) (t : Tn) : Prop := ∃ tk, s.ticket t = some tk ∧ tk.state = .wounded

theorem acquire_held {P : Tn → Prop} {D : Key → Prop} {s : State} (inv : InvP P D s) (keys : Key → Bool) {k : Key} {t : Tn}
    (h : heldOf s k t ≠ none) : heldOf (acquire s keys).1 k t ≠ none := by
  rw [heldOf_acquire inv]
  split
  · rcases heldAfter_cases (s.lock k).grant.2 t (heldOf s k t) with h1 | ⟨w, _, _, h1⟩
    · rw [h1]; exact h
    · rw [h1]; simp
  · exact h

theorem acquire_wounded {s : State} (keys : Key → Bool) {t : Tn} (h : isWounded s t) : isWounded (acquire s keys).1 t := by
  obtain ⟨tk, h1, h2⟩ := h
  unfold isWounded acquire
  simp [h1, h2]

/-- Locks are given up only when the transaction is wounded, committed or rolled back. -/
theorem exec_keeps {s : State} (inv : Inv s) {op : Op} {s' : State} {o : Out} (h : exec s op = some (s', o)) {k : Key}
    {t : Tn} (h0 : heldOf s k t ≠ none) :
    heldOf s' k t ≠ none ∨ isWounded s' t ∨ ((op = .commit t ∨ op = .rollback t) ∧ o.result = none) := by
  cases op with
  | tryLock t' b k' ty f cb =>
    rcases tryLock_cases h with ⟨e, he⟩ | ⟨he, hs, ho⟩
    · unfold refuse at he
      simp only [Prod.mk.injEq] at he
      rw [he.1]
      exact .inl h0
    · obtain ⟨i1, -, -, i4, -⟩ := accept_ok inv t' b k' ty cb he
      rw [hs, woundTickets_eq]
      rcases woundFold_ticket (addWaiter s t' ((s.ticket t').getD {}) b k' ty cb) k' (waitingOn t' ty (s.lock k')) t' t with
        h1 | ⟨_, h1⟩
      · refine .inl (acquire_held i1 _ ?_)
        unfold heldOf
        rw [h1]
        have := heldOf_addWaiter s t' b k' ty cb k t
        unfold heldOf at this
        rw [this]
        exact h0
      · exact .inr (.inl (acquire_wounded _ h1))
  | prepare t' u =>
    have h' : prepare s t' u = (s', o) := Option.some.inj h
    rw [show s' = (prepare s t' u).1 by rw [h']]
    rcases prepare_cases s t' u with hc | ⟨tk', g1, g2, g3⟩
    · rw [hc.1]; exact .inl h0
    · rw [g3, setPrepared_held g1]; exact .inl h0
  | commit t' =>
    have h' : commit s t' = (s', o) := Option.some.inj h
    rw [show s' = (commit s t').1 by rw [h'], show o = (commit s t').2 by rw [h']]
    rcases commit_cases s t' with hc | ⟨tk, g1, -, g3⟩
    · rw [hc.1]; exact .inl h0
    · by_cases ht : t = t'
      · subst ht
        exact .inr (.inr ⟨.inl rfl, by rw [g3]⟩)
      · left
        rw [g3]
        have hinv := released_ok (tk' := { tk with state := .committed })
          (s := applied s tk) (inv.setValue _) (tk := tk) g1 rfl rfl
          (bare_committed tk)
        refine acquire_held hinv _ ?_
        rw [heldOf_released (bare_committed tk), if_neg ht]
        exact h0
  | rollback t' =>
    have h' : rollback s t' = (s', o) := Option.some.inj h
    rw [show s' = (rollback s t').1 by rw [h'], show o = (rollback s t').2 by rw [h']]
    rcases rollback_cases s t' with hc | ⟨tk, g1, g3⟩
    · rw [hc.2]; exact .inl h0
    · by_cases ht : t = t'
      · subst ht
        exact .inr (.inr ⟨.inr rfl, by rw [g3]⟩)
      · left
        rw [g3]
        have hinv := released_ok (tk' := tk) inv g1 rfl rfl bare_none
        refine acquire_held hinv _ ?_
        rw [heldOf_released bare_none, if_neg ht]
        exact h0
  | finish t' =>
    have h' : finish s t' = (s', o) := Option.some.inj h
    rw [show s' = (finish s t').1 by rw [h']]
    rcases finish_cases s t' with hc | ⟨tk, g1, g2, g3⟩
    · rw [hc.1]; exact .inl h0
    · left
      rw [g3]
      by_cases ht : t = t'
      · subst ht
        exfalso
        apply h0
        rw [heldOf_some g1]
        exact (inv.idle t tk g1 (.inr g2)).1 k
      · simpa [heldOf, State.setTicket, ht] using h0

/-- A wounded transaction stays so until it is rolled back. -/
theorem exec_wounded {s : State} (inv : Inv s) {op : Op} {s' : State} {o : Out} (h : exec s op = some (s', o))
    {t : Tn} (h0 : isWounded s t) : isWounded s' t ∨ (op = .rollback t ∧ o.result = none) := by
  obtain ⟨tk0, h1, h2⟩ := h0
  cases op with
  | tryLock t' b k' ty f cb =>
    left
    rcases tryLock_cases h with ⟨e, he⟩ | ⟨he, hs, ho⟩
    · unfold refuse at he
      simp only [Prod.mk.injEq] at he
      rw [he.1]
      exact ⟨tk0, h1, h2⟩
    · rw [hs, woundTickets_eq]
      rcases woundFold_ticket (addWaiter s t' ((s.ticket t').getD {}) b k' ty cb) k' (waitingOn t' ty (s.lock k')) t' t with
        h3 | ⟨_, h3⟩
      · refine acquire_wounded _ ?_
        unfold isWounded
        rw [h3]
        by_cases ht : t = t'
        · subst ht
          refine ⟨{ tk0 with broker := b, queued := k' :: tk0.queued }, ?_, h2⟩
          simp [addWaiter, h1]
        · exact ⟨tk0, by simp [addWaiter, ht, h1], h2⟩
      · exact acquire_wounded _ h3
  | prepare t' u =>
    left
    have h' : prepare s t' u = (s', o) := Option.some.inj h
    rw [show s' = (prepare s t' u).1 by rw [h']]
    rcases prepare_cases s t' u with hc | ⟨tk', g1, g2, g3⟩
    · rw [hc.1]; exact ⟨tk0, h1, h2⟩
    · rw [g3]
      have ht : t ≠ t' := by
        rintro rfl
        rw [h1] at g1
        cases g1
        have := (prepareError_none g2).1
        rw [h2] at this
        cases this
      exact ⟨tk0, by simp [State.setTicket, ht, h1], h2⟩
  | commit t' =>
    left
    have h' : commit s t' = (s', o) := Option.some.inj h
    rw [show s' = (commit s t').1 by rw [h']]
    rcases commit_cases s t' with hc | ⟨tk, g1, g2, g3⟩
    · rw [hc.1]; exact ⟨tk0, h1, h2⟩
    · have ht : t ≠ t' := by
        rintro rfl
        rw [h1] at g1
        cases g1
        rw [h2] at g2
        cases g2
      rw [g3]
      refine acquire_wounded _ ⟨tk0, ?_, h2⟩
      simp [released, ht, applied, h1]
  | rollback t' =>
    have h' : rollback s t' = (s', o) := Option.some.inj h
    rw [show s' = (rollback s t').1 by rw [h'], show o = (rollback s t').2 by rw [h']]
    rcases rollback_cases s t' with hc | ⟨tk, g1, g3⟩
    · rw [hc.2]; exact .inl ⟨tk0, h1, h2⟩
    · by_cases ht : t = t'
      · subst ht
        exact .inr ⟨rfl, by rw [g3]⟩
      · left
        rw [g3]
        refine acquire_wounded _ ⟨tk0, ?_, h2⟩
        simp [released, ht, h1]
  | finish t' =>
    left
    have h' : finish s t' = (s', o) := Option.some.inj h
    rw [show s' = (finish s t').1 by rw [h']]
    rcases finish_cases s t' with hc | ⟨tk, g1, g2, g3⟩
    · rw [hc.1]; exact ⟨tk0, h1, h2⟩
    · have ht : t ≠ t' := by
        rintro rfl
        rw [h1] at g1
        cases g1
        rw [h2] at g2
        cases g2
      rw [g3]
      exact ⟨tk0, by simp [State.setTicket, ht, h1], h2⟩

/-- The value of a locked key stays. -/
theorem exec_locked_value {s : State} (hr : Reach s) {op : Op} {s' : State} {o : Out} (h : exec s op = some (s', o))
    {k : Key} {t : Tn} (h0 : heldOf s k t ≠ none) (h1 : heldOf s' k t ≠ none) : s'.value k = s.value k := by
  obtain ⟨ty, h2⟩ := Option.ne_none_iff_exists'.mp h0
  obtain ⟨ty', h3⟩ := Option.ne_none_iff_exists'.mp h1
  exact (C43_value_stays hr (t := t) (.step (.refl s) h ⟨ty, holds_iff.mpr h2⟩ ⟨ty', holds_iff.mpr h3⟩)).1

theorem held_active {s : State} (inv : Inv s) {k : Key} {t : Tn} (h : heldOf s k t ≠ none) :
    ∃ tk, s.ticket t = some tk ∧ (tk.state = .begun ∨ tk.state = .prepared) := by
  cases hs : s.ticket t with
  | none => exact absurd (by simp [heldOf, hs]) h
  | some tk =>
    refine ⟨tk, rfl, ?_⟩
    have hne : ¬(tk.state = .wounded ∨ tk.state = .committed) := by
      intro h1
      apply h
      rw [heldOf_some hs]
      exact (inv.idle t tk hs h1).1 k
    cases hst : tk.state <;> simp_all

namespace Broker.Many

theorem pending_some {s : Parsec.State} {t : Tn} {k : Key} {v : Value} (h : pendingWrite s t k = some v) :
    ∃ tk, s.ticket t = some tk ∧ tk.state = .prepared ∧ tk.update.lookup k = some v := by
  unfold pendingWrite at h
  split at h
  · rename_i tk h1
    split at h
    · rename_i h2
      exact ⟨tk, h1, h2, h⟩
    · cases h
  · cases h

theorem lookup_mem {u : List (Key × Value)} {k : Key} {v : Value} (h : u.lookup k = some v) : ∃ p ∈ u, p.1 = k := by
  exact (lookup_isSome_iff u k).mp (by rw [h]; rfl)

/-- What is going to be written is locked. -/
theorem pending_held {s : Parsec.State} (hr : Reach s) {t : Tn} {k : Key} {v : Value} (h : pendingWrite s t k = some v) :
    Holds s t k .write := by
  obtain ⟨tk, h1, h2, h3⟩ := pending_some h
  obtain ⟨p, h4, h5⟩ := lookup_mem h3
  refine ⟨tk, h1, ?_⟩
  rw [← h5]
  exact (hr.inv.prep t tk h1 h2).2 p h4

theorem pending_none {s : Parsec.State} {t : Tn} (h : ¬isPrepared s t) (k : Key) : pendingWrite s t k = none := by
  cases hp : pendingWrite s t k with
  | none => rfl
  | some v =>
    obtain ⟨tk, h1, h2, _⟩ := pending_some hp
    exact absurd ⟨tk, h1, h2⟩ h

theorem pending_congr {s s' : Parsec.State} {t : Tn} (h : s'.ticket t = s.ticket t) (k : Key) :
    pendingWrite s' t k = pendingWrite s t k := by
  unfold pendingWrite
  rw [h]

/-- Requests of others do not change what `t` is going to write. -/
theorem pending_other {s s' : Parsec.State} (hr : Reach s) {op : Op} {o : Parsec.Out} (he : exec s op = some (s', o))
    {t : Tn} (ht : t ≠ op.ticket) (k : Key) : pendingWrite s' t k = pendingWrite s t k := by
  by_cases hp : isPrepared s t
  · obtain ⟨tk, h1, h2⟩ := hp
    refine pending_congr ?_ k
    rw [h1]
    refine exec_prepared hr.inv h1 h2 he ?_ ?_ <;> rintro rfl <;> exact ht rfl
  · rw [pending_none hp, pending_none]
    rw [← phase_eq_prepared, isPrepared_other hr he ht, phase_eq_prepared]
    exact hp

end Broker.Many
end Verif.Parsec
