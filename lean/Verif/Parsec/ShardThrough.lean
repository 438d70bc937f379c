import Verif.Parsec.ShardWound

/-!
# The oldest transaction goes through on a PArSEC shard (C139)

The shard of `Verif/Parsec/Shard.lean`: a transaction that is older than all that the shard knows has
every lock it asks for at once, with the value of the key, and its update is made, if no transaction
is prepared.
-/
namespace Verif.Parsec

/-! ### Specification -/

/-- Transaction `t` asks for locks, one key after the other; its first request says so. -/
def lockOps (t : Tn) (b : Nat) : Bool → List (Key × LockType × Nat) → List Op
  | _, [] => []
  | f, (k, ty, cb) :: l => .tryLock t b k ty f cb :: lockOps t b false l

/-- A whole transaction: locks, `prepare`, `commit` and `finish`. -/
def wholeOps (t : Tn) (b : Nat) (l : List (Key × LockType × Nat)) (u : List (Key × Value)) : List Op :=
  lockOps t b true l ++ [.prepare t u, .commit t, .finish t]

/-- Nothing is prepared, and all that the shard knows is at least as young as `t`. -/
structure Clear (s : State) (t : Tn) : Prop where
  reach : Reach s
  oldest : Oldest s t
  calm : ∀ x, ¬ isPrepared s x

/-! ### Lemmas -/

theorem runOps_app (s : State) (a b : List Op) :
    runOps s (a ++ b) =
      match runOps s a with
      | none => none
      | some (s1, os1) =>
        match runOps s1 b with
        | none => none
        | some (s2, os2) => some (s2, os1 ++ os2) := by
  induction a generalizing s with
  | nil => cases h : runOps s b <;> simp [runOps, h]
  | cons op a ih =>
    simp only [List.cons_append, runOps]
    cases he : exec s op with
    | none => simp
    | some p =>
      obtain ⟨s1, o⟩ := p
      simp only [ih]
      cases h1 : runOps s1 a with
      | none => simp
      | some q =>
        obtain ⟨s2, os2⟩ := q
        simp only
        cases h2 : runOps s2 b with
        | none => simp
        | some r => simp

/-- One lock request of the oldest transaction. -/
theorem ask_granted {s : State} {t : Tn} (hc : Clear s t) (b : Nat) (k : Key)
    (ty : LockType) (cb : Nat) {f : Bool}
    (hf : f = (s.ticket t).isNone) (hb : ((s.ticket t).getD {}).state = .begun)
    (hq : ((s.ticket t).getD {}).queued = [])
    (hk : ((s.ticket t).getD {}).held k = none) :
    ∃ s' o tk', exec s (.tryLock t b k ty f cb) = some (s', o) ∧ o.result = none ∧
      (cb, .value (s.value k)) ∈ o.calls k ∧ s'.value = s.value ∧ Clear s' t ∧
      s'.ticket t = some tk' ∧ tk'.state = .begun ∧ tk'.queued = [] ∧
      tk'.held k = some ty ∧
      ∀ k', k' ≠ k → tk'.held k' = ((s.ticket t).getD {}).held k' := by
  have inv := hc.reach.inv
  have he : lockError ((s.ticket t).getD {}) k ty = none := by
    simp [lockError, hb, hq, hk]
  have hx : exec s (.tryLock t b k ty f cb) =
      some ((woundTickets (addWaiter s t ((s.ticket t).getD {}) b k ty cb) k
          (waitingOn t ty (s.lock k)) t).1,
        { calls := (woundTickets (addWaiter s t ((s.ticket t).getD {}) b k ty cb) k
          (waitingOn t ty (s.lock k)) t).2 }) := by
    simp only [exec, tryLock, hf]
    cases hs : s.ticket t with
    | none =>
      rw [hs] at he
      simp only [Option.getD_none] at he
      simp [he]
    | some tk =>
      rw [hs] at he
      simp only [Option.getD_some] at he
      simp [he]
  obtain ⟨i1, i2, i3, -, i5⟩ := accept_ok inv t b k ty cb he
  rw [woundTickets_eq] at hx
  generalize ha : woundFold (addWaiter s t ((s.ticket t).getD {}) b k ty cb) k
    (waitingOn t ty (s.lock k)) t = a at hx i1 i2 i3 i5
  generalize hkeys : (fun x => a.keys x || decide (x = k)) = keys at hx
  have hkk : keys k = true := by rw [← hkeys]; simp
  have hself : t ∉ waitingOn t ty (s.lock k) := fun h =>
    absurd (waitingOn_known inv h).1 (Nat.lt_irrefl _)
  have hat : a.st.ticket t = some { (s.ticket t).getD {} with
      broker := b, queued := [k] } := by
    rw [i5 t (.inl hself)]
    simp [addWaiter, hq]
  have hr' : Reach (acquire a.st keys).1 := .step hc.reach hx
  have hcalm : ∀ x, ¬ isPrepared (acquire a.st keys).1 x := by
    intro x hp
    rw [isPrepared_acquire, i2] at hp
    exact hc.calm x hp
  have hold : Oldest (acquire a.st keys).1 t := by
    intro x hxs
    by_cases hxt : x = t
    · exact Nat.le_of_eq hxt.symm
    · have h1 := exec_phase inv hx x
      have h2 : phaseStep (.tryLock t b k ty f cb)
          { calls := a.calls.append (acquire a.st keys).2 } x (phaseOf s x) = phaseOf s x := by
        simp [phaseStep, Op.ticket, hxt]
      rw [h2] at h1
      apply hc.oldest x
      unfold phaseOf at h1
      cases hsx : s.ticket x with
      | some _ => rfl
      | none =>
        rw [hsx] at h1
        cases h3 : (acquire a.st keys).1.ticket x with
        | none => rw [h3] at hxs; simp at hxs
        | some _ => rw [h3] at h1; simp at h1
  have hidle := C138_oldest_goes_on hr' hold hcalm
  have hnq : ∀ k', ¬ queuedOf (acquire a.st keys).1 k' t := by
    intro k' h
    obtain ⟨w, h1, h2⟩ := ((hr'.inv.key k').waiter t).mpr h
    exact hidle ⟨k', w, h1, h2⟩
  have hqk : queuedOf a.st k t := by
    rw [queuedOf_some hat]
    simp
  have hg : ∃ w ∈ (a.st.lock k).grant.2, w.ticket = t := by
    apply Classical.byContradiction
    intro hn
    apply hnq k
    rw [queuedOf_acquire]
    exact ⟨hqk, fun _ w hw he => hn ⟨w, hw, he⟩⟩
  obtain ⟨w, hw, hwt⟩ := hg
  have hweq : w = ⟨t, ty, cb⟩ := by
    have h1 : w ∈ ((addWaiter s t ((s.ticket t).getD {}) b k ty cb).lock k).queue := by
      rw [← ha] at hw
      exact woundFold_queue_sub _ _ _ _ _ w (grant_mem hw)
    have h2 : ¬ queuedOf s k t := by
      rintro ⟨tk, h3, h4⟩
      rw [h3] at hq
      simp only [Option.getD_some] at hq
      rw [hq] at h4
      simp at h4
    simp only [addWaiter, if_true] at h1
    rcases (mem_enqueue (fun y hy => inv.not_in_queue h2 y hy)).mp h1 with h3 | h3
    · exact h3
    · exact absurd hwt (inv.not_in_queue h2 w h3)
  have hheldk : heldOf (acquire a.st keys).1 k t = some ty := by
    rw [heldOf_acquire i1, if_pos hkk]
    have := heldAfter_mem (grant_sorted (i1.key k).sorted) hw (heldOf a.st k t)
    rw [hwt, hweq] at this
    exact this
  have hheld : ∀ k', k' ≠ k → heldOf (acquire a.st keys).1 k' t =
      ((s.ticket t).getD {}).held k' := by
    intro k' hne
    have h0 : heldOf a.st k' t = ((s.ticket t).getD {}).held k' := by
      rw [heldOf_some hat]
    rw [heldOf_acquire i1]
    split
    · rw [heldAfter_of_not_mem, h0]
      intro w' hw' hwt'
      have h1 : queuedOf a.st k' t := ((i1.key k').waiter t).mp ⟨w', grant_mem hw', hwt'⟩
      rw [queuedOf_some hat] at h1
      simp at h1
      exact hne h1
    · exact h0
  have hst : ∃ tk', (acquire a.st keys).1.ticket t = some tk' ∧ tk'.state = .begun := by
    simp only [acquire, hat, Option.map_some]
    exact ⟨_, rfl, hb⟩
  obtain ⟨tk', ht', hb'⟩ := hst
  refine ⟨_, _, tk', hx, rfl, ?_, ?_, ⟨hr', hold, hcalm⟩, ht', hb', ?_, ?_, ?_⟩
  · simp only [Calls.append]
    apply List.mem_append_right
    simp only [acquire, hkk, if_true, List.mem_map]
    exact ⟨w, hw, by rw [hweq, i3]⟩
  · rw [acquire_value, i3]
  · cases hq' : tk'.queued with
    | nil => rfl
    | cons k' q =>
      exfalso
      apply hnq k'
      rw [queuedOf_some ht', hq']
      simp
  · rw [← hheldk, heldOf_some ht']
  · intro k' hne
    rw [← hheld k' hne, heldOf_some ht']

/-- All lock requests. -/
theorem locks_granted {t : Tn} (b : Nat) (l : List (Key × LockType × Nat)) {s : State} {f : Bool}
    (hc : Clear s t) (hf : f = (s.ticket t).isNone)
    (hb : ((s.ticket t).getD {}).state = .begun) (hq : ((s.ticket t).getD {}).queued = [])
    (hk : ∀ e ∈ l, ((s.ticket t).getD {}).held e.1 = none)
    (hd : (l.map (·.1)).Nodup) :
    ∃ s' os, runOps s (lockOps t b f l) = some (s', os) ∧ (∀ o ∈ os, o.result = none) ∧
      os.length = l.length ∧
      (∀ (i : Nat) (e : Key × LockType × Nat), l[i]? = some e →
        ∃ o : Out, os[i]? = some o ∧ (e.2.2, .value (s.value e.1)) ∈ o.calls e.1) ∧
      s'.value = s.value ∧ Clear s' t ∧
      ((s'.ticket t).getD {}).state = .begun ∧ ((s'.ticket t).getD {}).queued = [] ∧
      (l ≠ [] → (s'.ticket t).isSome) ∧
      (∀ e ∈ l, ((s'.ticket t).getD {}).held e.1 = some e.2.1) ∧
      ∀ k ty, ((s.ticket t).getD {}).held k = some ty →
        ((s'.ticket t).getD {}).held k = some ty := by
  induction l generalizing s f with
  | nil =>
    exact ⟨s, [], rfl, by simp, rfl, by simp, rfl, hc, hb, hq, fun h => absurd rfl h, by simp,
      fun _ _ h => h⟩
  | cons e l ih =>
    obtain ⟨k, ty, cb⟩ := e
    obtain ⟨s1, o, tk, h1, h2, h3, h4, h5, h6, h7, h8, h9, h10⟩ :=
      ask_granted hc b k ty cb hf hb hq (hk (k, ty, cb) List.mem_cons_self)
    simp only [List.map_cons, List.nodup_cons] at hd
    have hk' : ∀ e ∈ l, ((s1.ticket t).getD {}).held e.1 = none := by
      intro e he
      have hne : e.1 ≠ k := fun h => hd.1 (h ▸ List.mem_map_of_mem he)
      rw [h6, Option.getD_some, h10 e.1 hne]
      exact hk e (List.mem_cons_of_mem _ he)
    obtain ⟨s2, os, g1, g2, g3, g4, g5, g6, g7, g8, g9, g10, g11⟩ :=
      ih (f := false) h5 (by simp [h6]) (by simp [h6, h7]) (by simp [h6, h8]) hk' hd.2
    have hsome : (s2.ticket t).isSome := by
      cases hl : l with
      | cons _ _ => exact g9 (by rw [hl]; simp)
      | nil =>
        rw [hl] at g1
        simp only [lockOps, runOps, Option.some.injEq, Prod.mk.injEq] at g1
        rw [← g1.1, h6]
        rfl
    refine ⟨s2, o :: os, ?_, ?_, ?_, ?_, ?_, g6, g7, g8, fun _ => hsome, ?_, ?_⟩
    · simp only [lockOps, runOps, h1, g1]
    · intro x hx
      rcases List.mem_cons.mp hx with hx | hx
      · rw [hx]; exact h2
      · exact g2 x hx
    · simp [g3]
    · intro i e he
      cases i with
      | zero =>
        simp only [List.getElem?_cons_zero, Option.some.injEq] at he
        subst he
        exact ⟨o, rfl, h3⟩
      | succ i =>
        simp only [List.getElem?_cons_succ] at he ⊢
        obtain ⟨o', j1, j2⟩ := g4 i e he
        exact ⟨o', j1, by rw [← h4]; exact j2⟩
    · rw [g5, h4]
    · intro e he
      rcases List.mem_cons.mp he with he | he
      · subst he
        exact g11 k ty (by rw [h6]; exact h9)
      · exact g10 e he
    · intro k' ty' hk2
      have hkk : k' ≠ k := by
        intro he
        have := hk (k, ty, cb) List.mem_cons_self
        simp only at this
        rw [he, this] at hk2
        simp at hk2
      exact g11 k' ty' (by rw [h6, Option.getD_some, h10 k' hkk]; exact hk2)

theorem updateError_held {tk : Ticket} {u : List (Key × Value)}
    (h : ∀ p ∈ u, tk.held p.1 = some .write) : updateError tk u = none := by
  induction u with
  | nil => rfl
  | cons p u ih =>
    obtain ⟨k, v⟩ := p
    have h1 := h (k, v) List.mem_cons_self
    simp only at h1
    simp only [updateError, h1]
    exact ih fun q hq => h q (List.mem_cons_of_mem _ hq)

/-- The end of a transaction that has its locks. -/
theorem end_through {s : State} {t : Tn} {tk : Ticket} (ht : s.ticket t = some tk)
    (hb : tk.state = .begun) (hq : tk.queued = []) (u : List (Key × Value))
    (hu : ∀ p ∈ u, tk.held p.1 = some .write) :
    ∃ s' os, runOps s [.prepare t u, .commit t, .finish t] = some (s', os) ∧
      (∀ o ∈ os, o.result = none) ∧ s'.ticket t = none ∧
      ∀ k, s'.value k = (u.lookup k).getD (s.value k) := by
  have hp : prepareError tk u = none := by
    simp [prepareError, hb, hq, updateError_held hu]
  have h1 : prepare s t u =
      (s.setTicket t (some { tk with state := .prepared, update := u }), {}) := by
    simp [prepare, ht, hp]
  generalize hs1 : s.setTicket t (some { tk with state := .prepared, update := u }) = s1 at h1
  have ht1 : s1.ticket t = some { tk with state := .prepared, update := u } := by
    rw [← hs1]
    simp [State.setTicket]
  have hv1 : s1.value = s.value := by rw [← hs1]; rfl
  have h2 : (commit s1 t).2.result = none ∧ (commit s1 t).1.value = applyUpdate s1.value u ∧
      ∃ tk2, (commit s1 t).1.ticket t = some tk2 ∧ tk2.state = .committed := by
    simp [commit, ht1, release, acquire]
  obtain ⟨h2, h3, tk2, h4, h5⟩ := h2
  have h6 : finish (commit s1 t).1 t = ((commit s1 t).1.setTicket t none, {}) := by
    simp [finish, h4, h5]
  refine ⟨(commit s1 t).1.setTicket t none, [{}, (commit s1 t).2, {}], ?_, ?_, ?_, ?_⟩
  · simp only [runOps, exec, h1, h6]
  · intro o ho
    simp only [List.mem_cons, List.not_mem_nil, or_false] at ho
    rcases ho with rfl | rfl | rfl
    · rfl
    · exact h2
    · rfl
  · simp [State.setTicket]
  · intro k
    have h7 : ((commit s1 t).1.setTicket t none).value = (commit s1 t).1.value := rfl
    rw [h7, h3, hv1]
    rfl

/-! ### The property -/

/-- **C139.** A new transaction that is older than all that the shard knows, while none is prepared,
goes through: whatever locks others hold or wait for, each of its lock requests is answered at once
with the value of the key, its `prepare`, `commit` and `finish` succeed, exactly its update is made,
and the shard forgets it. -/
theorem C139_through {s : State} {t : Tn} (hr : Reach s) (hn : s.ticket t = none)
    (ho : ∀ x, (s.ticket x).isSome → t < x) (hp : ∀ x, ¬ isPrepared s x) (b : Nat)
    (l : List (Key × LockType × Nat)) (hl : l ≠ []) (hd : (l.map (·.1)).Nodup)
    (u : List (Key × Value)) (hu : ∀ p ∈ u, ∃ cb, (p.1, .write, cb) ∈ l) :
    ∃ s' os, runOps s (wholeOps t b l u) = some (s', os) ∧ Reach s' ∧
      (∀ o ∈ os, o.result = none) ∧
      (∀ (i : Nat) (e : Key × LockType × Nat), l[i]? = some e →
        ∃ o : Out, os[i]? = some o ∧ (e.2.2, .value (s.value e.1)) ∈ o.calls e.1) ∧
      (∀ k, s'.value k = (u.lookup k).getD (s.value k)) ∧ s'.ticket t = none := by
  obtain ⟨s1, os1, h1, h2, h3, h4, h5, -, h7, h8, h9, h10, -⟩ :=
    locks_granted b l (f := true) ⟨hr, fun x hx => Nat.le_of_lt (ho x hx), hp⟩ (by simp [hn])
      (by simp [hn]) (by simp [hn]) (by simp [hn]) hd
  obtain ⟨tk, ht⟩ := Option.isSome_iff_exists.mp (h9 hl)
  rw [ht] at h7 h8 h10
  simp only [Option.getD_some] at h7 h8 h10
  obtain ⟨s2, os2, g1, g2, g3, g4⟩ := end_through ht h7 h8 u fun p hp => by
    obtain ⟨cb, hcb⟩ := hu p hp
    exact h10 _ hcb
  have hrun : runOps s (wholeOps t b l u) = some (s2, os1 ++ os2) := by
    rw [wholeOps, runOps_app, h1]
    simp only [g1]
  refine ⟨s2, os1 ++ os2, hrun, runOps_reach hr hrun, ?_, ?_, ?_, g3⟩
  · intro o ho
    rcases List.mem_append.mp ho with ho | ho
    · exact h2 o ho
    · exact g2 o ho
  · intro i e he
    obtain ⟨o, j1, j2⟩ := h4 i e he
    refine ⟨o, ?_, j2⟩
    have hi : i < os1.length := by
      have := List.getElem?_eq_some_iff.mp j1
      exact this.1
    rw [List.getElem?_append_left hi]
    exact j1
  · intro k
    rw [g4 k, h5]

/-! ### Concrete case -/

/-- Two transactions hold locks and a third waits. -/
def busyRun : List Op :=
  [.tryLock 5 0 [1] .write true 50, .tryLock 6 0 [2] .read true 60, .tryLock 7 0 [1] .read true 70]

/-- The hypotheses are met with transactions in the way at both keys. -/
example : ∃ s, Reach s ∧ s.ticket 2 = none ∧ (∀ x, (s.ticket x).isSome → 2 < x) ∧
    (∀ x, ¬ isPrepared s x) ∧ Holds s 5 [1] .write ∧ Holds s 6 [2] .read ∧
    ∃ s' os, runOps s (wholeOps 2 0 [([1], .read, 20), ([2], .write, 21)] [([2], [9])]) = some (s', os) ∧
      s'.value [2] = [9] ∧ s'.value [1] = s.value [1] := by
  have hr : Reach ((runOps fresh busyRun).get (by decide)).1 :=
    runOps_reach (ops := busyRun) (os := ((runOps fresh busyRun).get (by decide)).2) fresh_reach
      (Option.some_get (by decide)).symm
  have hsome : ∀ x, (((runOps fresh busyRun).get (by decide)).1.ticket x).isSome →
      x = 5 ∨ x = 6 ∨ x = 7 := by
    intro x hx
    apply Classical.byContradiction
    intro hne
    have h : phaseOf ((runOps fresh busyRun).get (by decide)).1 x = none := by
      have hx5 : x ≠ 5 := fun h => hne (.inl h)
      have hx6 : x ≠ 6 := fun h => hne (.inr (.inl h))
      have hx7 : x ≠ 7 := fun h => hne (.inr (.inr h))
      have h0 : Hist (fun _ => []) [] [] fresh := .start wf_nil
      obtain ⟨a, ha⟩ := Option.isSome_iff_exists.mp
        (show (exec fresh (.tryLock 5 0 [1] .write true 50)).isSome by decide)
      obtain ⟨b, hb⟩ := Option.isSome_iff_exists.mp
        (show (exec ((exec fresh (.tryLock 5 0 [1] .write true 50)).get (by decide)).1
          (.tryLock 6 0 [2] .read true 60)).isSome by decide)
      have e5 := exec_phase fresh_reach.inv ha x
      simp only [phaseStep, Op.ticket, ne_eq, hx5, not_false_eq_true, if_true] at e5
      have hra : Reach a.1 := .step fresh_reach ha
      have haa : ((exec fresh (.tryLock 5 0 [1] .write true 50)).get (by decide)).1 = a.1 := by
        simp [ha]
      rw [haa] at hb
      have e6 := exec_phase hra.inv hb x
      simp only [phaseStep, Op.ticket, ne_eq, hx6, not_false_eq_true, if_true] at e6
      have hrb : Reach b.1 := .step hra hb
      cases hc : exec b.1 (.tryLock 7 0 [1] .read true 70) with
      | none =>
        exfalso
        have : (runOps fresh busyRun).isSome := by decide
        simp [runOps, busyRun, ha, hb, hc] at this
      | some c =>
        have e7 := exec_phase hrb.inv hc x
        simp only [phaseStep, Op.ticket, ne_eq, hx7, not_false_eq_true, if_true] at e7
        have hfin : ((runOps fresh busyRun).get (by decide)).1 = c.1 := by
          simp [runOps, busyRun, ha, hb, hc]
        rw [hfin, e7, e6, e5]
        rfl
    unfold phaseOf at h
    rw [Option.map_eq_none_iff] at h
    rw [h] at hx
    simp at hx
  have hnone : ((runOps fresh busyRun).get (by decide)).1.ticket 2 = none := by
    cases h : ((runOps fresh busyRun).get (by decide)).1.ticket 2 with
    | none => rfl
    | some tk =>
      have := hsome 2 (by simp [h])
      simp at this
  have hcalm : ∀ x, ¬ isPrepared ((runOps fresh busyRun).get (by decide)).1 x := by
    rintro x ⟨tk, h1, h2⟩
    have h3 : mark ((runOps fresh busyRun).get (by decide)).1 x = some (.prepared, tk.details) := by
      simp [mark, h1, h2]
    rcases hsome x (by simp [h1]) with rfl | rfl | rfl
    · rw [show mark ((runOps fresh busyRun).get (by decide)).1 5 = some (.begun, none) by decide] at h3
      simp at h3
    · rw [show mark ((runOps fresh busyRun).get (by decide)).1 6 = some (.begun, none) by decide] at h3
      simp at h3
    · rw [show mark ((runOps fresh busyRun).get (by decide)).1 7 = some (.begun, none) by decide] at h3
      simp at h3
  have hold : ∀ x, (((runOps fresh busyRun).get (by decide)).1.ticket x).isSome → 2 < x := by
    intro x hx
    rcases hsome x hx with rfl | rfl | rfl <;> decide
  refine ⟨_, hr, hnone, hold, hcalm, by rw [holds_iff]; decide, by rw [holds_iff]; decide, ?_⟩
  obtain ⟨s', os, h1, -, -, -, h5, -⟩ := C139_through hr hnone hold hcalm 0 [([1], .read, 20), ([2], .write, 21)]
    (by simp) (by decide) [([2], [9])] (by simp)
  exact ⟨s', os, h1, by rw [h5]; rfl, by rw [h5]; rfl⟩

end Verif.Parsec
