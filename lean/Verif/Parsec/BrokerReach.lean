import Verif.Parsec.BrokerProps

/-!
# A broker that cannot reach a shard says so (C140)

The broker of `Verif/Parsec/Broker.lean`: a commit, a rollback or a finish either is passed on to all
shards that have to act or is answered with an error in the same step.
-/
namespace Verif.Parsec.Broker

/-! ### Specification -/

/-- Shard `i` takes part in the transaction and is not recorded as being in state `x`. -/
def Due (tk : Ticket) (x : SState) (i : Nat) : Prop := ∃ sh, (i, sh) ∈ tk.shards ∧ sh.state ≠ x

/-- The request to some shard that has to act cannot be sent. -/
def CutOff (tk : Ticket) (x : SState) (p : Option Stop) : Prop := ∃ q, p = some q ∧ Due tk x q.at

/-- The transaction is under way, has all locks it asked for, and the update is of locked keys. -/
structure Committable (tk : Ticket) (u : List (Key × Value)) : Prop where
  active : tk.state = .begun ∨ tk.state = .prepared
  locked : ∀ e ∈ tk.shards, ∀ q ∈ e.2.keys, q.2.locked = true
  covered : ∀ q ∈ u, ∃ e ∈ tk.shards, (e.2.keys.lookup q.1).isSome

/-! ### Lemmas -/

theorem Committable.noError {tk : Ticket} {u : List (Key × Value)} (h : Committable tk u) :
    tk.commitError u = none := by
  have h1 : tk.state ≠ .committed := by rcases h.active with h | h <;> simp [h]
  have h2 : tk.state ≠ .aborted := by rcases h.active with h | h <;> simp [h]
  have h3 : (tk.shards.any fun e => e.2.keys.any fun q => !q.2.locked) = false := by
    rw [List.any_eq_false]
    intro e he
    rw [List.any_eq_true]
    rintro ⟨q, hq, hn⟩
    simp [h.locked e he q hq] at hn
  have h4 : (u.any fun q => !tk.shards.any fun e => (e.2.keys.lookup q.1).isSome) = false := by
    rw [List.any_eq_false]
    intro q hq
    have : (tk.shards.any fun e => (e.2.keys.lookup q.1).isSome) = true :=
      List.any_eq_true.mpr (h.covered q hq)
    simp [this]
  simp only [Ticket.commitError, h1, h2, h3, h4, if_false, Bool.false_eq_true]

theorem stops_cut {tk : Ticket} {x : SState} {p : Option Stop} :
    (stops tk.shards (· = x) p).isSome ↔ CutOff tk x p := by
  cases p with
  | none => simp [stops, CutOff]
  | some q =>
    simp only [stops, CutOff, Due]
    constructor
    · intro h
      split at h
      · next ha =>
        rw [List.any_eq_true] at ha
        obtain ⟨⟨i, sh⟩, h1, h2⟩ := ha
        simp only [Bool.and_eq_true, decide_eq_true_eq, Bool.not_eq_true', decide_eq_false_iff_not]
          at h2
        exact ⟨q, rfl, sh, h2.1 ▸ h1, h2.2⟩
      · simp at h
    · rintro ⟨q', h1, sh, h2, h3⟩
      simp only [Option.some.injEq] at h1
      subst h1
      rw [if_pos]
      · rfl
      · rw [List.any_eq_true]
        exact ⟨(q.at, sh), h2, by simp [h3]⟩

theorem stops_none {tk : Ticket} {x : SState} {p : Option Stop} (h : ¬ CutOff tk x p) :
    stops tk.shards (· = x) p = none := by
  cases hs : stops tk.shards (· = x) p with
  | none => rfl
  | some q => exact absurd (stops_cut.mp (by simp [hs])) h

theorem stopError_cut {tk : Ticket} {x : SState} {p : Option Stop} (h : CutOff tk x p) :
    stopError (stops tk.shards (· = x) p) = some (.broker .shardUnreachable) := by
  obtain ⟨q, hq⟩ := Option.isSome_iff_exists.mp (stops_cut.mpr h)
  rw [hq]
  rfl

theorem due_target {tk : Ticket} {x : SState} {p : Option Stop} {i : Nat} (h : ¬ CutOff tk x p)
    (hd : Due tk x i) :
    ∃ sh, (i, sh) ∈ targets tk.shards (· = x) (stops tk.shards (· = x) p) := by
  obtain ⟨sh, h1, h2⟩ := hd
  refine ⟨sh, ?_⟩
  rw [stops_none h]
  simp [targets, h1, h2, passed]

/-! ### The property -/

/-- **C140**, commit of a transaction that is not refused: if a shard cannot be reached the callback
is called with `shard_unreachable`; if not, every shard that has to act is asked, and the callback is
not called yet. -/
theorem C140_commit {s : State} {t : Tn} {tk : Ticket} (ht : s.tickets.lookup t = some tk) (cb : Nat)
    {u : List (Key × Value)} (hok : Committable tk u) (p : Option Stop) :
    ∃ s' o, step s (.commit cb t u p) = some (s', o) ∧
      (tk.state ≠ .prepared →
        (CutOff tk .prepared p → o.said = [.commit cb t (some (.broker .shardUnreachable))]) ∧
        (¬ CutOff tk .prepared p → o.said = [] ∧
          ∀ i, Due tk .prepared i → ∃ u', .prepare i t u' ⟨cb, false⟩ ∈ o.calls)) ∧
      (tk.state = .prepared →
        (CutOff tk .committed p → o.said = [.commit cb t (some (.broker .shardUnreachable))]) ∧
        (¬ CutOff tk .committed p → o.said = [] ∧
          ∀ i, Due tk .committed i → .commit i t ⟨cb, false⟩ ∈ o.calls)) := by
  have hu := hok.noError
  refine ⟨_, _, rfl, ?_, ?_⟩
  · intro hs
    constructor
    · intro hc
      simp [commit, ht, Ticket.commit, hu, hs, Ticket.doPrepare, stopError_cut hc, commitDone]
    · intro hc
      refine ⟨?_, ?_⟩
      · simp [commit, ht, Ticket.commit, hu, hs, Ticket.doPrepare, stops_none hc, stopError]
      · intro i hd
        obtain ⟨sh, h1⟩ := due_target hc hd
        rw [stops_none hc] at h1
        refine ⟨shardUpdates sh u, ?_⟩
        simp only [commit, ht, Ticket.commit, hu, hs, Ticket.doPrepare, stops_none hc, stopError,
          if_false, Option.isSome_none, Bool.false_eq_true]
        exact List.mem_map.mpr ⟨_, h1, rfl⟩
  · intro hs
    constructor
    · intro hc
      simp [commit, ht, Ticket.commit, hu, hs, Ticket.doCommit, stopError_cut hc, commitDone]
    · intro hc
      refine ⟨?_, ?_⟩
      · simp [commit, ht, Ticket.commit, hu, hs, Ticket.doCommit, stops_none hc, stopError]
      · intro i hd
        obtain ⟨sh, h1⟩ := due_target hc hd
        rw [stops_none hc] at h1
        simp only [commit, ht, Ticket.commit, hu, hs, Ticket.doCommit, stops_none hc, stopError,
          if_true, if_false, Option.isSome_none, Bool.false_eq_true]
        exact List.mem_map.mpr ⟨_, h1, rfl⟩

/-- **C140**, rollback of a transaction with locks. -/
theorem C140_rollback {s : State} {t : Tn} {tk : Ticket} (ht : s.tickets.lookup t = some tk)
    (hs : tk.state = .begun) (hn : tk.shards ≠ []) (cb : Nat) (p : Option Stop) :
    ∃ s' o, step s (.rollback cb t p) = some (s', o) ∧
      (CutOff tk .rolledBack p → o.said = [.rollback cb t (some (.broker .shardUnreachable))]) ∧
      (¬ CutOff tk .rolledBack p → o.said = [] ∧
        ∀ i, Due tk .rolledBack i → .rollback i t ⟨cb, false⟩ ∈ o.calls) := by
  refine ⟨_, _, rfl, ?_, ?_⟩
  · intro hc
    simp [rollback, ht, hs, hn, Ticket.rollback, stopError_cut hc, rollbackDone]
  · intro hc
    refine ⟨?_, ?_⟩
    · simp [rollback, ht, hs, hn, Ticket.rollback, stops_none hc, stopError]
    · intro i hd
      obtain ⟨sh, h1⟩ := due_target hc hd
      rw [stops_none hc] at h1
      have hn' : tk.shards.isEmpty = false := by
        cases h : tk.shards with
        | nil => exact absurd h hn
        | cons _ _ => rfl
      simp only [rollback, ht, hs, hn', Ticket.rollback, stops_none hc, stopError,
        Option.isSome_none, Bool.false_eq_true, if_false]
      exact List.mem_map.mpr ⟨_, h1, rfl⟩

/-- **C140**, finish of a committed transaction. -/
theorem C140_finish {s : State} {t : Tn} {tk : Ticket} (ht : s.tickets.lookup t = some tk)
    (hs : tk.state = .committed) (cb : Nat) (p : Option Stop) :
    ∃ s' o, step s (.finish cb t p) = some (s', o) ∧
      (CutOff tk .finished p → o.said = [.finish cb t (some (.broker .shardUnreachable))]) ∧
      (¬ CutOff tk .finished p → o.said = [] ∧
        ∀ i, Due tk .finished i → .finish i t ⟨cb, false⟩ ∈ o.calls) := by
  refine ⟨_, _, rfl, ?_, ?_⟩
  · intro hc
    simp [finish, ht, hs, Ticket.finish, stopError_cut hc, finishDone]
  · intro hc
    refine ⟨?_, ?_⟩
    · simp [finish, ht, hs, Ticket.finish, stops_none hc, stopError]
    · intro i hd
      obtain ⟨sh, h1⟩ := due_target hc hd
      rw [stops_none hc] at h1
      simp only [finish, ht, hs, Ticket.finish, stops_none hc, stopError]
      exact List.mem_map.mpr ⟨_, h1, rfl⟩

/-- **C140**, the answer that completes the preparation: the shards are asked to commit, or the
callback of the commit is called with `shard_unreachable`. -/
theorem C140_prepared {s : State} {t : Tn} {tk : Ticket} (ht : s.tickets.lookup t = some tk)
    (hs : tk.state = .begun) {i : Nat} (hi : stateOf tk.shards i = .preparing)
    (ho : ∀ e ∈ tk.shards, e.1 ≠ i → e.2.state = .prepared) (cb : Nat) (p : Option Stop) :
    ∃ s' o, step s (.prepared ⟨cb, false⟩ t i none p) = some (s', o) ∧
      ((∃ q, p = some q ∧ ∃ sh, (q.at, sh) ∈ tk.shards) →
        o.said = [.commit cb t (some (.broker .shardUnreachable))]) ∧
      ((∀ q, p = some q → ∀ sh, (q.at, sh) ∉ tk.shards) → o.said = [] ∧
        ∀ e ∈ tk.shards, .commit e.1 t ⟨cb, false⟩ ∈ o.calls) := by
  have hl : (tk.shards.lookup i).isSome := by
    cases h : tk.shards.lookup i with
    | some _ => rfl
    | none => rw [stateOf, h] at hi; simp at hi
  have htouch : touch tk.shards i = tk.shards := by simp [touch, hl]
  have hall : ∀ e ∈ setState tk.shards i .prepared, e.2.state = .prepared := by
    intro e he
    obtain ⟨e', h1, rfl⟩ := List.mem_map.mp he
    by_cases h : e'.1 = i
    · simp [h]
    · simp [h, ho e' h1 h]
  have hall' : ((setState tk.shards i .prepared).all fun e => e.2.state = .prepared) = true := by
    rw [List.all_eq_true]
    intro e he
    simp [hall e he]
  have hfst : ∀ j, (∃ sh, (j, sh) ∈ tk.shards) ↔
      Due { state := .prepared, shards := setState tk.shards i .prepared } .committed j := by
    intro j
    constructor
    · rintro ⟨sh, h1⟩
      have h2 : (if j = i then (j, { sh with state := SState.prepared }) else (j, sh)) ∈
          setState tk.shards i .prepared := List.mem_map.mpr ⟨(j, sh), h1, rfl⟩
      by_cases hj : j = i
      · rw [if_pos hj] at h2
        exact ⟨_, h2, by simp⟩
      · rw [if_neg hj] at h2
        exact ⟨_, h2, by rw [ho (j, sh) h1 hj]; simp⟩
    · rintro ⟨sh, h1, -⟩
      obtain ⟨e', h2, h3⟩ := List.mem_map.mp h1
      refine ⟨e'.2, ?_⟩
      have : e'.1 = j := by
        split at h3 <;> exact congrArg Prod.fst h3
      rw [← this]
      exact h2
  refine ⟨_, _, rfl, ?_, ?_⟩
  · rintro ⟨q, hq, hsh⟩
    have hc : CutOff { state := .prepared, shards := setState tk.shards i .prepared } .committed p :=
      ⟨q, hq, (hfst _).mp hsh⟩
    simp only [handlePrepare, ht, hs, Ticket.handlePrepare, htouch, hi, ne_eq, not_true_eq_false,
      if_false, hall', if_true, Ticket.doCommit, stopError_cut hc, Option.isSome_some, commitDone,
      Bool.false_eq_true]
  · intro hno
    have hc : ¬ CutOff { state := .prepared, shards := setState tk.shards i .prepared }
        .committed p := by
      rintro ⟨q, hq, hd⟩
      obtain ⟨sh, hsh⟩ := (hfst _).mpr hd
      exact hno q hq sh hsh
    have hst := stops_none hc
    simp only at hst
    simp only [handlePrepare, ht, hs, Ticket.handlePrepare, htouch, hi, ne_eq, not_true_eq_false,
      if_false, hall', if_true, Ticket.doCommit, hst, stopError, Option.isSome_none,
      Bool.false_eq_true, true_and]
    intro e he
    obtain ⟨sh, h1⟩ := due_target hc ((hfst e.1).mp ⟨e.2, he⟩)
    rw [hst] at h1
    exact List.mem_map.mpr ⟨_, h1, rfl⟩

/-! ### Concrete cases -/

/-- A transaction with locks on two shards. -/
def twoLocked : Ticket :=
  { shards := [(0, { keys := [([1], ⟨true, .write, some [10]⟩)] }),
      (1, { keys := [([2], ⟨true, .write, some [20]⟩)] })] }

/-- A broker with this transaction. -/
def bothLocked : State := { shards := 2, tickets := [(7, twoLocked)] }

/-- It is the state after locking a key on each of two shards. -/
example : ∃ s1 s2 s3 s4 s5 o1 o2 o3 o4 o5,
    step { shards := 2 } (.ticketNumber 0 (some (7, 10))) = some (s1, o1) ∧
    step s1 (.foundKey 0 7 [1] .write (some 0) true) = some (s2, o2) ∧
    step s2 (.locked 0 7 [1] 0 (.value [10])) = some (s3, o3) ∧
    step s3 (.foundKey 1 7 [2] .write (some 1) true) = some (s4, o4) ∧
    step s4 (.locked 1 7 [2] 1 (.value [20])) = some (s5, o5) ∧ s5.tickets = bothLocked.tickets :=
  ⟨_, _, _, _, _, _, _, _, _, _, rfl, rfl, rfl, rfl, rfl, by decide⟩

/-- The second shard cannot be reached: the first was asked to prepare, and the caller knows. -/
example : CutOff twoLocked .prepared (some ⟨1, fun i => i = 0⟩) ∧
    Committable twoLocked [([1], [11])] ∧
    ∃ s' o, step bothLocked (.commit 3 7 [([1], [11])] (some ⟨1, fun i => i = 0⟩)) = some (s', o) ∧
      o.calls = [.prepare 0 7 [([1], [11])] ⟨3, false⟩] ∧
      o.said = [.commit 3 7 (some (.broker .shardUnreachable))] :=
  ⟨⟨_, rfl, { keys := [([2], ⟨true, .write, some [20]⟩)] },
    List.mem_cons_of_mem _ List.mem_cons_self, by decide⟩,
   ⟨.inl rfl, by decide, by decide⟩, _, _, rfl, by decide, rfl⟩

/-- The transaction after both shards were asked to prepare and the first did. -/
def halfPrepared : Ticket :=
  { shards := [(0, { state := .prepared }), (1, { state := .preparing })] }

example : ∃ s' o, step { shards := 2, tickets := [(7, halfPrepared)] }
    (.prepared ⟨3, false⟩ 7 1 none (some ⟨0, fun _ => false⟩)) = some (s', o) ∧
    o.said = [.commit 3 7 (some (.broker .shardUnreachable))] := by
  obtain ⟨s', o, h1, h2, -⟩ := C140_prepared (s := { shards := 2, tickets := [(7, halfPrepared)] })
    (t := 7) (tk := halfPrepared) rfl rfl (i := 1) rfl (by decide) 3 (some ⟨0, fun _ => false⟩)
  exact ⟨s', o, h1, h2 ⟨_, rfl, _, List.mem_cons_self⟩⟩

end Verif.Parsec.Broker
