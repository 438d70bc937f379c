/-!
# Reading a row with `get_row` (C130)

Model of `get_row`, src/parsec/util.cpp:250-343, the counterpart of `put_row` (C106).
-/
namespace Verif.Parsec.GetRow

/-- `error_code` of the broker as far as `get_row` makes one itself, and any other by its number,
src/parsec/broker/interface.hpp:42-83. -/
inductive Code where
  | ticketNumberAssignment
  | shardUnreachable
  | commitError
  | finishError
  | other (n : Nat)
  deriving DecidableEq

/-- `try_lock_return_type`, src/parsec/broker/interface.hpp:102-105: a value, an error of a shard or one of the broker. -/
inductive Reply where
  | value (v : List UInt8)
  | shard (n : Nat)
  | code (c : Code)
  deriving DecidableEq

/-- What comes of a call of the broker with a callback. -/
inductive Call (α : Type) where
  /-- it returns false -/
  | refused
  /-- the callback is never called -/
  | silent
  /-- the callback is called before the call returns -/
  | now (a : α)
  /-- the callback is called after the call has returned, by another thread -/
  | later (a : α)

/-- What a call says in the end. -/
def Call.said {α : Type} : Call α → Option α
  | .now a => some a
  | .later a => some a
  | _ => none

/-- What the broker does.  A ticket is a success of `begin`; `commit` and `finish` say an error or nothing
(that the error of `commit` is not a value is left open here).
`begin` does not return false (the comment in src/parsec/util.cpp:339-340); if it does, `get_row` takes it for silence. -/
structure Broker where
  begins : Call (Option Nat)
  lock : Call Reply
  commit : Call (Option Reply)
  finish : Call (Option Code)

/-- What is seen of a call of `get_row`. -/
structure Got where
  /-- what it returns, nothing if it waits for ever -/
  returned : Option Reply
  /-- the calls of `result_callback`, the first first -/
  told : List Reply
  /-- the behaviour is undefined -/
  undefined : Bool
  /-- the broker was asked to finish the ticket -/
  finished : Bool
  deriving DecidableEq

/-- `finish_cb`, src/parsec/util.cpp:260-264, and the call in src/parsec/util.cpp:313-319: what the callback is told. -/
def finishing : Call (Option Code) → List Reply
  | .refused => [.code .finishError]
  | .silent => []
  | .now none => []
  | .later none => []
  | .now (some c) => [.code c]
  | .later (some c) => [.code c]

/-- `commit_cb` and the call of `commit`, src/parsec/util.cpp:297-331: what the callback is told, and whether `finish` is called. -/
def committing (b : Broker) : List Reply × Bool :=
  match b.commit with
  | .refused => ([.code .commitError], false)
  | .silent => ([], false)
  | .now (some r) => ([r], false)
  | .later (some r) => ([r], false)
  | .now none => (finishing b.finish, true)
  | .later none => (finishing b.finish, true)

/-- The callback of `try_lock`, src/parsec/util.cpp:285-332.  `alive` says whether the functions it refers to have certainly not returned:
it reads `ticket_number` of `begin_cb` and `finish_cb` of `get_row` after it has given the result to `get_row`. -/
def locked (b : Broker) (alive : Bool) : Reply → Got
  | .value v =>
    let c := committing b
    ⟨some (.value v), .value v :: c.1, !alive, c.2⟩
  | _ => ⟨some (.code .shardUnreachable), [.code .shardUnreachable], false, false⟩

/-- `begin_cb`, src/parsec/util.cpp:266-338; `same` says whether it runs before `begin` returns. -/
def begun (b : Broker) (same : Bool) : Option Nat → Got
  | none => ⟨some (.code .ticketNumberAssignment), [.code .ticketNumberAssignment], false, false⟩
  | some _ =>
    match b.lock with
    -- src/parsec/util.cpp:333-337: the promise is not given a value
    | .refused => ⟨none, [.code .shardUnreachable], false, false⟩
    | .silent => ⟨none, [], false, false⟩
    | .now r => locked b same r
    | .later r => locked b false r

/-- `get_row`, src/parsec/util.cpp:250-343. -/
def getRow (b : Broker) : Got :=
  match b.begins with
  | .refused => ⟨none, [], false, false⟩
  | .silent => ⟨none, [], false, false⟩
  | .now t => begun b true t
  | .later t => begun b false t

/-! ### What holds -/

/-- **C130, partly.** What `get_row` returns is what the callback is told first; and a value is what the shard has under the lock.
What is missing is that it returns, and that its behaviour is defined. -/
theorem C130_value_partial (b : Broker) :
    (∀ r, (getRow b).returned = some r → (getRow b).told.head? = some r) ∧
    (∀ v, (getRow b).returned = some (.value v) → b.lock.said = some (.value v)) ∧
    ∀ r, (getRow b).told.head? = some r → r ∉ [.code .shardUnreachable, .code .ticketNumberAssignment] → b.lock.said = some r := by
  obtain ⟨begins, lock, commit, finish⟩ := b
  cases begins with
  | refused => simp [getRow]
  | silent => simp [getRow]
  | now t =>
    cases t with
    | none => simp +contextual [getRow, begun, eq_comm]
    | some t =>
      cases lock with
      | refused => simp +contextual [getRow, begun, eq_comm]
      | silent => simp [getRow, begun]
      | now r => cases r <;> simp +contextual [getRow, begun, locked, Call.said, eq_comm]
      | later r => cases r <;> simp +contextual [getRow, begun, locked, Call.said, eq_comm]
  | later t =>
    cases t with
    | none => simp +contextual [getRow, begun, eq_comm]
    | some t =>
      cases lock with
      | refused => simp +contextual [getRow, begun, eq_comm]
      | silent => simp [getRow, begun]
      | now r => cases r <;> simp +contextual [getRow, begun, locked, Call.said, eq_comm]
      | later r => cases r <;> simp +contextual [getRow, begun, locked, Call.said, eq_comm]

/-- **C130.** When the broker answers `begin` and `try_lock` before they return, with a ticket and a value, `get_row` returns the value and
its behaviour is defined; the ticket is finished if the broker commits it. -/
theorem C130_local (t : Nat) (v : List UInt8) (commit : Call (Option Reply)) (finish : Call (Option Code)) :
    let g := getRow ⟨.now (some t), .now (.value v), commit, finish⟩
    g.returned = some (.value v) ∧ g.undefined = false ∧ (commit.said = some none → g.finished = true) := by
  refine ⟨rfl, rfl, ?_⟩
  cases commit with
  | refused => exact fun h => nomatch h
  | silent => exact fun h => nomatch h
  | now r => intro h; cases h; rfl
  | later r => intro h; cases h; rfl

example : getRow ⟨.now (some 1), .now (.value [7]), .later none, .later none⟩ = ⟨some (.value [7]), [.value [7]], false, true⟩ := rfl

/-! ### What does not -/

/-- **C130, violated.** When `try_lock` returns false `get_row` waits for ever, though the callback is told that the shard cannot be reached. -/
theorem C130_blocks_violated (b : Broker) (t : Nat) (hb : b.begins.said = some (some t)) (hl : b.lock = .refused) :
    (getRow b).returned = none ∧ (getRow b).told = [.code .shardUnreachable] := by
  obtain ⟨begins, lock, commit, finish⟩ := b
  cases hl
  cases begins <;> cases hb <;> exact ⟨rfl, rfl⟩

/-- **C130, violated.** The callback of `try_lock` refers to variables of `begin_cb` and `get_row`: if a value comes after `try_lock` has
returned, as from a shard over the network, the behaviour is undefined. -/
theorem C130_dangling_violated (b : Broker) (t : Nat) (v : List UInt8) (hb : b.begins.said = some (some t)) (hl : b.lock = .later (.value v)) :
    (getRow b).undefined = true := by
  obtain ⟨begins, lock, commit, finish⟩ := b
  cases hl
  cases begins <;> cases hb <;> rfl

/-- **C130, violated.** The callback may be called twice, first with the value and then with an error; `get_row` returns the value. -/
theorem C130_twice_violated (t : Nat) (v : List UInt8) (r : Reply) (finish : Call (Option Code)) :
    (getRow ⟨.now (some t), .now (.value v), .later (some r), finish⟩).told = [.value v, r] ∧
    (getRow ⟨.now (some t), .now (.value v), .later (some r), finish⟩).returned = some (.value v) := ⟨rfl, rfl⟩

/-- **C130, violated.** The ticket is finished only after a commit: when the lock is refused, or the commit, the ticket is left as it is, with the
locks it has; and nobody is told its number. -/
theorem C130_left_violated (b : Broker) (h : (∀ v, b.lock.said ≠ some (.value v)) ∨ b.commit.said ≠ some none) : (getRow b).finished = false := by
  obtain ⟨begins, lock, commit, finish⟩ := b
  have key : ∀ a r, (lock.said = some r) → (locked ⟨begins, lock, commit, finish⟩ a r).finished = false := by
    intro a r hr
    cases r with
    | value v =>
      rcases h with h | h
      · exact absurd hr (h v)
      · rcases commit with _ | _ | (_ | r) | (_ | r)
        · rfl
        · rfl
        · exact absurd rfl h
        · rfl
        · exact absurd rfl h
        · rfl
    | shard n => rfl
    | code c => rfl
  have key2 : ∀ a t, (begun ⟨begins, lock, commit, finish⟩ a t).finished = false := by
    intro a t
    cases t with
    | none => rfl
    | some t =>
      cases lock with
      | refused => rfl
      | silent => rfl
      | now r => exact key a r rfl
      | later r => exact key false r rfl
  cases begins with
  | refused => rfl
  | silent => rfl
  | now t => exact key2 true t
  | later t => exact key2 false t

/-- **C130, violated.** Every error of the lock is reported as a shard that cannot be reached, also that the ticket was wounded by another. -/
theorem C130_error_violated (b : Broker) (t : Nat) (n : Nat) (hb : b.begins.said = some (some t)) (hl : b.lock.said = some (.shard n)) :
    (getRow b).told = [.code .shardUnreachable] := by
  obtain ⟨begins, lock, commit, finish⟩ := b
  rcases begins with _ | _ | t | t <;> rcases lock with _ | _ | r | r <;> cases hb <;> cases hl <;> rfl

end Verif.Parsec.GetRow
