import Verif.Serial.Messages

/-! The replicated log of the coordinators in bytes: how a controller writes a command, how the state
machine reads it and keeps its payload, how the state machine answers `get`, and how a new leader
reads the answer. Writer and reader are different programs here: the payloads are written as typed
values, kept as bytes nobody looks at, written again without a length, and read as typed values.
`src/uhs/twophase/coordinator/{format.cpp,state_machine.cpp,controller.cpp}`. -/
namespace Verif.Coordinator.Wire

open Verif.Serial

/-- `controller::prepare_tx`, `src/uhs/twophase/coordinator/controller.hpp:59-60`. -/
def tPrepare : Ty := .vec tCompactTx

/-- `controller::commit_tx`, `src/uhs/twophase/coordinator/controller.hpp:67-72`. -/
def tCommit : Ty := .pair (.vec .bool) (.vec (.vec tU64))

/-- `controller::sm_command` with its header, `src/uhs/twophase/coordinator/controller.hpp:84-103`; the
values of `state_machine::command` are those of `src/uhs/twophase/coordinator/state_machine.hpp:30-36`:
0 prepare, 1 commit, 2 discard, 3 done, 4 get. -/
structure Command where
  comm : Nat
  dtx : Option Bytes
  data : Option (tPrepare.val ⊕ tCommit.val)

/-- `operator<<` of the header, `src/uhs/twophase/coordinator/format.cpp:56-60`. -/
def writeHeader (comm : Nat) (dtx : Option Bytes) : Bytes :=
  encInt 1 comm ++ enc (.opt tHash) dtx

/-- `operator<<` of the command, `src/uhs/twophase/coordinator/format.cpp:27-54`; `none` when
`std::optional::value` or `std::get` throws. (Simplification: `replicate_sm_command` allocates
`serialized_size` bytes, which is what these writes need, `src/uhs/twophase/coordinator/controller.cpp:460-469`.) -/
def Command.write (c : Command) : Option Bytes :=
  match c.comm, c.data with
  | 0, some (.inl txs) => some (writeHeader c.comm c.dtx ++ enc tPrepare txs)
  | 0, _ => none
  | 1, some (.inr p) => some (writeHeader c.comm c.dtx ++ enc tCommit p)
  | 1, _ => none
  | _, _ => some (writeHeader c.comm c.dtx)

/-- What reading a header leaves: the command, the batch, and the bytes after the cursor. -/
inductive Header where
  | read (comm : Nat) (dtx : Option Bytes) (rest : Bytes)
  | undef

/-- `operator>>` of the header, `src/uhs/twophase/coordinator/format.cpp:62-70`, from a fresh
`sm_command_header` (command 0, no batch). Nobody looks at the outcome of the reads: what could not be
read keeps its initial value. -/
def readHeader (b : Bytes) : Header :=
  let (comm, r) := match decInt 1 b with
    | .ok c r => (c, r)
    | .fail r => (0, r)
    | .bad => (0, b)
  match dec (.opt tHash) r with
  | .ok d r' => .read comm d r'
  | .fail r' => .read comm none r'
  | .bad => .undef

/-- `state_machine::coordinator_state`, `src/uhs/twophase/coordinator/state_machine.hpp:41-57`: the
payloads are kept as the bytes they came as. Lists in the order of iteration of the containers. -/
structure Raw where
  prepare : List (Bytes × Bytes)
  commit : List (Bytes × Bytes)
  discard : List Bytes

/-- The state machine starts empty, `src/uhs/twophase/coordinator/state_machine.hpp:83-85`. -/
def Raw.empty : Raw := ⟨[], [], []⟩

/-- A map from hashes to `nuraft::buffer`s is written by the template for maps
(`src/util/serialization/format.hpp:238-251`); a buffer is written without its size
(`src/util/raft/messages.cpp:9-13`). -/
def writeRawMap (m : List (Bytes × Bytes)) : Bytes :=
  encInt 8 m.length ++ m.flatMap fun p => enc tHash p.1 ++ p.2

/-- `operator<<` of the state, `src/uhs/twophase/coordinator/format.cpp:15-19`. -/
def Raw.write (s : Raw) : Bytes :=
  writeRawMap s.prepare ++ (writeRawMap s.commit ++ enc (.uset tHash) s.discard)

/-- What becomes of the process that executes a log entry. -/
inductive Outcome where
  /-- `m_logger->fatal` ends the process -/
  | exits
  /-- `std::bad_optional_access` -/
  | throws
  /-- undefined behaviour -/
  | undef
  | goes (s : Raw) (reply : Option Bytes)

/-- Removing a key from a map, `std::unordered_map::erase`. -/
def erase (m : List (Bytes × Bytes)) (d : Bytes) : List (Bytes × Bytes) :=
  m.filter fun p => decide (p.1 ≠ d)

/-- Adding a key to a map unless it is there, `std::unordered_map::emplace`. -/
def emplace (m : List (Bytes × Bytes)) (d v : Bytes) : List (Bytes × Bytes) :=
  if d ∈ m.map Prod.fst then m else m ++ [(d, v)]

/-- `state_machine::commit` after the header was read, `src/uhs/twophase/coordinator/state_machine.cpp:22-91`.
`nuraft::buffer::copy` copies what is after the cursor, `rest`. (An unknown command does nothing.) -/
def Raw.run (s : Raw) (comm : Nat) (dtx : Option Bytes) (rest : Bytes) : Outcome :=
  match comm, dtx with
  | 0, some d =>
    if d ∈ s.prepare.map Prod.fst then .exits
    else .goes { s with prepare := emplace s.prepare d rest } none
  | 1, some d =>
    if d ∈ s.prepare.map Prod.fst then
      .goes { s with
        prepare := erase s.prepare d
        commit := emplace s.commit d rest } none
    else .exits
  | 2, some d =>
    if d ∈ s.commit.map Prod.fst then
      .goes { s with
        commit := erase s.commit d
        discard := if d ∈ s.discard then s.discard else s.discard ++ [d] } none
    else .exits
  | 3, some d =>
    if d ∈ s.discard then
      .goes { s with
        discard := s.discard.filter fun x => decide (x ≠ d) } none
    else .exits
  | 4, _ => .goes s (some s.write)
  | 0, none | 1, none | 2, none | 3, none => .throws
  | _, _ => .goes s none

/-- `state_machine::commit`, `src/uhs/twophase/coordinator/state_machine.cpp:14-92`. -/
def Raw.exec (s : Raw) (data : Bytes) : Outcome :=
  match readHeader data with
  | .undef => .undef
  | .read comm dtx rest => s.run comm dtx rest

/-- `operator>>` of `controller::coordinator_state`, `src/uhs/twophase/coordinator/format.cpp:21-25`. -/
def tState : Ty := .fields (.umap tHash tPrepare) (.fields (.umap tHash tCommit) (.uset tHash))

/-- What `recovery_func` reads from the answer, `src/uhs/twophase/coordinator/controller.cpp:243-246`. -/
def readState (b : Bytes) : Res tState.val := dec tState b

/-- The commands that controllers replicate. -/
inductive Entry where
  | prepare (d : Bytes) (txs : tPrepare.val)
  | commit (d : Bytes) (p : tCommit.val)
  | discard (d : Bytes)
  | done (d : Bytes)
  | get

/-- How they are built, `src/uhs/twophase/coordinator/controller.cpp:147-182` and `src/uhs/twophase/coordinator/controller.cpp:222`. -/
def Entry.command : Entry → Command
  | .prepare d txs => ⟨0, some d, some (.inl txs)⟩
  | .commit d p => ⟨1, some d, some (.inr p)⟩
  | .discard d => ⟨2, some d, none⟩
  | .done d => ⟨3, some d, none⟩
  | .get => ⟨4, none, none⟩

/-- The same content, perhaps in another order of iteration (containers reorder when they grow). -/
def Raw.Same (s t : Raw) : Prop :=
  s.prepare.Perm t.prepare ∧ s.commit.Perm t.commit ∧ s.discard.Perm t.discard

/-- The states of a state machine that executed a log, whatever the order of iteration of its
containers. -/
inductive Reach : List Entry → Raw → Prop
  | start : Reach [] .empty
  | step {log : List Entry} {s s' t : Raw} {e : Entry} {b : Bytes} {r : Option Bytes} :
      Reach log s → s.Same s' → e.command.write = some b → s'.exec b = .goes t r →
      Reach (log ++ [e]) t

end Verif.Coordinator.Wire
