import Verif.LockingShard.Model

/-!
Model of a shard as a cluster of replicas: `src/uhs/twophase/locking_shard/controller.cpp`,
`src/uhs/twophase/locking_shard/state_machine.cpp`, `src/util/raft/rpc_server.hpp` and
`src/uhs/twophase/locking_shard/status_server.cpp`.

NuRaft is outside: it is taken to agree on one list of entries, of which every replica executes one after the other,
beginning with the one after `last_commit_index`. There are no snapshots
(`src/uhs/twophase/locking_shard/controller.cpp:46`), so a process that starts begins with the first.
-/
namespace Verif.LockingShard.Cluster

/-- The object that is replicated: how it begins, and what it does with a request. `none`: the process ends. -/
structure Machine (S Q R : Type) where
  start : S
  step : S → Q → Option (S × R)

/-- `commit` and `commit_config`, `src/uhs/twophase/locking_shard/state_machine.cpp:32-55`. An entry which is no request (a
configuration, or bytes that do not parse) only moves the index; it has no answer. -/
def Machine.commit {S Q R : Type} (M : Machine S Q R) (s : S) : Option Q → Option (S × Option R)
  | none => some (s, none)
  | some q => (M.step s q).map fun r => (r.1, some r.2)

/-- A replica: its object, `none` while the process is down, and `m_last_committed_idx`. -/
structure Replica (S : Type) where
  object : Option S
  applied : Nat

/-- The agreed entries, the replicas, the answers sent to requests (by index of the entry), and the states in which questions
about status were answered (with the number of agreed entries at the time). -/
structure Sys (S Q R : Type) where
  log : List (Option Q)
  replicas : Nat → Replica S
  replies : List (Nat × Option R)
  reads : List (Nat × S)

/-- What happens. -/
inductive Ev (Q : Type) where
  /-- The replicas agree on an entry: `request_handler`, `src/util/raft/rpc_server.hpp:43-77`. -/
  | agree (e : Option Q)
  /-- A replica executes its next entry, and sends the answer if it leads and was asked. -/
  | execute (n : Nat) (answers : Bool)
  /-- The process ends. -/
  | kill (n : Nat)
  /-- The process starts: `init`, `src/uhs/twophase/locking_shard/controller.cpp:32-109`. -/
  | start (n : Nat)
  /-- A replica is asked for a status: `request_handler`, `src/uhs/twophase/locking_shard/status_server.cpp:22-32`. -/
  | read (n : Nat)

/-- A replica is replaced. -/
def Sys.set {S Q R : Type} (s : Sys S Q R) (n : Nat) (r : Replica S) : Sys S Q R :=
  { s with replicas := fun i => if i = n then r else s.replicas i }

/-- One event. -/
def step {S Q R : Type} (M : Machine S Q R) (s : Sys S Q R) : Ev Q → Sys S Q R
  | .agree e => { s with log := s.log ++ [e] }
  | .execute n answers =>
    match (s.replicas n).object, s.log[(s.replicas n).applied]? with
    | some x, some e =>
      match M.commit x e with
      | none => s.set n ⟨none, 0⟩
      | some (x', r) =>
        let s' := s.set n ⟨some x', (s.replicas n).applied + 1⟩
        if answers then { s' with replies := s'.replies ++ [((s.replicas n).applied, r)] } else s'
    | _, _ => s
  | .kill n => s.set n ⟨none, 0⟩
  | .start n =>
    match (s.replicas n).object with
    | some _ => s
    | none => s.set n ⟨some M.start, 0⟩
  | .read n =>
    match (s.replicas n).object with
    | some x => { s with reads := s.reads ++ [(s.log.length, x)] }
    | none => s

/-- Events one after the other. -/
def run {S Q R : Type} (M : Machine S Q R) (s : Sys S Q R) (evs : List (Ev Q)) : Sys S Q R := evs.foldl (step M) s

/-- No process runs yet. -/
def new (S Q R : Type) : Sys S Q R := { log := [], replicas := fun _ => ⟨none, 0⟩, replies := [], reads := [] }

/-- A locking shard, `src/uhs/twophase/locking_shard/state_machine.cpp:81-118`, with its preseeded ids. -/
def shard (c : Cfg) (uhs : HSet) : Machine State Req Resp := ⟨State.init c uhs, LockingShard.step c⟩

end Verif.LockingShard.Cluster
