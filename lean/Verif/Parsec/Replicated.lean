import Verif.Parsec.Shard

/-!
# The replicated PArSEC shard

Model of `src/parsec/runtime_locking_shard/replicated_shard.cpp` (the state
machine replicated with raft), `src/parsec/runtime_locking_shard/server.cpp` (how requests reach it and the
locking shard of the leader) and `src/parsec/runtime_locking_shard/controller.cpp` (what a new leader does).

Raft itself is trusted: it is modelled as one list of commands.  Commands that
were accepted but not yet executed are in `log`; they are executed in order,
each followed by the callback of the request it belongs to (nuraft calls the
callbacks from the thread that executes the commands).  When the leader
changes, any number of these commands is still executed, without their
callbacks, and the others are lost.  There are no snapshots
(src/parsec/runtime_locking_shard/controller.cpp:41).
-/
namespace Verif.Parsec

/-- `m_state` and `m_tickets` of `replicated_shard` (src/parsec/runtime_locking_shard/replicated_shard.hpp).
The tickets are a map; the list has one entry per ticket
(`RState.apply_distinct`). -/
structure RState where
  value : Key → Value := fun _ => []
  tickets : List (Tn × RTicket) := []

/-- `replicated_request` (src/parsec/runtime_locking_shard/messages.hpp): a command in the raft log. -/
inductive Cmd
  | prepare (t : Tn) (broker : Nat) (u : List (Key × Value))
  | commit (t : Tn)
  | finish (t : Tn)
  deriving DecidableEq, Repr

/-- The record of `t` after a commit: its values were moved from
(src/parsec/runtime_locking_shard/replicated_shard.cpp:34-36), which leaves empty buffers. -/
def RTicket.moved (r : RTicket) : RTicket :=
  { r with
    committed := true
    update := r.update.map fun p => (p.1, []) }

/-- `prepare` (src/parsec/runtime_locking_shard/replicated_shard.cpp:9-23, `emplace` keeps an existing entry),
`commit` (25-42) and `finish` (44-53). -/
def RState.apply (s : RState) : Cmd → RState × Option Code
  | .prepare t b u =>
    match s.tickets.lookup t with
    | some _ => (s, none)
    | none => ({ s with tickets := (t, ⟨b, u, false⟩) :: s.tickets }, none)
  | .commit t =>
    match s.tickets.lookup t with
    | none => (s, some .unknownTicket)
    | some r =>
      ({ value := applyUpdate s.value r.update
         tickets := s.tickets.map fun p =>
           if p.1 = t then (t, r.moved) else p }, none)
  | .finish t =>
    ({ s with tickets := s.tickets.filter fun p => p.1 ≠ t }, none)

/-- A replicated command and the request waiting for it (src/parsec/runtime_locking_shard/server.cpp:88-174). -/
inductive Pend
  | prepare (t : Tn) (broker : Nat) (u : List (Key × Value))
  | commit (t : Tn)
  | rollback (t : Tn)
  | finish (t : Tn)
  deriving DecidableEq, Repr

/-- The command (src/parsec/runtime_locking_shard/server.cpp:54, 62, 70, 97). -/
def Pend.cmd : Pend → Cmd
  | .prepare t b u => .prepare t b u
  | .commit t => .commit t
  | .rollback t => .finish t
  | .finish t => .finish t

/-- The leader's shard, the replicated state and the commands not executed
yet. -/
structure Sys where
  shard : State := {}
  repl : RState := {}
  log : List Pend := []

/-- A request to the server (src/parsec/runtime_locking_shard/server.cpp:27-86); `get_tickets` changes
nothing. -/
inductive Req
  | tryLock (t : Tn) (broker : Nat) (k : Key) (ty : LockType) (first : Bool)
      (cb : Nat)
  | prepare (t : Tn) (broker : Nat) (u : List (Key × Value))
  | commit (t : Tn)
  | rollback (t : Tn)
  | finish (t : Tn)
  deriving DecidableEq

/-- What a step reports: lock callbacks, and the answer to another request,
with that request. -/
structure SOut where
  calls : Calls := noCalls
  reply : Option (Req × Option ShardError) := none

/-- `handler_callback` (src/parsec/runtime_locking_shard/server.cpp:27-86) and, for a prepare, `handle_prepare`
(88-113).  `none`: the process exits, see `tryLock`. -/
def Sys.request (s : Sys) : Req → Option (Sys × SOut)
  | .tryLock t b k ty f cb =>
    match Parsec.tryLock s.shard t b k ty f cb with
    | none => none
    | some (sh, o) => some ({ s with shard := sh }, { calls := o.calls })
  | .prepare t b u =>
    let r := Parsec.prepare s.shard t u
    match r.2.result with
    | some e => some (s, { reply := some (.prepare t b u, some e) })
    | none =>
      some ({ s with shard := r.1, log := s.log ++ [.prepare t b u] }, {})
  | .commit t => some ({ s with log := s.log ++ [.commit t] }, {})
  | .rollback t => some ({ s with log := s.log ++ [.rollback t] }, {})
  | .finish t => some ({ s with log := s.log ++ [.finish t] }, {})

/-- The callback of a replicated command: `handle_prepare` (src/parsec/runtime_locking_shard/server.cpp:101-108),
`handle_commit` (115-133), `do_rollback` (135-154) and `do_finish`
(156-174).  Simplified: `internal_error` is reported as an error of the request;
the server sends it as an answer of another kind, which ends the broker (C136). -/
def afterCmd (sh : State) (e : Option Code) : Pend → State × SOut
  | .prepare t b u =>
    (sh, { reply := some (.prepare t b u, e.map fun _ =>
      ⟨.internalError, none⟩) })
  | .commit t =>
    match e with
    | some _ => (sh, { reply := some (.commit t, some ⟨.internalError, none⟩) })
    | none =>
      let r := Parsec.commit sh t
      (r.1, { calls := r.2.calls, reply := some (.commit t, r.2.result) })
  | .rollback t =>
    let r := Parsec.rollback sh t
    (r.1, { calls := r.2.calls, reply := some (.rollback t, r.2.result) })
  | .finish t =>
    let r := Parsec.finish sh t
    (r.1, { calls := r.2.calls, reply := some (.finish t, r.2.result) })

/-- The next command is executed and its request continues. -/
def Sys.apply (s : Sys) : Sys × SOut :=
  match s.log with
  | [] => (s, {})
  | p :: log =>
    let r := s.repl.apply p.cmd
    let a := afterCmd s.shard r.2 p
    ({ shard := a.1, repl := r.1, log := log }, a.2)

/-- Executes commands of the log without their callbacks. -/
def RState.applyAll (s : RState) : List Pend → RState
  | [] => s
  | p :: log => (s.apply p.cmd).1.applyAll log

/-- The leader changes: the first `n` pending commands are executed, the
others are lost, and the new leader recovers a new shard from the replicated
state (`do_recovery`, `handle_get_tickets`, src/parsec/runtime_locking_shard/controller.cpp:73-117). -/
def Sys.failover (s : Sys) (n : Nat) : Sys :=
  let r := s.repl.applyAll (s.log.take n)
  { shard := recover r.value r.tickets, repl := r, log := [] }

/-- What can happen. -/
inductive Event
  | request (r : Req)
  | apply
  | failover (n : Nat)

/-- One event.  A request that ends the leader's process does not happen as
such: it is a `failover`. -/
def Sys.step (s : Sys) : Event → Option (Sys × SOut)
  | .request r => s.request r
  | .apply => some s.apply
  | .failover n => some (s.failover n, {})

end Verif.Parsec
