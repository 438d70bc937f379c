/-!
# The PArSEC agent

Model of `src/parsec/agent/impl.cpp`, the state machine that runs one function
for one client of an agent server (`src/parsec/agent/server_interface.cpp`, `src/parsec/agent/runners/lua/server.cpp`).

Every method runs under the agent's mutex.  A callback that the broker or the
runner calls before the method that was given it returns is modelled as an event
of its own that follows; the methods do nothing after such a call if it
succeeded.  Keys, values and ticket numbers are numbers.  A failed `assert` and
`m_log->fatal` are modelled alike, as the end of the process.
-/
namespace Verif.Parsec.Agent

/-- `state` (src/parsec/agent/impl.hpp:19-56). -/
inductive State
  | init | beginSent | beginFailed | functionGetSent | functionGetFailed
  | functionGetError | functionStarted | functionFailed | functionException
  | commitSent | commitFailed | commitError | finishSent | finishFailed
  | finishComplete | rollbackSent | rollbackFailed | rollbackComplete
  deriving DecidableEq

/-- `error_code` (src/parsec/agent/interface.hpp:29-46). -/
inductive Err
  | brokerUnreachable | ticketNumberAssignment | functionRetrieval
  | functionExecution | commitError | finishError | rollbackError | retry
  deriving DecidableEq

/-- `state_update_type` (src/parsec/runtime_locking_shard/interface.hpp:26-28): the keys written and their values. -/
abbrev Update := List (Nat × Nat)

/-- `exec_return_type` (src/parsec/agent/interface.hpp:50). -/
inductive Result
  | ok (u : Update)
  | error (e : Err)
  deriving DecidableEq

/-- `try_lock_return_type`, as far as the agent looks at it. -/
inductive LockRes
  | value (v : Nat)
  | broker
  | wounded
  | shard
  deriving DecidableEq

/-- `commit_return_type`, as far as the agent looks at it. -/
inductive CommitRes
  | ok
  | hazard
  | broker
  | wounded
  | shard
  deriving DecidableEq

/-- `run_return_type`, as far as the agent looks at it. -/
inductive RunRes
  | ok (u : Update)
  | wounded
  | failed
  deriving DecidableEq

/-- The arguments of the constructor (src/parsec/agent/impl.cpp:14-36) that matter: the key of the
function and its length, the lock type for it (`true` is a write lock), and
whether the run is read-only. -/
structure Config where
  key : Nat
  size : Nat
  initialWrite : Bool
  readonly : Bool

/-- Who waits for a lock: `handle_function`, the callback of a re-acquired lock
with its shared counter (src/parsec/agent/impl.cpp:265-291), or request `q` of a runner. -/
inductive Cont
  | function
  | again (id : Nat)
  | runner (r q : Nat)
  deriving DecidableEq

/-- `reacquired`, the size of `reacq_locks`, and the function
(src/parsec/agent/impl.cpp:252-254, 265). -/
structure Counter where
  got : Nat
  need : Nat
  value : Nat

/-- The members of `impl` (src/parsec/agent/impl.hpp:108-125).  `runners` is the number of runners
made so far; the current one is the last, the others are destroyed. -/
structure Agent where
  state : State := .init
  ticket : Option Nat := none
  result : Option Result := none
  permanent : Bool := false
  wounded : Bool := false
  locks : List (Nat × Bool) := []
  counters : List Counter := []
  runners : Nat := 0

/-- What an event causes. -/
inductive Out
  /-- Requests to the broker. -/
  | begin
  | lock (c : Cont) (t k : Nat) (write : Bool)
  | commit (t : Nat) (u : Update)
  | finish (t : Nat)
  | rollback (t : Nat)
  /-- A runner is made and started. -/
  | start (r v : Nat)
  /-- A lock request of a runner is answered, or refused at once. -/
  | answer (r q : Nat) (res : LockRes)
  | refuse (r q : Nat)
  /-- The result callback is called. -/
  | result (r : Result)
  /-- The process ends. -/
  | crash
  deriving DecidableEq

/-- Which requests to the broker can be sent, and whether a runner starts. -/
structure Can where
  begin : Bool := true
  function : Bool := true
  lock : Nat → Bool := fun _ => true
  commit : Bool := true
  finish : Bool := true
  rollback : Bool := true
  run : Bool := true

/-- A state of the agent and what was caused so far. -/
abbrev M := Agent × List Out

/-- Run `f` after what has happened already. -/
def M.then (m : M) (f : Agent → M) : M :=
  ((f m.1).1, m.2 ++ (f m.1).2)

/-- The process ends: `fatal`, or a failed assertion. -/
def crash (a : Agent) : M := (a, [.crash])

/-- The end of `do_result` (src/parsec/agent/impl.cpp:482, 546). -/
def report (a : Agent) : M :=
  match a.result with
  | none => crash a
  | some r => (a, [.result r])

/-- `do_rollback` (src/parsec/agent/impl.cpp:597-623).  When the broker cannot be reached,
`do_result` is called in state `rollback_failed`, where it only reports
(src/parsec/agent/impl.cpp:530-532). -/
def doRollback (p : Can) (finish : Bool) (a : Agent) : M :=
  match a.state with
  | .commitFailed | .rollbackSent | .functionException | .functionFailed
  | .commitError | .functionGetFailed | .functionGetError | .functionStarted
  | .rollbackFailed =>
    match a.ticket with
    | none => crash a
    | some t =>
      let a := { a with state := .rollbackSent, permanent := finish }
      if p.rollback then (a, [.rollback t])
      else report { a with
        state := .rollbackFailed, result := some (.error .brokerUnreachable) }
  | _ => crash a

/-- `do_result` (src/parsec/agent/impl.cpp:480-550). -/
def doResult (p : Can) (a : Agent) : M :=
  match a.state with
  | .init | .beginSent | .functionGetSent | .commitSent | .finishSent
  | .functionStarted | .rollbackSent => crash a
  | .rollbackComplete =>
    if a.result = some (.error .retry) then report a else crash a
  | .beginFailed => report a
  | .functionGetFailed | .functionFailed | .commitFailed =>
    doRollback p false a
  | .finishFailed | .rollbackFailed => report a
  | .functionGetError | .commitError | .functionException =>
    doRollback p true a
  | .finishComplete => report a

/-- `do_runner` (src/parsec/agent/impl.cpp:324-352).  A runner that does not start calls no
callback. -/
def doRunner (p : Can) (v : Nat) (a : Agent) : M :=
  let o := [.start a.runners v]
  let a := { a with runners := a.runners + 1 }
  if p.run then (a, o)
  else M.then (a, o) fun a => doResult p { a with
    state := .functionFailed, result := some (.error .functionExecution) }

/-- The callback of a re-acquired lock (src/parsec/agent/impl.cpp:276-291). -/
def again (p : Can) (id : Nat) (a : Agent) : M :=
  match a.counters[id]? with
  | none => (a, [])
  | some n =>
    let a := { a with
      counters := a.counters.set id { n with got := n.got + 1 } }
    if n.got + 1 = n.need then doRunner p n.value a else (a, [])

/-- `handle_try_lock_response` (src/parsec/agent/impl.cpp:172-189). -/
def handleLock (p : Can) (c : Cont) (res : LockRes) (a : Agent) : M :=
  if a.state ≠ .functionStarted then (a, [])
  else
    let a := if res = .wounded then { a with wounded := true } else a
    match c with
    | .function => (a, [])
    | .again id => again p id a
    | .runner r q => (a, [.answer r q res])

/-- `m_requested_locks` after a request (src/parsec/agent/impl.cpp:222-226). -/
def remember (l : List (Nat × Bool)) (k : Nat) (write : Bool) :
    List (Nat × Bool) :=
  match l.lookup k with
  | none => l ++ [(k, write)]
  | some true => l
  | some false => l.map fun e => if e.1 = k then (k, write) else e

/-- `do_try_lock_request` (src/parsec/agent/impl.cpp:191-238).  The second result is what it
returns. -/
def tryLock (cfg : Config) (p : Can) (c : Cont) (k : Nat) (write : Bool)
    (a : Agent) : M × Bool :=
  match a.ticket with
  | none => (crash a, true)
  | some t =>
    if a.state ≠ .functionStarted then ((a, []), false)
    else if cfg.readonly && write then ((a, []), false)
    else if a.wounded then (handleLock p c .wounded a, true)
    else
      let a := { a with locks := remember a.locks k write }
      if p.lock k then
        ((a, [.lock c t k (if cfg.readonly then false else write)]), true)
      else ((a, []), false)

/-- The loop over the locks held before (src/parsec/agent/impl.cpp:266-300). -/
def acquire (cfg : Config) (p : Can) (id : Nat) :
    List (Nat × Bool) → Agent → M
  | [], a => (a, [])
  | (k, write) :: l, a =>
    let r := tryLock cfg p (.again id) k write a
    if r.2 then r.1.then (acquire cfg p id l)
    else r.1.then fun a => doResult p { a with
      state := .functionGetFailed
      result := some (.error .functionRetrieval) }

/-- `handle_function` (src/parsec/agent/impl.cpp:240-322). -/
def handleFunction (cfg : Config) (p : Can) (res : LockRes) (a : Agent) : M :=
  if a.state ≠ .functionGetSent then (a, [])
  else match res with
  | .value v =>
    let l := a.locks
    let a := { a with state := .functionStarted, locks := [] }
    if l.isEmpty then doRunner p v a
    else acquire cfg p a.counters.length l { a with
      counters := a.counters ++ [{ got := 0, need := l.length, value := v }] }
  | .broker => doResult p { a with
      state := .functionGetFailed
      result := some (.error .functionRetrieval) }
  | .wounded => doResult p { a with
      state := .functionGetFailed
      result := some (.error .functionRetrieval) }
  | .shard => doResult p { a with
      state := .functionGetError
      result := some (.error .functionRetrieval) }

/-- `do_start` (src/parsec/agent/impl.cpp:132-170).  The lock type is that of the constructor
(src/parsec/agent/impl.cpp:32-33). -/
def doStart (cfg : Config) (p : Can) (a : Agent) : M :=
  match a.ticket with
  | none => crash a
  | some t =>
    if a.state ≠ .beginSent ∧ a.state ≠ .rollbackComplete then crash a
    else
      let a := { a with state := .functionGetSent }
      if cfg.readonly && cfg.size == 0 then
        handleFunction cfg p (.value 0) a
      else if cfg.size = 1 then handleFunction cfg p (.value cfg.key) a
      else if p.function then
        (a, [.lock .function t cfg.key
          (if cfg.readonly then false else cfg.initialWrite)])
      else doResult p { a with
        state := .functionGetFailed
        result := some (.error .brokerUnreachable) }

/-- `do_commit` (src/parsec/agent/impl.cpp:354-383). -/
def doCommit (cfg : Config) (p : Can) (a : Agent) : M :=
  match a.state, a.result, a.ticket with
  | .functionStarted, some (.ok u), some t
  | .commitFailed, some (.ok u), some t
  | .commitSent, some (.ok u), some t =>
    let a := { a with state := .commitSent }
    if p.commit then (a, [.commit t (if cfg.readonly then [] else u)])
    else doResult p { a with
      state := .commitFailed, result := some (.error .brokerUnreachable) }
  | _, _, _ => crash a

/-- `do_finish` (src/parsec/agent/impl.cpp:552-573). -/
def doFinish (p : Can) (a : Agent) : M :=
  match a.state, a.ticket with
  | .commitSent, some t | .finishFailed, some t | .finishSent, some t
  | .rollbackComplete, some t =>
    let a := { a with state := .finishSent }
    if p.finish then (a, [.finish t])
    else doResult p { a with
      state := .finishFailed, result := some (.error .brokerUnreachable) }
  | _, _ => crash a

/-- `exec` (src/parsec/agent/impl.cpp:38-109). -/
def exec (cfg : Config) (p : Can) (a : Agent) : M :=
  match a.state with
  | .init | .beginSent | .beginFailed =>
    let a := { a with result := none, state := .beginSent }
    if p.begin then (a, [.begin])
    else doResult p { a with
      state := .beginFailed, result := some (.error .brokerUnreachable) }
  | .rollbackComplete =>
    doStart cfg p { a with result := none, wounded := false }
  | .commitFailed | .commitSent => doCommit cfg p a
  | .rollbackFailed | .rollbackSent => doRollback p a.permanent a
  | .functionGetSent | .functionGetFailed | .functionFailed
  | .functionStarted => doRollback p false a
  | .finishSent | .finishFailed => doFinish p a
  | .functionGetError | .commitError | .functionException
  | .finishComplete => (a, [])

/-- `handle_begin` (src/parsec/agent/impl.cpp:111-130). -/
def handleBegin (cfg : Config) (p : Can) (res : Option Nat) (a : Agent) : M :=
  if a.state ≠ .beginSent then (a, [])
  else match res with
  | some n => doStart cfg p { a with ticket := some n }
  | none => doResult p { a with
      state := .beginFailed
      result := some (.error .ticketNumberAssignment) }

/-- `handle_run` (src/parsec/agent/impl.cpp:385-423). -/
def handleRun (cfg : Config) (p : Can) (res : RunRes) (a : Agent) : M :=
  if a.state ≠ .functionStarted then (a, [])
  else match res with
  | .ok u => doCommit cfg p { a with result := some (.ok u) }
  | .wounded => doResult p { a with
      state := .functionFailed, result := some (.error .functionExecution) }
  | .failed => doResult p { a with
      state := .functionException
      result := some (.error .functionExecution) }

/-- `handle_commit` (src/parsec/agent/impl.cpp:425-478). -/
def handleCommit (p : Can) (res : CommitRes) (a : Agent) : M :=
  if a.state ≠ .commitSent then (a, [])
  else match res with
  | .ok => doFinish p a
  | .hazard => doResult p { a with
      state := .commitError, result := some (.error .commitError) }
  | .broker => doResult p { a with
      state := .commitFailed, result := some (.error .commitError) }
  | .wounded => doResult p { a with
      state := .commitFailed, result := some (.error .commitError) }
  | .shard => doResult p { a with
      state := .commitError, result := some (.error .commitError) }

/-- `handle_finish` (src/parsec/agent/impl.cpp:575-595); `false` is an error. -/
def handleFinish (p : Can) (ok : Bool) (a : Agent) : M :=
  if a.state ≠ .finishSent then (a, [])
  else if ok then doResult p { a with state := .finishComplete }
  else doResult p { a with
    state := .finishFailed, result := some (.error .finishError) }

/-- `handle_rollback` (src/parsec/agent/impl.cpp:625-655); `false` is an error. -/
def handleRollback (p : Can) (ok : Bool) (a : Agent) : M :=
  if a.state ≠ .rollbackSent then (a, [])
  else if ok then
    let a := { a with state := .rollbackComplete }
    if a.permanent then doFinish p a
    else doResult p { a with result := some (.error .retry) }
  else doResult p { a with
    state := .rollbackFailed, result := some (.error .rollbackError) }

/-- Calls of the agent and the answers to its requests; `step` names the functions (src/parsec/agent/impl.hpp:84-106, 128-163). -/
inductive Event
  | exec
  | begun (res : Option Nat)
  | locked (c : Cont) (res : LockRes)
  /-- Runner `r` makes request `q`. -/
  | request (r q k : Nat) (write : Bool)
  /-- A runner calls the result callback. -/
  | ran (res : RunRes)
  | committed (res : CommitRes)
  | finished (ok : Bool)
  | rolledBack (ok : Bool)
  deriving DecidableEq

/-- One event.  Only runners that were made make requests. -/
def step (cfg : Config) (p : Can) (a : Agent) : Event → M
  | .exec => exec cfg p a
  | .begun res => handleBegin cfg p res a
  | .locked .function res => handleFunction cfg p res a
  | .locked c res => handleLock p c res a
  | .request r q k write =>
    if a.runners ≤ r then (a, []) else
    let m := tryLock cfg p (.runner r q) k write a
    if m.2 then m.1 else m.1.then fun a => (a, [.refuse r q])
  | .ran res => handleRun cfg p res a
  | .committed res => handleCommit p res a
  | .finished ok => handleFinish p ok a
  | .rolledBack ok => handleRollback p ok a

/-- The destructor (src/parsec/agent/impl.cpp:657-665): does it end the process? -/
def destroyFatal (a : Agent) : Bool := a.state ≠ .finishComplete

/-- What an agent server does with a result (src/parsec/agent/runners/lua/server.cpp:56-67): a retry is
run again (src/parsec/agent/server_interface.cpp:25-38), everything else is sent to the client
and the agent is destroyed (src/parsec/agent/server_interface.cpp:18-24). -/
def serverDestroys (r : Result) : Bool := r ≠ .error .retry

/-- What happened in the life of an agent, newest first. -/
abbrev Trace := List (Event × List Out)

/-- The process has not ended. -/
def Alive (h : Trace) : Prop := ∀ s ∈ h, Out.crash ∉ s.2

/-- Every life of an agent. -/
inductive Run (cfg : Config) : Trace → Agent → Prop
  | start : Run cfg [] {}
  | step {h : Trace} {a : Agent} (r : Run cfg h a) (alive : Alive h) (p : Can)
    (e : Event) :
    Run cfg ((e, (step cfg p a e).2) :: h) (step cfg p a e).1

end Verif.Parsec.Agent
