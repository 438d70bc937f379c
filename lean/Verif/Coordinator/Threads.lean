/-!
# The threads of the coordinator (C94, C95)

Model of how threads that call `execute_transaction`, the batch executor thread, the execution threads and the
start/stop thread of `src/uhs/twophase/coordinator/controller.cpp` work together.  What a batch does is the
subject of C16; here a batch has some outcome after some time.  The checks before line 701 (not the leader,
attestations) only refuse a call and are left out; `Batch.submit` has them.
-/
namespace Verif.Coordinator.Threads

/-- One call of `execute_transaction`: a number, and the id of the transaction. -/
structure Call where
  num : Nat
  tx : Nat
  deriving DecidableEq, Repr

/-- `m_current_batch` (the ids of its transactions) and `m_current_txs` (a callback and the index of its
transaction), `src/uhs/twophase/coordinator/controller.hpp:154-158`. -/
structure Batch where
  txs : List Nat
  calls : List (Call × Nat)
  deriving DecidableEq, Repr

/-- An empty batch. -/
def Batch.new : Batch := ⟨[], []⟩

/-- A thread that calls `execute_transaction`.  `enter`: before looking at the predicate of the wait,
`src/uhs/twophase/coordinator/controller.cpp:704-706`; `asleep`: in that wait; `notify`: before line 727.
Before and after these it is `idle`. -/
inductive CallT where
  | idle
  | enter (c : Call)
  | asleep (c : Call)
  | notify
  deriving DecidableEq, Repr

/-- The batch executor thread, `src/uhs/twophase/coordinator/controller.cpp:364-458`, by what it does next: `top` the
condition of the loop, `wait` the predicate of the wait, `asleep` in that wait, `check` the test after it (374), `swap`
the exchange of batches (398-406), `notify` line 410, `schedule` a turn of the loop of `schedule_exec` (494-524). -/
inductive ExecT where
  | off
  | top
  | wait
  | asleep
  | check
  | swap
  | notify (b : Batch)
  | schedule (b : Batch)
  | exited
  deriving DecidableEq, Repr

/-- The start/stop thread in `stop`, `src/uhs/twophase/coordinator/controller.cpp:182-217`: `close` and `join` are the
destruction of the RPC server (190), which closes the network and then joins the thread that calls
`execute_transaction` (`src/util/rpc/tcp_server.hpp:35-40`), `notify` line 191, `shards` 196-202, `joinExec` 205-207,
`joinSlots` 210.  `idle`: the coordinator has been started. -/
inductive StopT where
  | idle
  | close
  | join
  | notify
  | shards
  | joinExec
  | joinSlots
  | stopped
  deriving DecidableEq, Repr

/-- The state: `m_running`; whether calls come in; `m_current_batch` and `m_current_txs`; the calling threads; the
executor thread; the execution threads, with the batch each works on (`m_exec_threads`); the start/stop thread.
The rest is a record of what happened: the number of calls, the calls that returned true and false, the calls of
callbacks, the calls whose callbacks were thrown away at a start, and the outcomes of batches. -/
structure State where
  running : Bool
  serving : Bool
  cur : Batch
  threads : List CallT
  exec : ExecT
  slots : List (Option Batch)
  stop : StopT
  next : Nat
  accepted : List Call
  refused : List Call
  answered : List (Call × Option Bool)
  dropped : List Call
  outcomes : List (List Nat × Option (List Bool))
  deriving DecidableEq, Repr

/-- A node that has not become leader yet, with `n` calling threads and `k` execution threads. -/
def State.init (n k : Nat) : State :=
  ⟨false, false, .new, List.replicate n .idle, .off, List.replicate k none, .stopped, 0, [], [], [], [], []⟩

/-- Those who wait on `m_batch_cv`. -/
inductive Who where
  | exec
  | caller (i : Nat)
  deriving DecidableEq, Repr

/-- Whether a thread waits on `m_batch_cv`. -/
def State.sleeps (s : State) : Who → Bool
  | .exec => s.exec == .asleep
  | .caller i =>
    match s.threads[i]? with
    | some (.asleep _) => true
    | _ => false

/-- Whether any thread does. -/
def State.someone (s : State) : Bool :=
  s.exec == .asleep || s.threads.any fun t => match t with | .asleep _ => true | _ => false

/-- A thread leaves the wait, to look at its predicate. -/
def State.wake (s : State) : Who → State
  | .exec => { s with exec := .wait }
  | .caller i =>
    match s.threads[i]? with
    | some (.asleep c) => { s with threads := s.threads.set i (.enter c) }
    | _ => s

/-- `m_batch_cv.notify_one()`: any one of the waiting threads, if there is one. -/
def State.notifyOne (s : State) : Option Who → Option State
  | some w => if s.sleeps w then some (s.wake w) else none
  | none => if s.someone then none else some s

/-- What callbacks are told, `src/uhs/twophase/coordinator/controller.cpp:424-431`. -/
def Batch.answers (b : Batch) (res : Option (List Bool)) : List (Call × Option Bool) :=
  b.calls.map fun q => (q.1, res.bind fun d => d[q.2]?)

/-- What can happen; `step` cites the code. -/
inductive Event where
  | call (i tx : Nat)
  | caller (i : Nat)
  | callerNotify (i : Nat) (w : Option Who)
  | exec
  | execNotify (w : Option Who)
  | schedule (k : Nat)
  | finish (k : Nat) (res : Option (List Bool))
  | stopStep
  | stopNotify (w : Option Who)
  | spurious (w : Who)
  | stop
  | start
  deriving DecidableEq, Repr

/-- The part of `execute_transaction` under the mutex, `src/uhs/twophase/coordinator/controller.cpp:701-723`; `n` is
`m_batch_size`. -/
def callerStep (n : Nat) (s : State) (i : Nat) : Option State :=
  match s.threads[i]? with
  | some (.enter c) =>
    if s.running && n ≤ s.cur.calls.length then
      some { s with threads := s.threads.set i (.asleep c) }
    else if !s.running then
      some { s with threads := s.threads.set i .idle, refused := s.refused ++ [c] }
    else if s.cur.calls.any fun q => q.1.tx == c.tx then
      some { s with threads := s.threads.set i .idle, refused := s.refused ++ [c] }
    else
      some { s with
        cur := ⟨s.cur.txs ++ [c.tx], s.cur.calls ++ [(c, s.cur.txs.length)]⟩
        accepted := s.accepted ++ [c]
        threads := s.threads.set i .notify }
  | _ => none

/-- A step of the executor thread, see `ExecT`. -/
def execStep (s : State) : Option State :=
  match s.exec with
  | .top => some { s with exec := if s.running then .wait else .exited }
  | .wait =>
    some { s with exec := if !s.cur.calls.isEmpty || !s.running then .check else .asleep }
  | .check => some { s with exec := if s.running then .swap else .exited }
  | .swap => some { s with exec := .notify s.cur, cur := .new }
  | _ => none

/-- A step of the start/stop thread, see `StopT`. -/
def stopStep (s : State) : Option State :=
  match s.stop with
  | .close => some { s with serving := false, stop := .join }
  | .join => if s.threads.all (· == .idle) then some { s with stop := .notify } else none
  | .shards => some { s with stop := .joinExec }
  | .joinExec =>
    if s.exec == .off || s.exec == .exited then some { s with stop := .joinSlots } else none
  | .joinSlots => if s.slots.all Option.isNone then some { s with stop := .stopped } else none
  | _ => none

/-- One event; `none`: it cannot happen now. -/
def step (n : Nat) (s : State) : Event → Option State
  -- a call of `execute_transaction` from the RPC server
  | .call i tx =>
    if s.serving && s.threads[i]? == some .idle then
      some { s with threads := s.threads.set i (.enter ⟨s.next, tx⟩), next := s.next + 1 }
    else none
  | .caller i => callerStep n s i
  -- `src/uhs/twophase/coordinator/controller.cpp:724-728`
  | .callerNotify i w =>
    if s.threads[i]? == some .notify then
      { s with threads := s.threads.set i .idle }.notifyOne w
    else none
  | .exec => execStep s
  -- `src/uhs/twophase/coordinator/controller.cpp:410`
  | .execNotify w =>
    match s.exec with
    | .notify b => { s with exec := .schedule b }.notifyOne w
    | _ => none
  -- `src/uhs/twophase/coordinator/controller.cpp:495-517`
  | .schedule k =>
    match s.exec, s.slots[k]? with
    | .schedule b, some none => some { s with exec := .top, slots := s.slots.set k (some b) }
    | _, _ => none
  -- the batch has been executed, `src/uhs/twophase/coordinator/controller.cpp:420-452`
  | .finish k res =>
    match s.slots[k]? with
    | some (some b) =>
      if res.all fun d => d.length == b.txs.length then
        some { s with
          slots := s.slots.set k none
          answered := s.answered ++ b.answers res
          outcomes := s.outcomes ++ [(b.txs, res)] }
      else none
    | _ => none
  | .stopStep => stopStep s
  | .stopNotify w =>
    match s.stop with
    | .notify => { s with stop := .shards }.notifyOne w
    | _ => none
  | .spurious w => if s.sleeps w then some (s.wake w) else none
  -- no longer leader, or the destructor; the beginning of `stop`,
  -- src/uhs/twophase/coordinator/controller.cpp:186-189
  | .stop => if s.stop == .idle then some { s with running := false, stop := .close } else none
  -- `start` as one step: recovery uses the execution threads and has joined them at its end,
  -- src/uhs/twophase/coordinator/controller.cpp:585-654
  | .start =>
    if s.stop == .stopped then
      some { s with
        running := true
        serving := true
        cur := .new
        dropped := s.dropped ++ s.cur.calls.map (·.1)
        exec := .top
        stop := .idle }
    else none

/-- Events in order; the latest state. -/
def run (n : Nat) (s : State) : List Event → Option State
  | [] => some s
  | e :: es => (step n s e).bind fun s' => run n s' es

end Verif.Coordinator.Threads
