/-!
# The thread pool (C111)

Model of `src/util/common/thread_pool.cpp` and `thread_pool.hpp`.  Every access to a flag, every
call of the queue of a thread and every operation on the mutex of the pool is one step; any
thread may take the next step.  That a call of the queue is one step is what C33 is about: `pop`
waits while the queue is empty and not woken, and returns false if it is woken and empty.

What the functions do is not fixed: a function that is running may call `push` or destroy the
pool at any time, may return, throw, or run for ever.
-/
namespace Verif.Threads

/-- Who calls the pool: a thread of the program, or a function that runs in a thread of the pool. -/
inductive Caller where
  | outside (n : Nat)
  | worker (i : Nat)
  deriving DecidableEq, Repr

/-- Where a thread of the pool is in `thread_loop`, src/util/common/thread_pool.cpp:45-51.
Functions are known by the number of the call of `push` that brought them. -/
inductive Place where
  /-- in `m_queue.pop(f)`, line 47 -/
  | popping
  /-- in `f()`, line 48 -/
  | inside (job : Nat)
  /-- after `f()`, before `m_running = false`, line 49 -/
  | after
  /-- the loop is left -/
  | ended
  deriving DecidableEq, Repr

/-- `thread_type`, src/util/common/thread_pool.hpp:28-32. -/
structure Worker where
  /-- `m_running` -/
  running : Bool
  /-- what `m_queue` holds -/
  queue : List Nat
  /-- `m_wake` of `m_queue`, src/util/common/blocking_queue.hpp:116 -/
  wake : Bool
  place : Place
  deriving DecidableEq, Repr

/-- How far the thread that holds `m_mut` is. -/
inductive Stage where
  /-- line 22: looks at the flag of thread `i`, or makes a thread if there is none -/
  | look (i : Nat)
  /-- line 26: `thr->m_running = true` -/
  | mark (i : Nat)
  /-- lines 27 and 41: `thr->m_queue.push(fn)`, after which the mutex is given back -/
  | hand (i : Nat)
  /-- line 12: `t->m_queue.clear()` -/
  | clear (i : Nat)
  /-- line 14: `t->m_thread.join()` -/
  | join (i : Nat)
  deriving DecidableEq, Repr

/-- Who holds `m_mut`, for which function (none in the destructor). -/
structure Holder where
  who : Caller
  job : Option Nat
  stage : Stage
  deriving DecidableEq, Repr

/-- The pool. -/
structure State where
  /-- `m_threads`, src/util/common/thread_pool.hpp:35 -/
  workers : List Worker
  /-- who holds `m_mut`, src/util/common/thread_pool.hpp:34 -/
  lock : Option Holder
  /-- calls of `push` that wait for `m_mut`, with their functions -/
  waiting : List (Caller × Nat)
  /-- number of calls of `push` so far; the functions are numbered in this order -/
  pushed : Nat
  /-- functions that were begun, the latest first -/
  begun : List Nat
  /-- functions that returned, the latest first -/
  returned : List Nat
  /-- functions that were thrown away by the destructor -/
  dropped : List Nat
  /-- the destructor has returned -/
  gone : Bool
  /-- the process was ended by `std::terminate` -/
  dead : Bool
  deriving DecidableEq, Repr

/-- A new pool, src/util/common/thread_pool.hpp:18, 34-35. -/
def init : State := ⟨[], none, [], 0, [], [], [], false, false⟩

/-- What may happen next. -/
inductive Event where
  /-- `push` is called -/
  | call (c : Caller)
  /-- a call of `push` takes `m_mut` -/
  | acquire (c : Caller)
  /-- the destructor is called and takes `m_mut` -/
  | destroy (c : Caller)
  /-- the thread that holds `m_mut` does what it does next -/
  | hold
  /-- thread `i` of the pool takes a function, or leaves the loop -/
  | take (i : Nat)
  /-- the function in thread `i` returns -/
  | ret (i : Nat)
  /-- the function in thread `i` throws an exception -/
  | throws (i : Nat)
  /-- thread `i` sets its flag to false -/
  | free (i : Nat)
  deriving DecidableEq, Repr

/-- The caller is in a call of `push` that waits for the mutex. -/
def State.isWaiting (s : State) (c : Caller) : Bool := s.waiting.any (·.1 == c)

/-- The caller holds the mutex. -/
def State.isHolder (s : State) (c : Caller) : Bool :=
  match s.lock with
  | some h => h.who == c
  | none => false

/-- Thread `i` is in a function. -/
def State.isInside (s : State) (i : Nat) : Bool :=
  match s.workers[i]? with
  | some w => match w.place with
    | .inside _ => true
    | _ => false
  | none => false

/-- The caller can make a call: it is not in another one, and a thread of the pool calls from a
function only. -/
def State.canCall (s : State) (c : Caller) : Bool :=
  !s.isWaiting c && !s.isHolder c &&
    match c with
    | .outside _ => true
    | .worker i => s.isInside i

/-- A thread that is made for a function, src/util/common/thread_pool.cpp:35-40.  It goes to `pop`
at once; that `m_threads` has it before its flag is set cannot be seen, as nobody else holds
`m_mut`. -/
def newWorker : Worker := ⟨true, [], false, .popping⟩

/-- What the thread that holds `m_mut` does: src/util/common/thread_pool.cpp:9-17 for the
destructor, 19-43 for `push`.  Joining waits until the other thread has left its loop; a thread
that joins itself gets an exception, which leaves a destructor and ends the process. -/
def hold (s : State) (h : Holder) : Option State :=
  match h.stage with
  | .look i =>
    match s.workers[i]? with
    | none =>
      some { s with
        workers := s.workers ++ [newWorker]
        lock := some { h with stage := .hand s.workers.length } }
    | some w =>
      if w.running then some { s with lock := some { h with stage := .look (i + 1) } }
      else some { s with lock := some { h with stage := .mark i } }
  | .mark i =>
    some { s with
      workers := s.workers.modify i (fun w => { w with running := true })
      lock := some { h with stage := .hand i } }
  | .hand i =>
    some { s with
      workers := s.workers.modify i
        (fun w => { w with queue := w.queue ++ h.job.toList, wake := true })
      lock := none }
  | .clear i =>
    match s.workers[i]? with
    | none => some { s with lock := none, gone := true }
    | some w =>
      some { s with
        workers := s.workers.modify i (fun w => { w with queue := [], wake := true })
        dropped := w.queue ++ s.dropped
        lock := some { h with stage := .join i } }
  | .join i =>
    if h.who = .worker i then some { s with dead := true }
    else
      match s.workers[i]? with
      | some w =>
        if w.place = .ended then some { s with lock := some { h with stage := .clear (i + 1) } }
        else none
      | none => none

/-- `m_queue.pop(f)` in thread `i`, src/util/common/thread_pool.cpp:47 and
src/util/common/blocking_queue.hpp:55-77. -/
def take (s : State) (i : Nat) : Option State :=
  match s.workers[i]? with
  | some w =>
    if w.place = .popping then
      match w.queue with
      | j :: q =>
        some { s with
          workers := s.workers.modify i
            (fun w => { w with queue := q, wake := !q.isEmpty, place := .inside j })
          begun := j :: s.begun }
      | [] =>
        if w.wake then
          some { s with workers := s.workers.modify i (fun w => { w with place := .ended }) }
        else none
    else none
  | none => none

/-- One step; nothing if it is not possible.  After the end of the process or of the pool there
are no steps.  A function returns or throws only if it is not in a call of `push` or of the
destructor. -/
def step (s : State) (e : Event) : Option State :=
  if s.dead || s.gone then none
  else
    match e with
    | .call c =>
      if s.canCall c then
        some { s with waiting := s.waiting ++ [(c, s.pushed)], pushed := s.pushed + 1 }
      else none
    | .acquire c =>
      match s.lock, s.waiting.find? (·.1 == c) with
      | none, some (_, j) =>
        some { s with
          lock := some ⟨c, some j, .look 0⟩
          waiting := s.waiting.filter (·.1 != c) }
      | _, _ => none
    | .destroy c =>
      if s.canCall c && s.lock.isNone then some { s with lock := some ⟨c, none, .clear 0⟩ }
      else none
    | .hold =>
      match s.lock with
      | some h => hold s h
      | none => none
    | .take i => take s i
    | .ret i =>
      match s.workers[i]? with
      | some w =>
        match w.place with
        | .inside j =>
          if s.canCall (.worker i) then
            some { s with
              workers := s.workers.modify i (fun w => { w with place := .after })
              returned := j :: s.returned }
          else none
        | _ => none
      | none => none
    | .throws i =>
      if s.canCall (.worker i) then some { s with dead := true } else none
    | .free i =>
      match s.workers[i]? with
      | some w =>
        if w.place = .after then
          some { s with
            workers := s.workers.modify i
              (fun w => { w with running := false, place := .popping }) }
        else none
      | none => none

/-- Several steps. -/
def run (s : State) : List Event → Option State
  | [] => some s
  | e :: es => (step s e).bind (run · es)

end Verif.Threads
