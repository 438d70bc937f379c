import Verif.Queue.Model

/-!
# The RPC server of a sentinel of the atomizer architecture (C129)

Model of `src/uhs/atomizer/sentinel/server.cpp`: the handler of the RPC server, the threads that take requests from
the queue of C33, and the destructor.
-/
namespace Verif.Sentinel.Server

open Verif

/-- A request with its callback, src/uhs/atomizer/sentinel/server.hpp:38-39.  `num` tells apart requests with
the same contents, `execute` is the alternative of the variant. -/
structure Req where
  num : Nat
  execute : Bool
  deriving DecidableEq

/-- What a callback is given: nothing, or the alternative of the variant with its contents.
The contents are represented by a number. -/
abbrev Response := Option (Bool × Nat)

/-- What a thread of the server is doing, src/uhs/atomizer/sentinel/server.cpp:21-26. -/
inductive Worker where
  /-- about to call `pop` -/
  | free
  /-- inside `pop` -/
  | waiting
  /-- the sentinel handles the request -/
  | busy (r : Req)
  /-- the function of the thread has returned -/
  | ended
  deriving DecidableEq

/-- `server`, src/uhs/atomizer/sentinel/server.hpp:41-46. -/
structure State where
  /-- `m_queue` -/
  q : Queue.State Req := Queue.init
  /-- `m_threads` -/
  workers : Nat → Worker := fun _ => .free
  /-- the calls of callbacks, the latest last -/
  answered : List (Req × Response) := []
  /-- the destructor was called -/
  clearing : Bool := false
  /-- all threads were joined, and the members of the server are destroyed one after the other -/
  joined : Bool := false

/-- What happens. -/
inductive Event where
  /-- the RPC server calls the handler with a request -/
  | arrive (r : Req)
  /-- what happens in the queue between its critical sections, C33 -/
  | notifyOne (who : Option Nat)
  | notifyAll
  | spurious (c : Nat)
  /-- a thread calls `pop` -/
  | pop (c : Nat)
  /-- a thread that was woken inside `pop` takes the mutex -/
  | resume (c : Nat)
  /-- the sentinel returns `x` for the request of a thread, and the thread calls the callback -/
  | answer (c : Nat) (x : Option Nat)
  /-- the destructor calls `clear` -/
  | destroy
  /-- the destructor has joined all threads -/
  | join

/-- What comes of an event: a state, nothing as it cannot happen, or undefined behaviour. -/
inductive Res where
  | next (s : State)
  | off
  | undefined

/-- What a thread does after a step inside `pop`: it looks at what `pop` returned, if it did,
src/uhs/atomizer/sentinel/server.cpp:39-42 and 23. -/
def took (q q' : Queue.State Req) : Worker :=
  match q'.returned.drop q.returned.length with
  | [] => .waiting
  | (_, some r) :: _ => .busy r
  | (_, none) :: _ => .ended

/-- A thread makes a step of the queue. -/
def popping (s : State) (c : Nat) (e : Queue.Event Req) : State :=
  { s with
    q := Queue.step Queue.fifo s.q e
    workers := fun x => if x = c then took s.q (Queue.step Queue.fifo s.q e) else s.workers x }

/-- The call of the sentinel, src/uhs/atomizer/sentinel/server.cpp:45-53: the answer is of the kind of the request. -/
def respond (r : Req) (x : Option Nat) : Response := x.map fun v => (r.execute, v)

/-- One event of a server with `n` threads; `n` is `hardware_concurrency()`, src/uhs/atomizer/sentinel/server.cpp:20.
The handler is src/uhs/atomizer/sentinel/server.cpp:14-18, a thread src/uhs/atomizer/sentinel/server.cpp:22-25 and 38-58,
the destructor src/uhs/atomizer/sentinel/server.cpp:29-36.  After it the members are destroyed in reverse order
(src/uhs/atomizer/sentinel/server.hpp:41-46), the queue before the RPC server, whose handler uses it. -/
def step (n : Nat) (s : State) : Event → Res
  | .arrive r =>
    if s.joined then .undefined
    else if r ∈ s.q.pushed then .off
    else .next { s with q := Queue.step Queue.fifo s.q (.push r) }
  | .notifyOne who => .next { s with q := Queue.step Queue.fifo s.q (.notifyOne who) }
  | .notifyAll => .next { s with q := Queue.step Queue.fifo s.q .notifyAll }
  | .spurious c => .next { s with q := Queue.step Queue.fifo s.q (.spurious c) }
  | .pop c =>
    if c < n ∧ s.workers c = .free then .next (popping s c (.enter c)) else .off
  | .resume c => if c ∈ s.q.woken then .next (popping s c (.run c)) else .off
  | .answer c x =>
    match s.workers c with
    | .busy r =>
      .next { s with
        workers := fun y => if y = c then .free else s.workers y
        answered := s.answered ++ [(r, respond r x)] }
    | _ => .off
  | .destroy =>
    if s.clearing then .off
    else .next { s with q := Queue.step Queue.fifo s.q .clear, clearing := true }
  | .join =>
    if s.clearing ∧ s.q.notifyAlls = 0 ∧ (List.range n).all fun c => s.workers c = .ended then
      .next { s with joined := true }
    else .off

/-- The histories of a server, the latest event last. -/
inductive Run (n : Nat) : List Event → State → Prop where
  | start : Run n [] {}
  | step {es : List Event} {s s' : State} {e : Event} (h : Run n es s) (hs : step n s e = .next s') :
      Run n (es ++ [e]) s'

end Verif.Sentinel.Server
