import Verif.Serial.Model

/-!
# The messages a node has received (C92, C93)

Model of `src/util/network/connection_manager.cpp`: the queues that the callbacks of all peers fill
and that one handler thread empties.  Every critical section is one step, as are notifications; the
evaluation of the condition in `wait` and the going to sleep are two, with the mutex held.
-/
namespace Verif.Net.Inbox

open Verif.Serial

/-- Where the handler thread is, `src/util/network/connection_manager.cpp:161-182` and 49-78. -/
inductive Handler where
  /-- line 164 -/
  | top
  /-- line 54, with the mutex, about to evaluate the condition -/
  | eval
  /-- the condition was false, with the mutex, about to sleep -/
  | drowsy
  | asleep
  /-- woken, has to take the mutex again -/
  | woken
  /-- lines 167-179: the messages still to be handled -/
  | batch (pkts : List (Nat × Bytes))
  | ended
  deriving DecidableEq, Repr

/-- `connection_manager`, `src/util/network/connection_manager.hpp:220-230`.  `queues`: `m_async_recv_queues`, each with the
peer id that the callback writing to it carries.  `adding`: the ids of calls of `add` that have no
queue yet.  `notifies`: callbacks about to call `notify_one`; `closing`: `close` is about to call
`notify_all`.  `received` and `handled` record what callbacks and handler were given. -/
structure State where
  next : Nat
  adding : List Nat
  queues : List (Nat × List Bytes)
  data : Bool
  running : Bool
  notifies : Nat
  closing : Bool
  handler : Handler
  received : List (Nat × Bytes)
  handled : List (Nat × Bytes)
  deriving DecidableEq, Repr

/-- A new node whose handler thread has started. -/
def State.init : State := ⟨0, [], [], false, true, 0, false, .top, [], []⟩

/-- Whether the handler holds `m_async_recv_mut`. -/
def State.held (s : State) : Bool :=
  match s.handler with
  | .eval | .drowsy => true
  | _ => false

/-- The loop of `handle_messages`, `src/util/network/connection_manager.cpp:63-74`: the remaining queues, the
messages taken and the flag. -/
def take : List (Nat × List Bytes) → List (Nat × List Bytes) × List (Nat × Bytes) × Bool
  | [] => ([], [], false)
  | (p, []) :: qs => ((p, []) :: (take qs).1, (take qs).2.1, (take qs).2.2)
  | (p, m :: q) :: qs =>
    ((p, q) :: (take qs).1, (p, m) :: (take qs).2.1, !q.isEmpty || (take qs).2.2)

/-- What can happen; `step` cites the code. -/
inductive Event where
  | newId
  | newQueue (id : Nat)
  | receive (q : Nat) (pkt : Bytes)
  | notifyOne
  | look
  | eval
  | sleep
  | spurious
  | lock
  | handle
  | close
  | notifyAll
  deriving DecidableEq, Repr

/-- The events of the handler thread itself. -/
def Event.own : Event → Bool
  | .look | .eval | .sleep | .lock | .handle => true
  | _ => false

/-- One event; `none`: it cannot happen now. -/
def step (s : State) : Event → Option State
  -- `add`, src/util/network/connection_manager.cpp:83
  | .newId => some { s with next := s.next + 1, adding := s.adding ++ [s.next] }
  -- `add`, src/util/network/connection_manager.cpp:84-89
  | .newQueue id =>
    if id ∈ s.adding && !s.held then
      some { s with adding := s.adding.erase id, queues := s.queues ++ [(id, [])] }
    else none
  -- the callback, src/util/network/connection_manager.cpp:90-96
  | .receive q pkt =>
    match s.queues[q]? with
    | some (p, l) =>
      if s.held then none
      else
        some { s with
          queues := s.queues.set q (p, l ++ [pkt])
          data := true
          notifies := s.notifies + 1
          received := s.received ++ [(p, pkt)] }
    | none => none
  -- src/util/network/connection_manager.cpp:97
  | .notifyOne =>
    if s.notifies = 0 then none
    else
      some { s with
        notifies := s.notifies - 1
        handler := if s.handler = .asleep then .woken else s.handler }
  -- src/util/network/connection_manager.cpp:164
  | .look =>
    if s.handler = .top then some { s with handler := if s.running then .eval else .ended } else none
  -- src/util/network/connection_manager.cpp:54-74
  | .eval =>
    if s.handler = .eval then
      if !s.running || s.data then
        some { s with
          queues := (take s.queues).1
          data := (take s.queues).2.2
          handler := .batch (take s.queues).2.1 }
      else some { s with handler := .drowsy }
    else none
  | .sleep => if s.handler = .drowsy then some { s with handler := .asleep } else none
  | .spurious => if s.handler = .asleep then some { s with handler := .woken } else none
  | .lock => if s.handler = .woken then some { s with handler := .eval } else none
  -- src/util/network/connection_manager.cpp:167-179
  | .handle =>
    match s.handler with
    | .batch [] => some { s with handler := .top }
    | .batch (pkt :: rest) =>
      some { s with handler := .batch rest, handled := s.handled ++ [pkt] }
    | _ => none
  -- `close`, src/util/network/connection_manager.cpp:185
  | .close => some { s with running := false, closing := true }
  -- `close`, src/util/network/connection_manager.cpp:198
  | .notifyAll =>
    if s.closing then
      some { s with
        closing := false
        handler := if s.handler = .asleep then .woken else s.handler }
    else none

/-- Events in order. -/
def run (s : State) : List Event → Option State
  | [] => some s
  | e :: es => (step s e).bind fun s' => run s' es

end Verif.Net.Inbox
