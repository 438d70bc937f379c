/-!
# The blocking queue (C33)

Model of `src/util/common/blocking_queue.hpp`.  Every critical section is one
step; between the end of a critical section and the notification that follows it
other threads may run, so notifications are steps of their own.  A thread that
has been woken (by a notification or for no reason) still has to take the mutex
and look at the flag, which is a step too.
-/
namespace Verif.Queue

/-- State of the queue, src/util/common/blocking_queue.hpp:113-116, and of the threads inside `pop`. -/
structure State (α : Type) where
  /-- `m_buffer`, the next element first -/
  buf : List α
  /-- `m_wake` -/
  wake : Bool
  /-- consumers blocked in `m_cv.wait` -/
  asleep : List Nat
  /-- consumers that were woken and have not taken the mutex again -/
  woken : List Nat
  /-- calls of `push` that have not reached `notify_one` yet -/
  notifyOnes : Nat
  /-- calls of `clear` that have not reached `notify_all` yet -/
  notifyAlls : Nat
  /-- what the calls of `pop` returned, the latest last: the consumer and the
  element, or nothing if `pop` returned false -/
  returned : List (Nat × Option α)
  /-- the elements pushed, the latest last -/
  pushed : List α
  deriving DecidableEq

/-- A new queue (src/util/common/blocking_queue.hpp:21, 113-116). -/
def init {α : Type} : State α := ⟨[], false, [], [], 0, 0, [], []⟩

/-- How `m_buffer.push` places an element: at the end for `std::queue`, by
priority for `std::priority_queue` (src/util/common/blocking_queue.hpp:119-125). -/
abbrev Insert (α : Type) := List α → α → List α

/-- `std::queue::push`. -/
def fifo {α : Type} : Insert α := fun l a => l ++ [a]

/-- `std::priority_queue::push`: the greatest element is at the front
(`first_item`, lines 106-111).  Which of several equal elements comes first is
not specified; the model puts the new one last. -/
def byPriority {α : Type} (lt : α → α → Bool) : Insert α
  | [], a => [a]
  | b :: l, a => if lt b a then a :: b :: l else b :: byPriority lt l a

/-- What a thread may do next. -/
inductive Event (α : Type) where
  /-- the critical section of `push` -/
  | push (a : α)
  /-- `m_cv.notify_one()`; the argument is the thread the system picks -/
  | notifyOne (who : Option Nat)
  /-- a consumer calls `pop` and takes the mutex -/
  | enter (c : Nat)
  /-- a blocked consumer wakes for no reason -/
  | spurious (c : Nat)
  /-- a woken consumer takes the mutex again -/
  | run (c : Nat)
  /-- the critical section of `clear` -/
  | clear
  /-- `m_cv.notify_all()` -/
  | notifyAll
  /-- `reset` -/
  | reset

/-- Lines 68-76: after waiting, or without waiting. -/
def finish {α : Type} (s : State α) (c : Nat) : State α :=
  match s.buf with
  | a :: rest =>
    { s with
      buf := rest
      wake := !rest.isEmpty
      returned := s.returned ++ [(c, some a)] }
  | [] => { s with returned := s.returned ++ [(c, none)] }

/-- One step of src/util/common/blocking_queue.hpp:32-99; nothing happens if the event is not possible. -/
def step {α : Type} (ins : Insert α) (s : State α) : Event α → State α
  -- src/util/common/blocking_queue.hpp:42-47
  | .push a =>
    { s with
      buf := ins s.buf a
      wake := true
      notifyOnes := s.notifyOnes + 1
      pushed := s.pushed ++ [a] }
  -- src/util/common/blocking_queue.hpp:48
  | .notifyOne who =>
    if s.notifyOnes = 0 then s
    else
      match who with
      | some c =>
        if c ∈ s.asleep then
          { s with
            notifyOnes := s.notifyOnes - 1
            asleep := s.asleep.erase c
            woken := s.woken ++ [c] }
        else s
      | none =>
        -- a notification is lost only if nobody is blocked
        if s.asleep = [] then { s with notifyOnes := s.notifyOnes - 1 } else s
  -- src/util/common/blocking_queue.hpp:61-76
  | .enter c =>
    if c ∈ s.asleep ∨ c ∈ s.woken then s
    else if s.buf.isEmpty && !s.wake then { s with asleep := s.asleep ++ [c] }
    else finish s c
  | .spurious c =>
    if c ∈ s.asleep then
      { s with asleep := s.asleep.erase c, woken := s.woken ++ [c] }
    else s
  -- the loop of `wait` looks at the flag (lines 63-65), then lines 68-76
  | .run c =>
    if c ∈ s.woken then
      let s := { s with woken := s.woken.erase c }
      if s.wake then finish s c else { s with asleep := s.asleep ++ [c] }
    else s
  -- src/util/common/blocking_queue.hpp:83-85
  | .clear => { s with buf := [], wake := true, notifyAlls := s.notifyAlls + 1 }
  -- src/util/common/blocking_queue.hpp:87
  | .notifyAll =>
    if s.notifyAlls = 0 then s
    else
      { s with
        notifyAlls := s.notifyAlls - 1
        asleep := []
        woken := s.woken ++ s.asleep }
  -- src/util/common/blocking_queue.hpp:94-95
  | .reset => { s with wake := false }

/-- Whether an event is a call of `clear`. -/
def Event.isClear {α : Type} : Event α → Bool
  | .clear => true
  | _ => false

/-- Whether an event is a call of `reset`. -/
def Event.isReset {α : Type} : Event α → Bool
  | .reset => true
  | _ => false

/-- A history, the latest event last.  `reset` is called as documented (lines
90-92): only when no consumer is inside `pop`. -/
inductive Run {α : Type} (ins : Insert α) : List (Event α) → State α → Prop where
  | nil : Run ins [] init
  | step {es : List (Event α)} {s : State α} (e : Event α) (h : Run ins es s)
      (hr : e.isReset = true → s.asleep = [] ∧ s.woken = []) :
      Run ins (es ++ [e]) (step ins s e)

end Verif.Queue
