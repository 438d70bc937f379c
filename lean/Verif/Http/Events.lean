/-!
# The event handler of the HTTP client (C123)

Model of `src/util/rpc/http/epoll_event_handler.cpp`, over a model of what the kernel keeps for an
epoll descriptor.  Times are in nanoseconds, as those of `std::chrono::high_resolution_clock`.
-/
namespace Verif.Http.Events

/-- `event_type` without `remove`, src/util/rpc/http/event_handler.hpp:18-28. -/
inductive Want where
  | read
  | write
  | both
  deriving DecidableEq

/-- `epoll_event_handler`, src/util/rpc/http/epoll_event_handler.hpp:39-43, and the kernel's table. -/
structure State where
  /-- `m_tracked` -/
  tracked : List Nat
  /-- `m_timeout_ms`, a `long` -/
  timeout : Int
  /-- `m_timeout_enabled` -/
  enabled : Bool
  /-- what the kernel watches -/
  watched : List (Nat × Want)
  /-- calls of `epoll_ctl` that failed: a message on the standard error -/
  failures : Nat

/-- The constructor, src/util/rpc/http/epoll_event_handler.hpp:16, 39-43. -/
def start : State := ⟨[], 1000, true, [], 0⟩

/-- What is watched for a descriptor. -/
def State.watch (s : State) (fd : Nat) : Option Want := (s.watched.find? (·.1 == fd)).map (·.2)

/-- `epoll_ctl` with `EPOLL_CTL_ADD`: it fails if the descriptor is watched. -/
def State.ctlAdd (s : State) (fd : Nat) (w : Want) : State :=
  if (s.watch fd).isSome then { s with failures := s.failures + 1 }
  else { s with watched := s.watched ++ [(fd, w)] }

/-- `epoll_ctl` with `EPOLL_CTL_MOD`: it fails if the descriptor is not watched. -/
def State.ctlMod (s : State) (fd : Nat) (w : Want) : State :=
  if (s.watch fd).isSome then
    { s with watched := s.watched.map fun e => if e.1 == fd then (fd, w) else e }
  else { s with failures := s.failures + 1 }

/-- `epoll_ctl` with `EPOLL_CTL_DEL`: it fails if the descriptor is not watched. -/
def State.ctlDel (s : State) (fd : Nat) : State :=
  if (s.watch fd).isSome then { s with watched := s.watched.filter (·.1 != fd) }
  else { s with failures := s.failures + 1 }

/-- `register_fd`, src/util/rpc/http/epoll_event_handler.cpp:34-61; `none` is `remove`.  Simplified: the flag `EPOLLET`, for which
an event is given once only, is not modelled; nor are failures of `epoll_ctl` for want of memory. -/
def State.register (s : State) (fd : Nat) : Option Want → State
  | none => { s.ctlDel fd with tracked := s.tracked.filter (· != fd) }
  | some w =>
    if s.tracked.contains fd then s.ctlMod fd w
    else { s.ctlAdd fd w with tracked := s.tracked ++ [fd] }

/-- `set_timeout`, src/util/rpc/http/epoll_event_handler.cpp:24-32. -/
def State.setTimeout (s : State) (ms : Int) : State :=
  if ms = -1 then { s with enabled := false, timeout := 1000 }
  else { s with enabled := true, timeout := ms }

/-- A descriptor is closed: the kernel forgets it. -/
def State.close (s : State) (fd : Nat) : State := { s with watched := s.watched.filter (·.1 != fd) }

/-- What `epoll_wait` gives: it was interrupted by a signal, or there are descriptors (perhaps none), and
the time measured around it. -/
inductive Wait where
  | interrupted
  | ready (fds : List Nat) (elapsed : Nat)

/-- `static_cast<int>`. -/
def toInt32 (x : Int) : Int := (x + 2 ^ 31) % 2 ^ 32 - 2 ^ 31

/-- What `epoll_wait` may give: at most 1024 descriptors that are watched; none only when the time is over, which it
never is if the time is negative.  A signal can always come. -/
def State.allows (s : State) : Wait → Prop
  | .interrupted => True
  | .ready fds elapsed => fds.length ≤ 1024 ∧ (∀ fd ∈ fds, (s.watch fd).isSome = true) ∧
      (fds = [] → 0 ≤ toInt32 s.timeout ∧ toInt32 s.timeout * 1000000 ≤ elapsed)

/-- `poll`, src/util/rpc/http/epoll_event_handler.cpp:62-98: the answer and the state. -/
def State.poll (s : State) : Wait → Option (List (Nat × Bool)) × State
  | .interrupted => (none, s)
  | .ready fds elapsed =>
    if s.enabled && decide (s.timeout * 1000000 < elapsed) && fds.isEmpty then
      (some ((0, true) :: fds.map fun fd => (fd, false)), { s with enabled := false, timeout := 1000 })
    else (some (fds.map fun fd => (fd, false)), s)

/-- What may happen. -/
inductive Event where
  | register (fd : Nat) (w : Option Want)
  | setTimeout (ms : Int)
  | close (fd : Nat)
  | poll (w : Wait)

/-- One event: the state, and what `poll` answered. -/
def step (s : State) : Event → State × List (Option (List (Nat × Bool)))
  | .register fd w => (s.register fd w, [])
  | .setTimeout ms => (s.setTimeout ms, [])
  | .close fd => (s.close fd, [])
  | .poll w => ((s.poll w).2, [(s.poll w).1])

/-- Events one after the other, and the answers of `poll`. -/
def run (s : State) : List Event → State × List (Option (List (Nat × Bool)))
  | [] => (s, [])
  | e :: es => ((run (step s e).1 es).1, (step s e).2 ++ (run (step s e).1 es).2)

end Verif.Http.Events
