/-!
# The threads of a peer (C93)

Model of the threads of `src/util/network/peer.cpp`: send thread, receive thread, reconnect thread, and
the thread that calls `shutdown`.  Every critical section is one step, as are notifications; the
evaluation of the condition in `wait` and the going to sleep are two, with the mutex held.  Of packets
only the number matters here.
-/
namespace Verif.Net.Shutdown

/-- The lines of `close`, `src/util/network/peer.cpp:118-129`. -/
inductive Close where
  | running | disconnect | clear | joinSend | joinRecv | reset
  deriving DecidableEq, Repr

/-- The send thread, `src/util/network/peer.cpp:46-64`; `off`: not started, or joined; `exited`: ended and
not joined. -/
inductive SendT where
  | off | top | pop | write | failed | signalled | exited
  deriving DecidableEq, Repr

/-- The receive thread, `src/util/network/peer.cpp:66-78`. -/
inductive RecvT where
  | off | top | read | failed | signalled | exited
  deriving DecidableEq, Repr

/-- The reconnect thread, `src/util/network/peer.cpp:80-116`. -/
inductive RecT where
  /-- line 82 -/
  | top
  /-- lines 84-87, without and with the mutex -/
  | lock | eval | drowsy | asleep | woken
  /-- line 90 -/
  | test
  /-- line 94 -/
  | closing (c : Close)
  /-- lines 95-102 -/
  | connect | pause
  /-- lines 103-107 -/
  | restart
  /-- lines 110-111 -/
  | final (c : Close) | finalClear
  | exited
  deriving DecidableEq, Repr

/-- The thread that calls `shutdown`, `src/util/network/peer.cpp:33-40`. -/
inductive MainT where
  | idle | notify | join | closing (c : Close) | returned
  deriving DecidableEq, Repr

/-- The peer, `src/util/network/peer.hpp:65-83`; `items` and `wake` are `m_send_queue`; `sock`: the socket is
open; `attempt` is `m_attempt_reconnect`. -/
structure State where
  attempt : Bool
  items : Nat
  wake : Bool
  running : Bool
  shutDown : Bool
  reconnect : Bool
  sock : Bool
  send : SendT
  recv : RecvT
  rc : RecT
  main : MainT
  deriving DecidableEq, Repr

/-- The constructor, `src/util/network/peer.cpp:12-21`. -/
def State.init (attempt : Bool) : State :=
  ⟨attempt, 0, false, true, false, false, true, .top, .top, .top, .idle⟩

/-- Whether the reconnect thread holds `m_reconnect_mut`. -/
def State.held (s : State) : Bool :=
  match s.rc with
  | .eval | .drowsy => true
  | _ => false

/-- A notification of `m_reconnect_cv`. -/
def State.notified (s : State) : State :=
  { s with rc := if s.rc = .asleep then .woken else s.rc }

/-- One line of `close`: the state, and the next line (`none`: it returns); `none` if it has to wait. -/
def closeStep (s : State) : Close → Option (State × Option Close)
  | .running => some ({ s with running := false }, some .disconnect)
  | .disconnect => some ({ s with sock := false }, some .clear)
  | .clear => some ({ s with items := 0, wake := true }, some .joinSend)
  | .joinSend =>
    match s.send with
    | .off => some (s, some .joinRecv)
    | .exited => some ({ s with send := .off }, some .joinRecv)
    | _ => none
  | .joinRecv =>
    match s.recv with
    | .off => some (s, some .reset)
    | .exited => some ({ s with recv := .off }, some .reset)
    | _ => none
  | .reset => some ({ s with wake := false }, none)

/-- What can happen. -/
inductive Event where
  /-- some thread calls `send` -/
  | push
  /-- a step of the send thread; in `write`, whether it succeeds -/
  | send (ok : Bool)
  /-- a step of the receive thread; in `read`, whether it succeeds -/
  | recv (ok : Bool)
  /-- a step of the reconnect thread; when connecting, whether it succeeds -/
  | rc (ok : Bool)
  | spurious
  | shutdown
  /-- a step of the thread that called `shutdown` -/
  | main
  deriving DecidableEq, Repr

/-- A step of the send thread. -/
def sendStep (s : State) (ok : Bool) : Option State :=
  match s.send with
  | .off | .exited => none
  | .top => some { s with send := if s.running then .pop else .exited }
  | .pop =>
    if s.items = 0 then
      if s.wake then some { s with send := .exited } else none
    else some { s with items := s.items - 1, wake := s.items != 1, send := .write }
  | .write => if ok && !s.sock then none else some { s with send := if ok then .top else .failed }
  | .failed => if s.held then none else some { s with reconnect := true, send := .signalled }
  | .signalled => some { s.notified with send := .exited }

/-- A step of the receive thread. -/
def recvStep (s : State) (ok : Bool) : Option State :=
  match s.recv with
  | .off | .exited => none
  | .top => some { s with recv := if s.running then .read else .exited }
  | .read => if ok && !s.sock then none else some { s with recv := if ok then .top else .failed }
  | .failed => if s.held then none else some { s with reconnect := true, recv := .signalled }
  | .signalled => some { s.notified with recv := .exited }

/-- A step of the reconnect thread. -/
def recStep (s : State) (ok : Bool) : Option State :=
  match s.rc with
  | .top => some { s with rc := if s.shutDown then .exited else .lock }
  | .lock => some { s with rc := .eval }
  | .eval =>
    if s.reconnect || s.shutDown then some { s with reconnect := false, rc := .test }
    else some { s with rc := .drowsy }
  | .drowsy => some { s with rc := .asleep }
  | .asleep => none
  | .woken => some { s with rc := .eval }
  | .test =>
    if s.shutDown then some { s with rc := .exited }
    else if s.attempt then some { s with rc := .closing .running }
    else some { s with shutDown := true, rc := .final .running }
  | .closing c => (closeStep s c).map fun r =>
      { r.1 with rc := match r.2 with | some c' => .closing c' | none => .connect }
  | .connect =>
    if s.shutDown then some { s with rc := .restart }
    else some { s with sock := ok, rc := if ok then .restart else .pause }
  | .pause => some { s with rc := .connect }
  | .restart =>
    if s.shutDown then some { s with rc := .top }
    else some { s with running := true, send := .top, recv := .top, rc := .top }
  | .final c => (closeStep s c).map fun r =>
      { r.1 with rc := match r.2 with | some c' => .final c' | none => .finalClear }
  | .finalClear => some { s with items := 0, wake := true, rc := .exited }
  | .exited => none

/-- A step of the thread that called `shutdown`. -/
def mainStep (s : State) : Option State :=
  match s.main with
  | .idle | .returned => none
  | .notify => some { s.notified with main := .join }
  | .join => if s.rc = .exited then some { s with main := .closing .running } else none
  | .closing c => (closeStep s c).map fun r =>
      { r.1 with main := match r.2 with | some c' => .closing c' | none => .returned }

/-- One event; `none`: it cannot happen now. -/
def step (s : State) : Event → Option State
  -- `send`, src/util/network/peer.cpp:27-31
  | .push => if s.shutDown then none else some { s with items := s.items + 1, wake := true }
  | .send ok => sendStep s ok
  | .recv ok => recvStep s ok
  | .rc ok => recStep s ok
  | .spurious => if s.rc = .asleep then some { s with rc := .woken } else none
  -- `shutdown`, src/util/network/peer.cpp:34
  | .shutdown => if s.main = .idle then some { s with shutDown := true, main := .notify } else none
  | .main => mainStep s

/-- Events in order. -/
def run (s : State) : List Event → Option State
  | [] => some s
  | e :: es => (step s e).bind fun s' => run s' es

end Verif.Net.Shutdown
