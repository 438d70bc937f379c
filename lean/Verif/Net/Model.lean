import Verif.Serial.Model

/-!
# Messages over TCP connections (C90, C91)

Model of `src/util/network/tcp_socket.cpp` and `src/util/network/peer.cpp`: a peer that keeps
connecting to a remote node and sends it messages, down to the bytes that each call of `write` and
`read` moves.
-/
namespace Verif.Net

open Verif.Serial

/-! ### `tcp_socket::send` and `tcp_socket::receive` -/

/-- What `send` has still to write: the rest of the size and the rest of the packet,
`src/util/network/tcp_socket.cpp:60-87`. -/
structure Sending where
  hdr : Bytes
  body : Bytes
  deriving DecidableEq, Repr

/-- The start of `send`, `src/util/network/tcp_socket.cpp:61-64`. -/
def Sending.start (pkt : Bytes) : Sending := ⟨encInt 8 pkt.length, pkt⟩

/-- How many bytes the next `write` offers: one loop for the size, `src/util/network/tcp_socket.cpp:65-73`,
one for the packet, 75-85. -/
def Sending.offered (s : Sending) : Nat :=
  if s.hdr.isEmpty then s.body.length else s.hdr.length

/-- One `write` of which the system takes `k` bytes: what goes out and what is left. -/
def Sending.write (s : Sending) (k : Nat) : Bytes × Sending :=
  if s.hdr.isEmpty then (s.body.take k, ⟨[], s.body.drop k⟩)
  else (s.hdr.take k, ⟨s.hdr.drop k, s.body⟩)

/-- `send` returns true, `src/util/network/tcp_socket.cpp:87`. -/
def Sending.done (s : Sending) : Bool := s.hdr.isEmpty && s.body.isEmpty

/-- Where `receive` is, `src/util/network/tcp_socket.cpp:90-122`: the bytes of the size that have come, or the
size and the bytes of the packet that have come.  `crashed`: the buffer of the announced size
could not be made (line 108), and the exception leaves the thread, which ends the process. -/
inductive Receiving where
  | size (sofar : Bytes)
  | body (sz : Nat) (pkt : Bytes)
  | crashed
  deriving DecidableEq, Repr

/-- A new call of `receive`. -/
def Receiving.start : Receiving := .size []

/-- How many bytes the next `read` asks for, `src/util/network/tcp_socket.cpp:97` and 110. -/
def Receiving.wanted : Receiving → Nat
  | .size sofar => 8 - sofar.length
  | .body sz pkt => sz - pkt.length
  | .crashed => 0

/-- One `read` that brings the bytes `bs`; the packet, if this completes it, goes to the callback and
the thread calls `receive` again (`src/util/network/peer.cpp:69-77`).  `alloc n`: a vector of `n` bytes can be
made. -/
def Receiving.read (alloc : Nat → Bool) (r : Receiving) (bs : Bytes) : Receiving × Option Bytes :=
  match r with
  | .size sofar =>
    if (sofar ++ bs).length < 8 then (.size (sofar ++ bs), none)
    else if !alloc (leNat (sofar ++ bs)) then (.crashed, none)
    else if leNat (sofar ++ bs) = 0 then (.start, some [])
    else (.body (leNat (sofar ++ bs)) [], none)
  | .body sz pkt =>
    if (pkt ++ bs).length < sz then (.body sz (pkt ++ bs), none) else (.start, some (pkt ++ bs))
  | .crashed => (.crashed, none)

/-! ### A peer and the remote node -/

/-- One connection.  `stream`: the bytes that `write` took.  At the remote node, `taken` bytes of
them have been read, `rcv` is where its `receive` is and `got` is what its callback was given.
`sent` records the packets for which `send` returned true; nothing depends on it. -/
structure Conn where
  stream : Bytes
  sent : List Bytes
  taken : Nat
  rcv : Receiving
  got : List Bytes
  deriving DecidableEq, Repr

/-- A connection just made. -/
def Conn.new : Conn := ⟨[], [], 0, .start, []⟩

/-- The peer: `m_send_queue`, the packet and position of the send thread, whether the send thread
runs, and its connections, the latest first.  `pushed` records the calls of `send`. -/
structure Link where
  pushed : List Bytes
  queue : List Bytes
  sending : Option (Bytes × Sending)
  up : Bool
  conns : List Conn
  deriving DecidableEq, Repr

/-- A peer as `connection_manager::add` makes it, with a socket that is connected. -/
def Link.init : Link := ⟨[], [], none, true, [.new]⟩

/-- What can happen; `step` cites the code. -/
inductive Event where
  | push (pkt : Bytes)
  | pop
  | write (k : Nat)
  | fail
  | close
  | reconnect
  | arrive (i k : Nat)
  deriving DecidableEq, Repr

/-- One event; `none`: it cannot happen now.  The threads are followed only as far as data goes: `close` joins
the send thread before it returns, so no packet is half sent on one connection and half on the next. -/
def step (alloc : Nat → Bool) (s : Link) : Event → Option Link
  -- `send`, src/util/network/peer.cpp:27-31
  | .push pkt => some { s with pushed := s.pushed ++ [pkt], queue := s.queue ++ [pkt] }
  -- `m_send_queue.pop`, src/util/network/peer.cpp:50
  | .pop =>
    match s.up, s.sending, s.queue with
    | true, none, pkt :: q => some { s with queue := q, sending := some (pkt, .start pkt) }
    | _, _, _ => none
  -- a `write` in `m_sock->send`, src/util/network/peer.cpp:56; the last one makes it return
  | .write k =>
    match s.sending, s.conns with
    | some (pkt, w), c :: cs =>
      if 0 < k && k ≤ w.offered then
        let (bs, w') := w.write k
        if w'.done then
          some { s with
            sending := none
            conns := { c with stream := c.stream ++ bs, sent := c.sent ++ [pkt] } :: cs }
        else
          some { s with
            sending := some (pkt, w')
            conns := { c with stream := c.stream ++ bs } :: cs }
      else none
    | _, _ => none
  -- a `write` fails and the send thread ends, src/util/network/peer.cpp:57-60
  | .fail => some { s with sending := none, up := false }
  -- `close`, src/util/network/peer.cpp:118-129
  | .close => some { s with queue := [], sending := none, up := false }
  -- the new connection and the new threads, src/util/network/peer.cpp:95-107
  | .reconnect => if s.up then none else some { s with up := true, conns := .new :: s.conns }
  -- a `read` of the remote node on one of the connections
  | .arrive i k =>
    match s.conns[i]? with
    | some c =>
      let bs := (c.stream.drop c.taken).take k
      if 0 < k && k ≤ c.rcv.wanted && bs.length == k then
        let (r, m) := c.rcv.read alloc bs
        some { s with
          conns := s.conns.set i
            { c with taken := c.taken + k, rcv := r, got := c.got ++ m.toList } }
      else none
    | none => none

/-- Events in order; the latest state. -/
def run (alloc : Nat → Bool) (s : Link) : List Event → Option Link
  | [] => some s
  | e :: es => (step alloc s e).bind fun s' => run alloc s' es

end Verif.Net
