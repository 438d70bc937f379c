import Verif.Rpc.Props
/-!
# RPC clients and servers together (C75)

Model of `src/util/rpc/tcp_server.hpp`, `src/util/rpc/async_server.hpp`, `src/util/rpc/blocking_server.hpp`
and of the parts of `src/util/network/connection_manager.cpp` that carry requests
and replies, joined to the clients of `Verif.Rpc.Model`.

Simplified: messages are delivered as a whole, on a connection at most once, in any
order, and may be lost when the connection breaks (TCP delivers them in order; what
is proved does not need it).  Encoding is left out: C01-C03 cover it.
-/
namespace Verif.Rpc

/-- A message under way: the connection, the request id of the header, and the
rest. -/
structure Msg (T : Type) where
  conn : Nat
  id : Nat
  body : T
  deriving DecidableEq, Repr

/-- A connection: who opened it, to which server, the peer id that the receive
callback of the server carries (src/util/network/connection_manager.cpp:90-98), and whether it is
up. -/
structure Conn where
  client : Nat
  server : Nat
  peer : Nat
  up : Bool
  deriving DecidableEq, Repr

/-- A request as the handler of a server gets it: the server, the peer, the header
and the payload.  `conn`, the connection on which it came, is for the statements
only. -/
structure Job (Q : Type) where
  server : Nat
  peer : Nat
  id : Nat
  req : Q
  conn : Nat
  deriving DecidableEq, Repr

/-- `m_peers` and `m_next_peer_id` of a server, src/util/network/connection_manager.hpp:220-221: peer ids and connections. -/
structure Server where
  peers : List (Nat × Nat)
  next : Nat

/-- Clients, servers, the connections made so far, and messages in both directions; the threads and queues of
the network layer are left out. -/
structure Sys (Q P : Type) where
  clients : Nat → Client Q P
  servers : Nat → Server
  conns : List Conn
  up : List (Msg Q)
  down : List (Msg (Option P))
  jobs : List (Job Q)
  /-- what handlers answered: number of the job and payload -/
  answers : List (Nat × Option P)

variable {Q P : Type}

/-- Nothing is connected. -/
def Sys.init : Sys Q P :=
  ⟨fun _ => Client.init, fun _ => ⟨[], 0⟩, [], [], [], [], []⟩

/-- What can happen; `sysStep` cites the code. -/
inductive SysEvent (Q P : Type) where
  /-- something inside client `c` other than sending and receiving -/
  | client (c : Nat) (e : Event Q P)
  /-- client `c` sends the request of its call `n` on connection `k` -/
  | send (c n k : Nat)
  | connect (c server : Nat)
  | disconnect (k : Nat)
  /-- the handler of a server gets a request -/
  | handle (i : Nat)
  /-- the handler of a server answers -/
  | answer (j : Nat) (p : Option P)
  /-- a client receives a reply -/
  | deliver (i : Nat)

/-- Events inside a client. -/
def Event.inner : Event Q P → Bool
  | .send _ true => false
  | .reply _ _ => false
  | _ => true

/-- Client `c` is replaced. -/
def Sys.setClient (s : Sys Q P) (c : Nat) (x : Client Q P) : Sys Q P :=
  { s with clients := fun d => if d = c then x else s.clients d }

/-- The connection that `connection_manager::send` finds for a peer,
src/util/network/connection_manager.cpp:201-217. -/
def Server.conn (v : Server) (peer : Nat) : Option Nat :=
  (v.peers.find? fun p => p.1 == peer).map (·.2)

/-- One event; `none`: it cannot happen now. -/
def sysStep (s : Sys Q P) : SysEvent Q P → Option (Sys Q P)
  | .client c e =>
    if e.inner then (step (s.clients c) e).map (s.setClient c) else none
  -- `send_to_one`, src/util/network/connection_manager.cpp:236-257
  | .send c n k =>
    match s.conns[k]?, (s.clients c).calls[n]?, step (s.clients c) (.send n true) with
    | some conn, some call, some x =>
      if conn.up && conn.client == c then
        some { s.setClient c x with up := s.up ++ [⟨k, call.id, call.req⟩] }
      else none
    | _, _, _ => none
  -- `cluster_connect`, src/util/network/connection_manager.cpp:113-126, and `add` at the server, 80-111
  | .connect c server =>
    let v := s.servers server
    some { s with
      conns := s.conns ++ [⟨c, server, v.next, true⟩]
      servers := fun w =>
        if w = server then ⟨v.peers ++ [(v.next, s.conns.length)], v.next + 1⟩
        else s.servers w }
  -- src/util/network/peer.cpp:80-138
  | .disconnect k =>
    some { s with
      conns := s.conns.modify k fun c => { c with up := false }
      up := s.up.filter fun m => m.conn != k
      down := s.down.filter fun m => m.conn != k }
  -- `start_handler`, src/util/network/connection_manager.cpp:161-182, and the handler of
  -- src/util/rpc/tcp_server.hpp:49-65
  | .handle i =>
    match s.up[i]? with
    | none => none
    | some m =>
      match s.conns[m.conn]? with
      | none => none
      | some conn =>
        some { s with
          up := s.up.eraseIdx i
          jobs := s.jobs ++ [⟨conn.server, conn.peer, m.id, m.body, m.conn⟩] }
  -- src/util/rpc/async_server.hpp:84-99, src/util/rpc/blocking_server.hpp:58-70: the reply carries the header
  -- of the request and goes to the peer that sent it
  | .answer j p =>
    match s.jobs[j]? with
    | none => none
    | some job =>
      match (s.servers job.server).conn job.peer with
      | none => none
      | some k =>
        match s.conns[k]? with
        | none => none
        | some conn =>
          some { s with
            answers := s.answers ++ [(j, p)]
            down := if conn.up then s.down ++ [⟨k, job.id, p⟩] else s.down }
  | .deliver i =>
    match s.down[i]? with
    | none => none
    | some m =>
      match s.conns[m.conn]? with
      | none => none
      | some conn =>
        (step (s.clients conn.client) (.reply m.id m.body)).map fun x =>
          { s.setClient conn.client x with down := s.down.eraseIdx i }

/-- Executions of the whole, with the events that each client saw. -/
inductive SysReach : (Nat → List (Event Q P)) → Sys Q P → Prop where
  | init : SysReach (fun _ => []) Sys.init
  | step {tr : Nat → List (Event Q P)} {s s' : Sys Q P} (e : SysEvent Q P)
      (h : SysReach tr s) (hs : sysStep s e = some s')
      (tr' : Nat → List (Event Q P))
      (htr : tr' = fun c => tr c ++
        match e with
        | .client d e => if c = d then [e] else []
        | .send d n _ => if c = d then [.send n true] else []
        | .deliver i =>
          match s.down[i]? with
          | some m =>
            match s.conns[m.conn]? with
            | some conn => if c = conn.client then [.reply m.id m.body] else []
            | none => []
          | none => []
        | _ => []) : SysReach tr' s'

end Verif.Rpc
