import Verif.Parsec.CommitOrder
import Verif.Parsec.ShardProps

/-!
# A PArSEC broker together with its shards

The broker of `src/parsec/broker/impl.cpp` and the shards of
`src/parsec/runtime_locking_shard/impl.cpp` joined by a network.

What the network does.  Requests to one shard arrive in the order in which they
were sent (one connection per shard, `src/util/rpc/tcp_client.hpp`), requests to
different shards in any order; any request can be lost.  Answers can be lost,
and an answer that a request succeeded is given only if the shard served it
successfully; an answer to a request of an earlier attempt does not arrive
(`Plain`, see C47 for what happens if it does).  Other brokers' requests are
served at any time; they use other ticket numbers, as the ticket machine gives
every number to one broker (C49).  Each shard is one process that does not fail; for what a
shard keeps when its leader changes see C66.  Recovery of a broker that failed is
not covered, see C48.
-/
namespace Verif.Parsec.Broker

/-- The requests as the shards see them (src/parsec/runtime_locking_shard/client.cpp:20-92,
`me` is the broker's number).  `get_tickets` changes nothing and is left out. -/
def Call.op (me : Nat) : Call → Option Op
  | .tryLock _ t k ty f cb => some (.tryLock t me k ty f cb)
  | .prepare _ t u _ => some (.prepare t u)
  | .commit _ t _ => some (.commit t)
  | .rollback _ t _ => some (.rollback t)
  | .finish _ t _ => some (.finish t)
  | .getTickets _ _ => none

/-- How often the user was told that `t` is rolled back: the number of the
current attempt. -/
def epoch (t : Tn) (h : Hist) : Nat := h.countP fun x => x.2.said.any (Said.aborts t)

/-- A request with the number of the attempt it belongs to.  The number is only
used to talk about runs; it is not sent. -/
structure Request where
  call : Call
  ep : Nat
  deriving DecidableEq

/-- A request that was served: its result, and the values the shard stored before
and after. -/
structure Served where
  req : Request
  result : Option ShardError
  before : Key → Value
  after : Key → Value

/-- The broker with what happened there, the shards, the requests on their way to
each shard, and the requests each shard served, both oldest first. -/
structure World where
  b : State
  h : Hist := []
  shard : Nat → Parsec.State
  net : Nat → List Request := fun _ => []
  log : Nat → List Served := fun _ => []

/-- `f` with another value at `i`. -/
def put {α : Type} (f : Nat → α) (i : Nat) (x : α) : Nat → α := fun j => if j = i then x else f j

/-- The requests for shard `i`. -/
def callsTo (i : Nat) (cs : List Call) : List Call :=
  cs.filter fun c => match c.ticket with
    | some (j, _) => j = i
    | none => false

/-- The attempt a request of this moment belongs to. -/
def stamp (h : Hist) (c : Call) : Request :=
  ⟨c, match c.ticket with
    | some (_, t) => epoch t h
    | none => 0⟩

/-- An answer that a request succeeded is the answer to a request of the current
attempt that was served successfully. -/
def Justified (w : World) : Event → Prop
  | .prepared c t i none _ => ∃ a ∈ w.log i, ∃ u, a.req = ⟨.prepare i t u c, epoch t w.h⟩ ∧ a.result = none
  | .committed c t i none _ => ∃ a ∈ w.log i, a.req = ⟨.commit i t c, epoch t w.h⟩ ∧ a.result = none
  | .rolledBack c t i none _ => ∃ a ∈ w.log i, a.req = ⟨.rollback i t c, epoch t w.h⟩ ∧ a.result = none
  | .finished c t i none => ∃ a ∈ w.log i, a.req = ⟨.finish i t c, epoch t w.h⟩ ∧ a.result = none
  | _ => True

/-- The broker reacts to `e`. -/
def World.event (w : World) (e : Event) (s : State) (o : Out) : World :=
  { w with
    b := s
    h := (e, o) :: w.h
    net := fun i => w.net i ++ (callsTo i o.calls).map (stamp ((e, o) :: w.h)) }

/-- Shard `i` serves the next request. -/
def World.serve (w : World) (i : Nat) (r : Request) (rest : List Request) (s : Parsec.State)
    (o : Parsec.Out) : World :=
  { w with
    shard := put w.shard i s
    net := put w.net i rest
    log := put w.log i (w.log i ++ [⟨r, o.result, (w.shard i).value, s.value⟩]) }

/-- What can happen.  `own` are the tickets of this broker; `ok` says which events
the user brings about. -/
inductive World.Step (me : Nat) (own : Tn → Prop) (ok : Hist → Event → Prop) : World → World → Prop
  | event {w : World} {e : Event} {s : State} {o : Out} (hp : Plain w.h e) (ho : ok w.h e) (hj : Justified w e)
      (hn : ∀ cb t m, e = .ticketNumber cb (some (t, m)) → own t) (hs : step w.b e = some (s, o)) :
      Step me own ok w (w.event e s o)
  | serve {w : World} {i : Nat} {r : Request} {rest : List Request} {op : Op} {s : Parsec.State} {o : Parsec.Out}
      (hn : w.net i = r :: rest) (ho : r.call.op me = some op) (he : exec (w.shard i) op = some (s, o)) :
      Step me own ok w (w.serve i r rest s o)
  | lose {w : World} {i : Nat} {l : List Request} (hl : l.Sublist (w.net i)) :
      Step me own ok w { w with net := put w.net i l }
  | other {w : World} {i : Nat} {op : Op} {s : Parsec.State} {o : Parsec.Out} (hn : ¬own op.ticket)
      (he : exec (w.shard i) op = some (s, o)) : Step me own ok w { w with shard := put w.shard i s }

/-- A new broker with `n` shards which have no records of its tickets. -/
structure World.Initial (n : Nat) (own : Tn → Prop) (w : World) : Prop where
  broker : w.b = { shards := n }
  hist : w.h = []
  net : ∀ i, w.net i = []
  log : ∀ i, w.log i = []
  shard : ∀ i, Reach (w.shard i)
  clean : ∀ i t, own t → (w.shard i).ticket t = none

/-- The states that can be reached. -/
inductive Runs (n me : Nat) (own : Tn → Prop) (ok : Hist → Event → Prop) : World → Prop
  | start {w : World} (h : w.Initial n own) : Runs n me own ok w
  | step {w w' : World} (hr : Runs n me own ok w) (h : w.Step me own ok w') : Runs n me own ok w'

end Verif.Parsec.Broker
