import Verif.Parsec.CommitProps
import Verif.Parsec.AgentProps

/-!
# An agent server: agents, their broker, its shards

Any number of the agents of `src/parsec/agent/impl.cpp`, one broker which all of them use
(`src/parsec/agent/server_interface.cpp:11-40`, `src/parsec/agent/agentd.cpp`), the shards and the network
of `CommitSys`.

Agent `j` gives the broker callbacks with the number `j`.  What is left open, so
that the model allows more than can happen: which of an agent's lock requests an
answer belongs to and which value it carries, when `exec` is called and by whom,
what runners ask for and compute, which calls of the broker report that they cannot
be made (`Can`).  An agent is called with its mutex held, so the calls it makes are
made, in order, before it is called again; other threads can do anything in
between.  The directory answers while it is asked (src/parsec/directory/impl.cpp:11-22).
Agents count keys and values; `κ` and `ν` say which bytes they stand for.
-/
namespace Verif.Parsec.Broker.Server

/-- A call of the broker which an agent makes.  `find` is the answer of the
directory, which `try_lock` asks (src/parsec/broker/impl.cpp:155-166). -/
inductive Req
  | ask (t k : Nat) (write : Bool)
  | find (t k : Nat) (write : Bool)
  | commit (t : Nat) (u : Agent.Update)
  | finish (t : Nat)
  | rollback (t : Nat)

/-- The calls of the broker among what an event causes.  `begin` only asks the
ticket machine (src/parsec/broker/impl.cpp:18-37), whose answers come at any time. -/
def asReq : Agent.Out → Option Req
  | .lock _ t k w => some (.ask t k w)
  | .commit t u => some (.commit t u)
  | .finish t => some (.finish t)
  | .rollback t => some (.rollback t)
  | _ => none

/-- The update in bytes. -/
def enc (κ : Nat → Key) (ν : Nat → Value) (u : Agent.Update) : List (Key × Value) :=
  u.map fun q => (κ q.1, ν q.2)

/-- The event at the broker (src/parsec/agent/impl.cpp:154-162, 230-237, 371-376, 562-566,
612-616). -/
def Req.Is (κ : Nat → Key) (ν : Nat → Value) (j : Nat) : Req → Event → Prop
  | .ask t _ _, e => ∃ ok, e = .tryLock j t ok
  | .find t k w, e => ∃ r ok, e = .foundKey j t (κ k) (if w then .write else .read) r ok
  | .commit t u, e => ∃ p, e = .commit j t (enc κ ν u) p
  | .finish t, e => ∃ p, e = .finish j t p
  | .rollback t, e => ∃ p, e = .rollback j t p

/-- What follows a call. -/
def Req.then : Req → List Req
  | .ask t k w => [.find t k w]
  | _ => []

/-- Answers of shards and of the ticket machine. -/
def isAnswer : Event → Bool
  | .ticketNumber .. => true
  | .locked .. => true
  | .prepared .. => true
  | .committed .. => true
  | .rolledBack .. => true
  | .finished .. => true
  | _ => false

/-- The number of the callback. -/
def saidTo : Said → Nat
  | .begin cb _ => cb
  | .lock cb _ _ => cb
  | .commit cb _ _ => cb
  | .rollback cb _ _ => cb
  | .finish cb _ _ => cb
  | .recover cb _ => cb

/-- The event of the agent whose callback is called. -/
def Delivers : Said → Agent.Event → Prop
  | .begin _ (.ok n), e => e = .begun (some n)
  | .begin _ (.error _), e => e = .begun none
  | .lock _ _ (.ok _), e => ∃ c v, e = .locked c (.value v)
  | .lock _ _ (.error _), e => ∃ c r, e = .locked c r ∧ ∀ v, r ≠ .value v
  | .commit _ _ none, e => e = .committed .ok
  | .commit _ _ (some _), e => ∃ r, e = .committed r ∧ r ≠ .ok
  | .rollback _ _ r, e => e = .rolledBack r.isNone
  | .finish _ _ r, e => e = .finished r.isNone
  | .recover _ _, _ => False

/-- Events that are not caused by the broker. -/
def spontaneous : Agent.Event → Bool
  | .exec => true
  | .request .. => true
  | .ran _ => true
  | _ => false

/-- The state: of agent `j`, what happened to it, the calls of the broker it still has to
make, and the callbacks the broker is about to call. -/
structure Server where
  w : World
  ag : Nat → Agent.Agent := fun _ => {}
  tr : Nat → Agent.Trace := fun _ => []
  todo : Nat → List Req := fun _ => []
  inbox : Nat → List Said := fun _ => []

/-- Agent `j` reacts to `e`; `l` is what the broker still has to tell it. -/
def Server.agent (S : Server) (cfg : Agent.Config) (j : Nat) (p : Agent.Can) (e : Agent.Event) (l : List Said) :
    Server :=
  { S with
    ag := put S.ag j (Agent.step cfg p (S.ag j) e).1
    tr := put S.tr j ((e, (Agent.step cfg p (S.ag j) e).2) :: S.tr j)
    todo := put S.todo j ((Agent.step cfg p (S.ag j) e).2.filterMap asReq)
    inbox := put S.inbox j l }

/-- The broker reacts to `e`. -/
def Server.event (S : Server) (e : Event) (s : State) (o : Out) : Server :=
  { S with
    w := S.w.event e s o
    inbox := fun j => S.inbox j ++ o.said.filter fun x => saidTo x = j }

/-- What can happen. `cfg j` is what agent `j` was made for. -/
inductive Server.Step (cfg : Nat → Agent.Config) (κ : Nat → Key) (ν : Nat → Value) (me : Nat) (own : Tn → Prop) :
    Server → Server → Prop
  | alone {S : Server} {j : Nat} {p : Agent.Can} {e : Agent.Event} (ha : Agent.Alive (S.tr j)) (ht : S.todo j = [])
      (he : spontaneous e = true) : Step cfg κ ν me own S (S.agent (cfg j) j p e (S.inbox j))
  | told {S : Server} {j : Nat} {p : Agent.Can} {e : Agent.Event} {x : Said} {l r : List Said}
      (ha : Agent.Alive (S.tr j)) (ht : S.todo j = []) (hi : S.inbox j = l ++ x :: r) (he : Delivers x e) :
      Step cfg κ ν me own S (S.agent (cfg j) j p e (l ++ r))
  | call {S : Server} {j : Nat} {q : Req} {rest : List Req} {e : Event} {s : State} {o : Out}
      (ht : S.todo j = q :: rest) (he : q.Is κ ν j e) (hs : step S.w.b e = some (s, o)) :
      Step cfg κ ν me own S { S.event e s o with todo := put S.todo j (q.then ++ rest) }
  | skip {S : Server} {j t k : Nat} {w : Bool} {rest : List Req} (ht : S.todo j = .find t k w :: rest) :
      Step cfg κ ν me own S { S with todo := put S.todo j rest }
  | answer {S : Server} {e : Event} {s : State} {o : Out} (ha : isAnswer e = true) (hp : Plain S.w.h e)
      (hj : Justified S.w e) (hn : ∀ cb t m, e = .ticketNumber cb (some (t, m)) → own t)
      (hs : step S.w.b e = some (s, o)) : Step cfg κ ν me own S (S.event e s o)
  | serve {S : Server} {i : Nat} {r : Request} {rest : List Request} {op : Op} {s : Parsec.State} {o : Parsec.Out}
      (hn : S.w.net i = r :: rest) (ho : r.call.op me = some op) (he : exec (S.w.shard i) op = some (s, o)) :
      Step cfg κ ν me own S { S with w := S.w.serve i r rest s o }
  | lose {S : Server} {i : Nat} {l : List Request} (hl : l.Sublist (S.w.net i)) :
      Step cfg κ ν me own S { S with w := { S.w with net := put S.w.net i l } }
  | other {S : Server} {i : Nat} {op : Op} {s : Parsec.State} {o : Parsec.Out} (hn : ¬own op.ticket)
      (he : exec (S.w.shard i) op = some (s, o)) :
      Step cfg κ ν me own S { S with w := { S.w with shard := put S.w.shard i s } }

/-- The states that can be reached from a new server. -/
inductive Reaches (cfg : Nat → Agent.Config) (κ : Nat → Key) (ν : Nat → Value) (n me : Nat) (own : Tn → Prop) :
    Server → Prop
  | start {w : World} (h : w.Initial n own) : Reaches cfg κ ν n me own { w := w }
  | step {S S' : Server} (hr : Reaches cfg κ ν n me own S) (h : S.Step cfg κ ν me own S') :
      Reaches cfg κ ν n me own S'

end Verif.Parsec.Broker.Server
