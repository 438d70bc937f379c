import Verif.Parsec.CommitProps
import Verif.Parsec.ReplSerial

/-!
# Many PArSEC brokers which share their shards

Any number of the brokers of `src/parsec/broker/impl.cpp`, each with its own network as in
`CommitSys`, and the shards of `src/parsec/runtime_locking_shard/impl.cpp` which serve all of
them.  In addition to what `CommitSys` says about answers, an answer to a lock request
that carries a value carries one which the shard has given for this request
(`src/parsec/runtime_locking_shard/server.cpp:27-45`).

The model also keeps the list of the transactions which a broker has decided to
commit, in the order of these decisions, with what they had locked and are going to
write.  This list is only used to talk about runs.
-/
namespace Verif.Parsec.Broker.Many

/-- A transaction: its number, the values of the keys it has locked and the values it
writes, on each shard. -/
structure Txn where
  ticket : Tn
  reads : Nat → Key → Option Value
  writes : Nat → Key → Option Value

/-- What `t` is going to write to `k` once it is committed. -/
def pendingWrite (s : Parsec.State) (t : Tn) (k : Key) : Option Value :=
  match s.ticket t with
  | some tk => if tk.state = .prepared then tk.update.lookup k else none
  | none => none

/-- The transaction `t` as the shards see it now. -/
def snapshot (shard : Nat → Parsec.State) (t : Tn) : Txn where
  ticket := t
  reads i := lockedValues (shard i) t
  writes i := pendingWrite (shard i) t

/-- The values after the transaction `e` was executed on its own. -/
def Txn.apply (e : Txn) (data : Nat → Key → Value) : Nat → Key → Value :=
  fun i k => (e.writes i k).getD (data i k)

/-- The values after the transactions were executed one after the other. -/
def execute (data : Nat → Key → Value) : List Txn → Nat → Key → Value
  | [] => data
  | e :: l => execute (e.apply data) l

/-- If the transactions are executed one after the other, beginning with `data`, each
finds the values it had locked. -/
def Serial (data : Nat → Key → Value) : List Txn → Prop
  | [] => True
  | e :: l => (∀ i k v, e.reads i k = some v → data i k = v) ∧ Serial (e.apply data) l

/-- `c` is a request to commit `t`. -/
def commits (t : Tn) : Call → Bool
  | .commit _ x _ => x = t
  | _ => false

/-- The transaction which is asked to commit for the first time, if any. -/
def decides (h : Hist) (o : Out) : Option Tn :=
  o.calls.findSome? fun c => match c with
    | .commit _ t _ => if h.any fun x => x.2.calls.any (commits t) then none else some t
    | _ => none

/-- While serving `op` in state `s` a shard gives `t` the value `v` for its request
`cb` for a lock on `k` (a callback of the operation, which says that the lock is
held, src/parsec/runtime_locking_shard/impl.cpp:482-540). -/
def Gives (s : Parsec.State) (op : Op) (s' : Parsec.State) (o : Parsec.Out) (t : Tn) (k : Key) (cb : Nat) (v : Value) :
    Prop :=
  (cb, .value v) ∈ o.calls k ∧ ∃ w ∈ queueWith s op k, w.ticket = t ∧ w.cb = cb ∧ Holds s' t k w.type

/-- The brokers with what happened there, the requests on their way from each broker to
each shard, the requests each shard served for each broker, and the shards.  `gave b i t
k cb m v`: in attempt `m` of `t` at broker `b` shard `i` gave `v` for the request `cb` for
a lock on `k`. -/
structure Many where
  b : Nat → State
  h : Nat → Hist := fun _ => []
  net : Nat → Nat → List Request := fun _ _ => []
  log : Nat → Nat → List Served := fun _ _ => []
  shard : Nat → Parsec.State
  gave : Nat → Nat → Tn → Key → Nat → Nat → Value → Prop := fun _ _ _ _ _ _ _ => False
  order : List Txn := []

/-- What broker `b` has to do with. -/
def Many.view (M : Many) (b : Nat) : World := ⟨M.b b, M.h b, M.shard, M.net b, M.log b⟩

/-- The world of broker `b` has changed to `w`. -/
def Many.set (M : Many) (b : Nat) (w : World) : Many :=
  { M with
    b := put M.b b w.b
    h := put M.h b w.h
    net := put M.net b w.net
    log := put M.log b w.log
    shard := w.shard }

/-- An answer to a lock request with a value is one the shard has given. -/
def Granted (M : Many) (b : Nat) : Event → Prop
  | .locked cb t k i (.value v) => M.gave b i t k cb (epoch t (M.h b)) v
  | _ => True

/-- Broker `b` reacts to `e`. -/
def Many.event (M : Many) (b : Nat) (e : Event) (s : State) (o : Out) : Many :=
  { M.set b ((M.view b).event e s o) with
    order := M.order ++ (decides (M.h b) o).toList.map (snapshot M.shard) }

/-- Shard `i` serves the next request of broker `b`. -/
def Many.serve (M : Many) (b i : Nat) (r : Request) (rest : List Request) (op : Op) (s : Parsec.State)
    (o : Parsec.Out) : Many :=
  { M.set b ((M.view b).serve i r rest s o) with
    gave := fun b' j t k cb m v => M.gave b' j t k cb m v ∨
      (j = i ∧ m = epoch t (M.h b') ∧ Gives (M.shard i) op s o t k cb v) }

/-- What can happen.  `own b` are the tickets of broker `b`. -/
inductive Many.Step (own : Nat → Tn → Prop) : Many → Many → Prop
  | event {M : Many} {b : Nat} {e : Event} {s : State} {o : Out} (hp : Plain (M.h b) e) (ho : Orderly (M.h b) e)
      (hj : Justified (M.view b) e) (hg : Granted M b e)
      (hn : ∀ cb t m, e = .ticketNumber cb (some (t, m)) → own b t) (hs : step (M.b b) e = some (s, o)) :
      Step own M (M.event b e s o)
  | serve {M : Many} {b i : Nat} {r : Request} {rest : List Request} {op : Op} {s : Parsec.State} {o : Parsec.Out}
      (hn : M.net b i = r :: rest) (ho : r.call.op b = some op) (he : exec (M.shard i) op = some (s, o)) :
      Step own M (M.serve b i r rest op s o)
  | lose {M : Many} {b i : Nat} {l : List Request} (hl : l.Sublist (M.net b i)) :
      Step own M { M with net := put M.net b (put (M.net b) i l) }

/-- New brokers with `n` shards which have no records of their tickets and store `base`. -/
structure Many.Initial (n : Nat) (own : Nat → Tn → Prop) (base : Nat → Key → Value) (M : Many) : Prop where
  broker : ∀ b, M.b b = { shards := n }
  hist : ∀ b, M.h b = []
  net : ∀ b i, M.net b i = []
  log : ∀ b i, M.log b i = []
  shard : ∀ i, Reach (M.shard i)
  clean : ∀ b i t, own b t → (M.shard i).ticket t = none
  gave : ∀ b i t k cb m v, ¬M.gave b i t k cb m v
  order : M.order = []
  base : ∀ i, (M.shard i).value = base i

/-- The states that can be reached. -/
inductive ManyRuns (n : Nat) (own : Nat → Tn → Prop) (base : Nat → Key → Value) : Many → Prop
  | start {M : Many} (h : M.Initial n own base) : ManyRuns n own base M
  | step {M M' : Many} (hr : ManyRuns n own base M) (h : M.Step own M') : ManyRuns n own base M'

end Verif.Parsec.Broker.Many
