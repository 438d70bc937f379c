import Verif.LockingShard.Model

/-!
Model of `src/uhs/twophase/coordinator/{distributed_tx,state_machine,controller}.cpp`:
the execution of one batch (`distributed_tx`) by any number of coordinator
nodes that crash and recover, over shards that run the model of
`src/uhs/twophase/locking_shard/locking_shard.cpp`, through a network that may delay, duplicate and reorder
requests.
-/
namespace Verif.Coordinator

open Verif.Tx Verif.LockingShard

/-! ### `distributed_tx` -/

/-- Whether a transaction concerns a shard: the loop body of `add_tx`,
`src/uhs/twophase/coordinator/distributed_tx.cpp:149-170`. -/
def relevant (c : Cfg) (t : CompactTx) : Bool :=
  c.owns t.id || t.inputs.any c.owns || t.uhsOutputs.any c.owns

/-- The data of a `distributed_tx`, `src/uhs/twophase/coordinator/distributed_tx.hpp:155-166`: per shard the
transactions (`m_txs`) and their positions in the batch (`m_tx_idxs`), the batch
(`m_full_txs`) and the outcome (`m_complete_txs`). -/
structure Dtx where
  txs : List (List CompactTx)
  idxs : List (List Nat)
  full : List CompactTx
  complete : List Bool

/-- The constructor, `src/uhs/twophase/coordinator/distributed_tx.cpp:11-21`. -/
def Dtx.new (shards : List Cfg) : Dtx where
  txs := shards.map fun _ => []
  idxs := shards.map fun _ => []
  full := []
  complete := []

/-- `add_tx`, `src/uhs/twophase/coordinator/distributed_tx.cpp:147-178`. -/
def Dtx.addTx (shards : List Cfg) (b : Dtx) (t : CompactTx) : Dtx where
  txs := (shards.zip b.txs).map fun p => if relevant p.1 t then p.2 ++ [t] else p.2
  idxs := (shards.zip b.idxs).map fun p => if relevant p.1 t then p.2 ++ [b.full.length] else p.2
  full := b.full ++ [t]
  complete := b.complete

/-- `recover_prepare`, `src/uhs/twophase/coordinator/distributed_tx.cpp:238-244`; also how a new batch is filled
(`src/uhs/twophase/coordinator/controller.cpp:716`). -/
def Dtx.addAll (shards : List Cfg) (b : Dtx) (ts : List CompactTx) : Dtx :=
  ts.foldl (Dtx.addTx shards) b

/-- `recover_commit`, `src/uhs/twophase/coordinator/distributed_tx.cpp:246-252`, on a new object. -/
def Dtx.recoverCommit (shards : List Cfg) (complete : List Bool) (idxs : List (List Nat)) : Dtx :=
  { Dtx.new shards with complete := complete, idxs := idxs }

/-- `recover_discard`, `src/uhs/twophase/coordinator/distributed_tx.cpp:254-256`, on a new object. -/
def Dtx.recoverDiscard (shards : List Cfg) : Dtx := Dtx.new shards

/-- `for i: if(!(*res)[i]) ret[m_tx_idxs[f.second][i]] = false;`,
`src/uhs/twophase/coordinator/distributed_tx.cpp:62-66`. -/
def veto (ret : List Bool) : List Nat → List Bool → List Bool
  | i :: is, r :: rs => veto (if r then ret else ret.set i false) is rs
  | _, _ => ret

/-- The reply loop of `prepare`, `src/uhs/twophase/coordinator/distributed_tx.cpp:46-69`; `none` when a reply has
the wrong size (the process exits). Shards without transactions are not asked. -/
def collect (ret : List Bool) : List (List Nat) → List (List Bool) → Option (List Bool)
  | is :: iss, v :: vs =>
    if is.isEmpty then collect ret iss vs
    else if v.length ≠ is.length then none
    else collect (veto ret is v) iss vs
  | _, _ => some ret

/-- The outcome of the prepare phase given the reply of every shard (the entry of a
shard that is not asked is ignored). -/
def Dtx.outcome (b : Dtx) (votes : List (List Bool)) : Option (List Bool) :=
  collect (List.replicate b.full.length true) b.idxs votes

/-- The flags sent to a shard, `src/uhs/twophase/coordinator/distributed_tx.cpp:87-90`; `none` when an index is
out of range (undefined behaviour). -/
def shardFlags (complete : List Bool) (idxs : List Nat) : Option (List Bool) :=
  idxs.mapM fun k => complete[k]?

/-! ### The replicated state of the coordinators, `src/uhs/twophase/coordinator/state_machine.cpp` -/

/-- `coordinator_state`, `src/uhs/twophase/coordinator/state_machine.hpp:41-57`, with the payloads of
`src/uhs/twophase/coordinator/controller.hpp:59-82`. -/
structure Rep where
  prepare : Hash → Option (List CompactTx)
  commit : Hash → Option (List Bool × List (List Nat))
  discard : HSet

/-- The commands, `src/uhs/twophase/coordinator/state_machine.hpp:30-36` (`get` is reading the state). -/
inductive Cmd where
  | prepare (d : Hash) (txs : List CompactTx)
  | commit (d : Hash) (complete : List Bool) (idxs : List (List Nat))
  | discard (d : Hash)
  | done (d : Hash)

/-- The batch a command is about. -/
def Cmd.dtx : Cmd → Hash
  | .prepare d _ => d
  | .commit d _ _ => d
  | .discard d => d
  | .done d => d

/-- `state_machine::commit`, `src/uhs/twophase/coordinator/state_machine.cpp:14-92`; `none` when the process exits.
(`emplace` does not replace an existing entry.) -/
def Rep.exec (r : Rep) : Cmd → Option Rep
  | .prepare d txs =>
    match r.prepare d with
    | some _ => none
    | none => some { r with prepare := fun d' => if d' = d then some txs else r.prepare d' }
  | .commit d complete idxs =>
    match r.prepare d with
    | none => none
    | some _ => some { r with
        prepare := fun d' => if d' = d then none else r.prepare d'
        commit := fun d' =>
          if d' = d then some ((r.commit d).getD (complete, idxs)) else r.commit d' }
  | .discard d =>
    match r.commit d with
    | none => none
    | some _ => some { r with
        commit := fun d' => if d' = d then none else r.commit d'
        discard := r.discard.add d }
  | .done d => if r.discard d then some { r with discard := r.discard.del d } else none

/-! ### Executions -/

/-- How far a coordinator node got with a batch: the phases of
`distributed_tx::execute`, `src/uhs/twophase/coordinator/distributed_tx.cpp:109-145`. -/
inductive Stage where
  /-- `dtx_state::start`: about to record the batch (`m_prepare_cb`) -/
  | start
  /-- asking the shards to lock; replies so far -/
  | locking (got : Nat → Option (List Bool))
  /-- outcome known, about to record it (`m_commit_cb`) -/
  | decided
  /-- outcome recorded, asking the shards to apply it; acknowledgements so far -/
  | applying (acked : Nat → Bool)
  /-- all applied, about to record that (`m_discard_cb`) -/
  | applied
  /-- asking the shards to forget the batch -/
  | discarding (acked : Nat → Bool)
  /-- about to remove the batch from the replicated state (`m_done_cb`) -/
  | discarded
  /-- `execute` returned `m_complete_txs` -/
  | done
  /-- `execute` returned `std::nullopt`, or the node crashed -/
  | failed

/-- A coordinator node working on the batch. -/
structure Exec where
  dtx : Dtx
  stage : Stage

/-- The fixed data of a run: the shards, the id of the batch and its transactions, and whether the
batch is alone, so that shards and coordinators do no other work. -/
structure Params where
  shards : List Cfg
  d : Hash
  txs : List CompactTx
  alone : Bool

/-- The state of the world. The last three fields record what happened; nothing
depends on them. -/
structure World where
  shard : Nat → State
  rep : Rep
  execs : List Exec
  /-- requests ever sent to a shard on behalf of the batch; each may arrive any
  number of times, at any time, in any order -/
  sent : Nat → Req → Prop
  /-- answers of a shard to lock requests of the batch -/
  voted : Nat → List Bool → Prop
  /-- shards that acknowledged apply, discard -/
  ackApply : Nat → Prop
  ackDiscard : Nat → Prop
  /-- the first answer of each shard to a lock request of the batch -/
  firstVote : Nat → Option (List Bool)
  /-- the outcome first recorded in the replicated state -/
  decision : Option (List Bool)
  /-- the transactions and flags with which a shard applied the batch, each time it did -/
  history : Nat → List (List CompactTx × List Bool)

/-- Replace the state of shard `i`. -/
def World.setShard (w : World) (i : Nat) (s : State) : World :=
  { w with shard := fun j => if j = i then s else w.shard j }

/-- Replace executor `k`. -/
def World.setExec (w : World) (k : Nat) (e : Exec) : World :=
  { w with execs := w.execs.set k e }

/-- Record that a request is on its way. -/
def World.send (w : World) (i : Nat) (r : Req) : World :=
  { w with sent := fun j q => (j = i ∧ q = r) ∨ w.sent j q }

/-- The requests a shard gets from elsewhere: those of other batches, and `stop`. -/
def foreign (d : Hash) : Req → Prop
  | .lock _ d' => d' ≠ d
  | .apply _ d' => d' ≠ d
  | .discard d' => d' ≠ d
  | .stop => True

/-- Bookkeeping for the answer of shard `i` to a request of the batch. -/
def World.answered (w : World) (d : Hash) (i : Nat) : Req → Resp → World
  | .lock _ _, .lock (some v) =>
    { w with
      voted := fun j u => (j = i ∧ u = v) ∨ w.voted j u
      firstVote := fun j => if j = i then some ((w.firstVote i).getD v) else w.firstVote j }
  | .apply fs _, .apply true =>
    { w with
      ackApply := fun j => j = i ∨ w.ackApply j
      history := fun j =>
        match (w.shard i).prepared d with
        | some b => if j = i then w.history j ++ [(b.txs, fs)] else w.history j
        | none => w.history j }
  | .discard _, .discard true => { w with ackDiscard := fun j => j = i ∨ w.ackDiscard j }
  | _, _ => w

/-- Shard `i` takes part in the batch of `e`. -/
def Exec.involves (e : Exec) (i : Nat) : Prop := ∃ is, e.dtx.idxs[i]? = some is ∧ is ≠ []

/-- One step of the world. A failed call to the replicated log is a crash, with or
without the command having taken effect. -/
inductive Step (p : Params) : World → World → Prop where
  /-- `m_prepare_cb`, `src/uhs/twophase/coordinator/distributed_tx.cpp:24-30` -/
  | prepareCb (w : World) (k : Nat) (e : Exec) (r : Rep) (lost : Bool) :
    w.execs[k]? = some e → e.stage = .start →
    w.rep.exec (.prepare p.d e.dtx.full) = some r →
    Step p w ({ w with rep := r }.setExec k
      { e with stage := if lost then .failed else .locking fun _ => none })
  /-- a lock request (or a retry of it, `src/uhs/twophase/locking_shard/client.cpp:52-69`), `src/uhs/twophase/coordinator/distributed_tx.cpp:34-45` -/
  | sendLock (w : World) (k : Nat) (e : Exec) (got : Nat → Option (List Bool)) (i : Nat)
      (ts : List CompactTx) :
    w.execs[k]? = some e → e.stage = .locking got → e.involves i → e.dtx.txs[i]? = some ts →
    Step p w (w.send i (.lock ts p.d))
  /-- a reply arrives, `src/uhs/twophase/coordinator/distributed_tx.cpp:47-52` -/
  | recvVote (w : World) (k : Nat) (e : Exec) (got : Nat → Option (List Bool)) (i : Nat)
      (v : List Bool) :
    w.execs[k]? = some e → e.stage = .locking got → w.voted i v →
    Step p w (w.setExec k { e with
      stage := .locking fun j => if j = i then some v else got j })
  /-- all replies are there, `src/uhs/twophase/coordinator/distributed_tx.cpp:46-69` and `:117-125` -/
  | decide (w : World) (k : Nat) (e : Exec) (got : Nat → Option (List Bool)) (D : List Bool) :
    w.execs[k]? = some e → e.stage = .locking got → (∀ i, e.involves i → (got i).isSome) →
    e.dtx.outcome ((List.range e.dtx.idxs.length).map fun i => (got i).getD []) = some D →
    Step p w (w.setExec k ⟨{ e.dtx with complete := D }, .decided⟩)
  /-- `m_commit_cb`, `src/uhs/twophase/coordinator/distributed_tx.cpp:74-80` -/
  | commitCb (w : World) (k : Nat) (e : Exec) (r : Rep) (lost : Bool) :
    w.execs[k]? = some e → e.stage = .decided →
    w.rep.exec (.commit p.d e.dtx.complete e.dtx.idxs) = some r →
    Step p w ({ w with rep := r, decision := some (w.decision.getD e.dtx.complete) }.setExec k
      { e with stage := if lost then .failed else .applying fun _ => false })
  /-- an apply request (or a retry of it), `src/uhs/twophase/coordinator/distributed_tx.cpp:82-97` -/
  | sendApply (w : World) (k : Nat) (e : Exec) (acked : Nat → Bool) (i : Nat) (is : List Nat)
      (fs : List Bool) :
    w.execs[k]? = some e → e.stage = .applying acked → e.dtx.idxs[i]? = some is → is ≠ [] →
    shardFlags e.dtx.complete is = some fs →
    Step p w (w.send i (.apply fs p.d))
  /-- an acknowledgement arrives, `src/uhs/twophase/coordinator/distributed_tx.cpp:98-104` -/
  | recvApply (w : World) (k : Nat) (e : Exec) (acked : Nat → Bool) (i : Nat) :
    w.execs[k]? = some e → e.stage = .applying acked → w.ackApply i →
    Step p w (w.setExec k { e with stage := .applying fun j => if j = i then true else acked j })
  /-- `src/uhs/twophase/coordinator/distributed_tx.cpp:105-106` -/
  | allApplied (w : World) (k : Nat) (e : Exec) (acked : Nat → Bool) :
    w.execs[k]? = some e → e.stage = .applying acked → (∀ i, e.involves i → acked i = true) →
    Step p w (w.setExec k { e with stage := .applied })
  /-- `m_discard_cb`, `src/uhs/twophase/coordinator/distributed_tx.cpp:181-187` -/
  | discardCb (w : World) (k : Nat) (e : Exec) (r : Rep) (lost : Bool) :
    w.execs[k]? = some e → e.stage = .applied → w.rep.exec (.discard p.d) = some r →
    Step p w ({ w with rep := r }.setExec k
      { e with stage := if lost then .failed else .discarding fun _ => false })
  /-- a discard request (or a retry of it), `src/uhs/twophase/coordinator/distributed_tx.cpp:189-199` -/
  | sendDiscard (w : World) (k : Nat) (e : Exec) (acked : Nat → Bool) (i : Nat) :
    w.execs[k]? = some e → e.stage = .discarding acked → e.involves i →
    Step p w (w.send i (.discard p.d))
  /-- an acknowledgement arrives, `src/uhs/twophase/coordinator/distributed_tx.cpp:200-206` -/
  | recvDiscard (w : World) (k : Nat) (e : Exec) (acked : Nat → Bool) (i : Nat) :
    w.execs[k]? = some e → e.stage = .discarding acked → w.ackDiscard i →
    Step p w (w.setExec k { e with stage := .discarding fun j => if j = i then true else acked j })
  /-- `src/uhs/twophase/coordinator/distributed_tx.cpp:207` -/
  | allDiscarded (w : World) (k : Nat) (e : Exec) (acked : Nat → Bool) :
    w.execs[k]? = some e → e.stage = .discarding acked → (∀ i, e.involves i → acked i = true) →
    Step p w (w.setExec k { e with stage := .discarded })
  /-- `m_done_cb`, `src/uhs/twophase/coordinator/distributed_tx.cpp:207-215` -/
  | doneCb (w : World) (k : Nat) (e : Exec) (r : Rep) (lost : Bool) :
    w.execs[k]? = some e → e.stage = .discarded → w.rep.exec (.done p.d) = some r →
    Step p w ({ w with rep := r }.setExec k { e with stage := if lost then .failed else .done })
  /-- a node stops working on the batch at any point -/
  | crash (w : World) (k : Nat) (e : Exec) :
    w.execs[k]? = some e → Step p w (w.setExec k { e with stage := .failed })
  /-- a node becomes leader and recovers a batch that was recorded,
  `src/uhs/twophase/coordinator/controller.cpp:248-261` -/
  | recoverPrepare (w : World) (ts : List CompactTx) :
    w.rep.prepare p.d = some ts →
    Step p w { w with execs := w.execs ++
      [⟨(Dtx.new p.shards).addAll p.shards ts, .locking fun _ => none⟩] }
  /-- recovery of a batch with a recorded outcome, `src/uhs/twophase/coordinator/controller.cpp:263-276` -/
  | recoverCommit (w : World) (complete : List Bool) (idxs : List (List Nat)) :
    w.rep.commit p.d = some (complete, idxs) →
    Step p w { w with execs := w.execs ++
      [⟨Dtx.recoverCommit p.shards complete idxs, .applying fun _ => false⟩] }
  /-- recovery of a batch that is being discarded, `src/uhs/twophase/coordinator/controller.cpp:278-289` -/
  | recoverDiscard (w : World) :
    w.rep.discard p.d = true →
    Step p w { w with execs := w.execs ++
      [⟨Dtx.recoverDiscard p.shards, .discarding fun _ => false⟩] }
  /-- a request arrives at a shard -/
  | deliver (w : World) (i : Nat) (c : Cfg) (q : Req) (s' : State) (a : Resp) :
    p.shards[i]? = some c → w.sent i q → step c (w.shard i) q = some (s', a) →
    Step p w ((w.answered p.d i q a).setShard i s')
  /-- a shard does other work -/
  | otherShard (w : World) (i : Nat) (c : Cfg) (q : Req) (s' : State) (a : Resp) :
    p.alone = false → p.shards[i]? = some c → foreign p.d q → step c (w.shard i) q = some (s', a) →
    Step p w (w.setShard i s')
  /-- the coordinators do other work -/
  | otherCmd (w : World) (cmd : Cmd) (r : Rep) :
    p.alone = false → cmd.dtx ≠ p.d → w.rep.exec cmd = some r → Step p w { w with rep := r }

/-- The start: one node holds the new batch, nobody has heard of it. -/
structure Init (p : Params) (w : World) : Prop where
  execs : w.execs = [⟨(Dtx.new p.shards).addAll p.shards p.txs, .start⟩]
  rep : w.rep.prepare p.d = none ∧ w.rep.commit p.d = none ∧ w.rep.discard p.d = false
  shards : ∀ i, (w.shard i).prepared p.d = none ∧ (w.shard i).applied p.d = false
  sent : ∀ i q, ¬ w.sent i q
  voted : ∀ i v, ¬ w.voted i v
  acks : ∀ i, ¬ w.ackApply i ∧ ¬ w.ackDiscard i
  records : (∀ i, w.firstVote i = none) ∧ w.decision = none ∧ ∀ i, w.history i = []

/-- The worlds that can be reached. -/
inductive Reach (p : Params) : World → Prop where
  | init (w : World) : Init p w → Reach p w
  | step (w w' : World) : Reach p w → Step p w w' → Reach p w'

end Verif.Coordinator
