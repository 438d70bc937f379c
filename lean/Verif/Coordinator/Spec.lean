import Verif.Coordinator.Model

/-! What the execution of a batch should achieve, stated over what clients and
shards see. -/
namespace Verif.Coordinator

open Verif.Tx Verif.LockingShard

/-- The transaction has its id, an input or an output on the shard. -/
def Concerns (c : Cfg) (t : CompactTx) : Prop :=
  c.owns t.id = true ∨ (∃ x ∈ t.inputs, c.owns x = true) ∨ ∃ x ∈ t.uhsOutputs, c.owns x = true

instance (c : Cfg) (t : CompactTx) : Decidable (Concerns c t) := by
  unfold Concerns; infer_instance

/-- The place of transaction `k` among the transactions of the batch that concern
the shard. -/
def place (c : Cfg) (txs : List CompactTx) (k : Nat) : Nat :=
  (txs.take k).countP fun t => decide (Concerns c t)

/-- The shard granted transaction `k` when it first answered. -/
def Granted (p : Params) (w : World) (i : Nat) (c : Cfg) (k : Nat) : Prop :=
  ∃ v, w.firstVote i = some v ∧ v[place c p.txs k]? = some true

/-- What a shard did when it applied the batch: transaction `k`, being `t`, was executed
(`f = true`) or undone (`f = false`). -/
def Did (c : Cfg) (txs : List CompactTx) (k : Nat) (t : CompactTx) (f : Bool)
    (h : List CompactTx × List Bool) : Prop :=
  h.1[place c txs k]? = some t ∧ h.2[place c txs k]? = some f

/-- The batch is recorded in the replicated state of the coordinators. -/
def Recorded (p : Params) (w : World) : Prop :=
  (w.rep.prepare p.d).isSome ∨ (w.rep.commit p.d).isSome ∨ w.rep.discard p.d = true

/-- Every shard with a part in the batch has applied it. -/
def AppliedEverywhere (p : Params) (w : World) : Prop :=
  ∀ i c, p.shards[i]? = some c → (∃ t ∈ p.txs, Concerns c t) → w.history i ≠ []

/-- In this step a shard that has applied the batch accepts a lock request of it as new. -/
def LateLock (p : Params) (w w' : World) : Prop :=
  ∃ i, w.history i ≠ [] ∧ (w.shard i).prepared p.d = none ∧ (w'.shard i).prepared p.d ≠ none

/-- Executions without late lock requests. -/
inductive Punctual (p : Params) : World → Prop where
  | init (w : World) : Init p w → Punctual p w
  | step (w w' : World) : Punctual p w → Step p w w' → ¬ LateLock p w w' → Punctual p w'

end Verif.Coordinator
