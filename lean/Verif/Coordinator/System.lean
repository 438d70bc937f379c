import Verif.Coordinator.Spec

/-!
The whole two-phase system: any number of batches, of any number of coordinators, over common
shards.  Each batch is executed as in `Verif.Coordinator.Model`; the shards serve one request after
another, of whatever batch.

The replicated states of all coordinator clusters are one, since every entry belongs to one batch
and batch ids are different (`src/uhs/twophase/coordinator/controller.cpp:386-394` draws them at random).
-/
namespace Verif.Coordinator

open Verif.Tx Verif.LockingShard

/-- The fixed data of the system: the shards, the ids each was seeded with
(`src/uhs/twophase/locking_shard/locking_shard.cpp:24-76`), and the transactions of each batch by its id. -/
structure Whole where
  shards : List Cfg
  seeds : Nat → HSet
  txs : Hash → List CompactTx

/-- One batch, doing its own work only. -/
def Whole.batch (p : Whole) (d : Hash) : Params := ⟨p.shards, d, p.txs d, true⟩

/-- One batch, among whatever else goes on. -/
def Whole.among (p : Whole) (d : Hash) : Params := ⟨p.shards, d, p.txs d, false⟩

/-- The state of the system: shards, the replicated state of the coordinators, and for each batch
its nodes, requests and records (`shard` and `rep` of a part are not used).  `order` records the
batches in the order in which their outcomes were recorded; nothing depends on it. -/
structure Sys where
  shard : Nat → State
  rep : Rep
  part : Hash → World
  order : List Hash

/-- The world as a batch sees it. -/
def Sys.view (S : Sys) (d : Hash) : World := { S.part d with shard := S.shard, rep := S.rep }

/-- The system after a step of batch `d`. -/
def Sys.put (S : Sys) (d : Hash) (w : World) : Sys where
  shard := w.shard
  rep := w.rep
  part d' := if d' = d then w else S.part d'
  order := if (S.part d).decision.isNone && w.decision.isSome then S.order ++ [d] else S.order

/-- A step of the system is a step of one of the batches. -/
inductive Whole.Step (p : Whole) : Sys → Sys → Prop where
  | of (S : Sys) (d : Hash) (w : World) : Coordinator.Step (p.batch d) (S.view d) w →
    Whole.Step p S (S.put d w)

/-- The start: seeded shards, every batch still to be executed. -/
structure Whole.Init (p : Whole) (S : Sys) : Prop where
  shards : ∀ i c, p.shards[i]? = some c → S.shard i = State.init c (p.seeds i)
  batches : ∀ d, Coordinator.Init (p.among d) (S.view d)
  order : S.order = []

/-- The states the system can reach. -/
inductive Whole.Reach (p : Whole) : Sys → Prop where
  | init (S : Sys) : p.Init S → Whole.Reach p S
  | step (S S' : Sys) : Whole.Reach p S → p.Step S S' → Whole.Reach p S'

/-! ### What is observed -/

/-- The transactions of a batch that were executed, by the recorded outcome. -/
def executed (ts : List CompactTx) (D : List Bool) : List CompactTx :=
  (ts.zip D).filterMap fun q => if q.2 then some q.1 else none

/-- The executed transactions of the system, in the order in which their batches were decided. -/
def Sys.done (p : Whole) (S : Sys) : List CompactTx :=
  S.order.flatMap fun d => executed (p.txs d) ((S.part d).decision.getD [])

/-- The id is unspent on the shard responsible for it. -/
def Sys.Unspent (p : Whole) (S : Sys) (x : Hash) : Prop :=
  ∃ i c, p.shards[i]? = some c ∧ c.owns x = true ∧ (S.shard i).uhs x = true

/-- The shard responsible for the id says it is unspent (`check_unspent`: unspent or locked). -/
def Sys.SaysUnspent (p : Whole) (S : Sys) (x : Hash) : Prop :=
  ∃ i c, p.shards[i]? = some c ∧ c.owns x = true ∧ checkUnspent (S.shard i) x = true

/-- No shard has a batch in flight. -/
def Sys.AtRest (p : Whole) (S : Sys) : Prop :=
  ∀ i c d, p.shards[i]? = some c → (S.shard i).prepared d = none

/-- At shard `i` transaction `j` of batch `d` holds the lock on `x`. -/
def Sys.Holds (S : Sys) (i : Nat) (c : Cfg) (d : Hash) (j : Nat) (x : Hash) : Prop :=
  ∃ b t, (S.shard i).prepared d = some b ∧ b.txs[j]? = some t ∧ b.results[j]? = some true ∧
    c.owns x = true ∧ x ∈ t.inputs

/-- In this step a shard applies a batch with a transaction that it refused, while another
transaction, of another batch or later in the same, holds one of its inputs. -/
def LoudAbort (p : Whole) (S S' : Sys) : Prop :=
  ∃ i c d b j t x, p.shards[i]? = some c ∧ (S.shard i).prepared d = some b ∧
    (S'.shard i).prepared d = none ∧ b.txs[j]? = some t ∧ b.results[j]? = some false ∧
    c.owns x = true ∧ x ∈ t.inputs ∧ ∃ d' j', (d' ≠ d ∨ j < j') ∧ S.Holds i c d' j' x

/-- Neither a late lock request is accepted nor a loud abort happens. -/
def Calm (p : Whole) (S S' : Sys) : Prop :=
  (∀ d, ¬ LateLock (p.among d) (S.view d) (S'.view d)) ∧ ¬ LoudAbort p S S'

/-- Calm steps from one state to another. -/
inductive Whole.Run (p : Whole) (S : Sys) : Sys → Prop where
  | refl : Whole.Run p S S
  | step (S' S'' : Sys) : Whole.Run p S S' → p.Step S' S'' → Calm p S' S'' → Whole.Run p S S''

end Verif.Coordinator
