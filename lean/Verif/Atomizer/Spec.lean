import Verif.Atomizer.Model

/-!
What the chain of blocks means for the money, told without the atomizer's caches.
-/
namespace Verif.Atomizer

open Verif.Tx

/-- A set of unspent ids. -/
abbrev Ledger := Hash → Prop

/-- The unspent ids after one transaction: its outputs appear, its inputs disappear. -/
def Ledger.apply (L : Ledger) (t : CompactTx) : Ledger :=
  fun x => (L x ∨ x ∈ t.uhsOutputs) ∧ x ∉ t.inputs

/-- The unspent ids after transactions in order. -/
def Ledger.after (L : Ledger) (ts : List CompactTx) : Ledger := ts.foldl Ledger.apply L

/-- All transactions of a chain, in order. -/
def txsOf (chain : List Block) : List CompactTx := chain.flatMap Block.txs

/-- Every transaction spends only what is unspent when its turn comes. -/
def Legal (L : Ledger) (ts : List CompactTx) : Prop :=
  ∀ (i : Nat) (t : CompactTx), ts[i]? = some t → ∀ x ∈ t.inputs, L.after (ts.take i) x

/-- Two transactions may have an input in common only if it was created again in between. -/
def NoDoubleSpend (ts : List CompactTx) : Prop :=
  ∀ (i j : Nat) (a b : CompactTx) (x : Hash), i < j → ts[i]? = some a → ts[j]? = some b →
    x ∈ a.inputs → x ∈ b.inputs →
    ∃ (k : Nat) (c : CompactTx), i < k ∧ k < j ∧ ts[k]? = some c ∧ x ∈ c.uhsOutputs

/-- Somebody notified an attestation of input `i` of the transaction `id` at height `h`. -/
def Notified (ns : List Notif) (id : Hash) (i : Nat) (h : Nat) : Prop :=
  ∃ n ∈ ns, n.tx.id = id ∧ i ∈ n.atts ∧ n.height.toNat = h

/-- Every input of `t` was notified at a height from `lo` to `hi`. -/
def AllNotified (ns : List Notif) (t : CompactTx) (lo hi : Nat) : Prop :=
  ∀ i, i < t.inputs.length → ∃ h, lo ≤ h ∧ h ≤ hi ∧ Notified ns t.id i h

/-- A transaction id determines the inputs (C05, for transactions that sentinels sign). -/
def IdsCommit (P : Params) : Prop :=
  ∀ a b : CompactTx, P.submitted a → P.submitted b → a.id = b.id → a.inputs = b.inputs

/-- The ids that exist before the first block. -/
def Params.start (P : Params) : Ledger := fun x => P.genesis x = true

end Verif.Atomizer
