import Verif.Watchtower.Model

/-! What the watchtower is supposed to answer, as plain searches through the last blocks and the last
errors (properties C26, C27, C63). -/
namespace Verif.Watchtower

open Verif.Tx Verif.Atomizer

/-- The last `k` elements; all of them if `k` is 0. -/
def lastK {α} (k : Nat) (l : List α) : List α := if k = 0 then l else l.drop (l.length - k)

/-- The elements still among the last `k` when one more is added after `l`. -/
def before {α} (k : Nat) (l : List α) : List α := if k = 0 then l else l.drop (l.length - (k - 1))

/-- The transactions of a list of blocks with their heights, in order. -/
def entries (bs : List Block) : List (UInt64 × CompactTx) :=
  bs.flatMap fun b => b.txs.map fun t => (b.height, t)

/-- The first transaction spending an output. -/
def spender (l : List (UInt64 × CompactTx)) (u : Hash) : Option Where :=
  (l.find? fun p => decide (u ∈ p.2.inputs)).map fun p => (p.1, p.2.id)

/-- The first transaction creating an output. -/
def creator (l : List (UInt64 × CompactTx)) (u : Hash) : Option Where :=
  (l.find? fun p => decide (u ∈ p.2.uhsOutputs)).map fun p => (p.1, p.2.id)

/-- A history without double spends: every output is spent at most once, created at most once, and
not after it was spent. -/
structure Ledger (l : List (UInt64 × CompactTx)) : Prop where
  spentOnce : (l.flatMap fun p => p.2.inputs).Nodup
  createdOnce : (l.flatMap fun p => p.2.uhsOutputs).Nodup
  order : l.Pairwise fun p q => ∀ u ∈ q.2.uhsOutputs, u ∉ p.2.inputs
  order' : ∀ p ∈ l, ∀ u ∈ p.2.uhsOutputs, u ∉ p.2.inputs

end Verif.Watchtower
