import Verif.Tx.Spec

/-!
Money, told in whole coins: a coin is what a wallet needs to spend it - where it was created, for
whom and for how much.  No hashes of coins, no shards and no attestations occur here.
-/
namespace Verif.Money

open Verif.Tx

/-- A coin: the outpoint that created it, the commitment of its owner and its value. -/
abbrev Coin := Input

/-- The coins that a transaction creates. -/
def created (c : Crypto) (t : FullTx) : List Coin :=
  t.outputs.mapIdx fun i o => ⟨⟨txId c t, UInt64.ofNat i⟩, o⟩

/-- The coins after one transaction: those it spends are gone, those it creates are there. -/
def spend (c : Crypto) (S : List Coin) (t : FullTx) : List Coin :=
  S.filter (fun g => decide (g ∉ t.inputs)) ++ created c t

/-- The coins after transactions in order. -/
def coinsAfter (c : Crypto) (G : List Coin) (ts : List FullTx) : List Coin := ts.foldl (spend c) G

/-- The value of some coins together. -/
def worth (S : List Coin) : Nat := (S.map fun g => g.prevoutData.value.toNat).sum

/-- Every transaction is well-formed - balanced, and signed by the owners of what it spends - and
spends only coins that exist when its turn comes. -/
def Lawful (c : Crypto) (G : List Coin) (ts : List FullTx) : Prop :=
  ∀ (i : Nat) (t : FullTx), ts[i]? = some t →
    WellFormed c t ∧ ∀ g ∈ t.inputs, g ∈ coinsAfter c G (ts.take i)

/-- The owner of the coin `g` has signed the transaction `t`, which spends it. -/
def SpentByOwner (c : Crypto) (t : FullTx) (g : Coin) : Prop :=
  ∃ (i : Nat) (w : Serial.Bytes), t.inputs[i]? = some g ∧ t.witness[i]? = some w ∧
    OwnerSigned c (txId c t) g.prevoutData.commitment w

end Verif.Money
