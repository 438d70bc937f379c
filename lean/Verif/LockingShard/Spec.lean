import Verif.LockingShard.Model

/-!
What a history of shard requests and answers means for the money the shard
keeps, told without the shard's own data structures.

The specification is a plain ledger: the set of coins the shard is responsible
for, and the batches that were locked and not yet applied, as seen by whoever
sends the requests.
-/
namespace Verif.LockingShard

open Verif.Tx

/-- A transaction of a batch in flight, with the shard's answer to the lock. -/
structure InFlight where
  tx : CompactTx
  granted : Bool

/-- The observer's view. -/
structure Ledger where
  /-- the coins of this shard -/
  coins : Hash → Prop
  /-- every id that was ever a coin of this shard -/
  born : Hash → Prop
  /-- batches locked and not yet applied -/
  pending : Hash → Option (List InFlight)

/-- `x` is an input of `t` that this shard is responsible for. -/
def Spends (c : Cfg) (t : CompactTx) (x : Hash) : Prop := c.owns x = true ∧ x ∈ t.inputs
/-- `x` is an output of `t` that this shard is responsible for. -/
def Creates (c : Cfg) (t : CompactTx) (x : Hash) : Prop := c.owns x = true ∧ x ∈ t.uhsOutputs

/-- The coins after `t` takes effect. -/
def takeEffect (c : Cfg) (t : CompactTx) (coins : Hash → Prop) : Hash → Prop :=
  fun x => (coins x ∧ ¬ Spends c t x) ∨ Creates c t x

/-- The coins after the completed transactions of a batch take effect in order. -/
def settle (c : Cfg) : List InFlight → List Bool → (Hash → Prop) → (Hash → Prop)
  | t :: ts, true :: fs, coins => settle c ts fs (takeEffect c t.tx coins)
  | _ :: ts, false :: fs, coins => settle c ts fs coins
  | _, _, coins => coins

/-- The ids that were ever coins after a batch is settled. -/
def bear (c : Cfg) : List InFlight → List Bool → (Hash → Prop) → (Hash → Prop)
  | t :: ts, true :: fs, born => bear c ts fs fun x => born x ∨ Creates c t.tx x
  | _ :: ts, false :: fs, born => bear c ts fs born
  | _, _, born => born

/-- The observer's view after one request and its answer. -/
def Ledger.next (c : Cfg) (l : Ledger) : Req → Resp → Ledger
  | .lock txs d, .lock (some res) =>
    match l.pending d with
    | some _ => l
    | none => { l with pending := fun d' =>
        if d' = d then some ((txs.zip res).map fun p => ⟨p.1, p.2⟩) else l.pending d' }
  | .apply flags d, .apply true =>
    match l.pending d with
    | none => l
    | some b =>
      { coins := settle c b flags l.coins
        born := bear c b flags l.born
        pending := fun d' => if d' = d then none else l.pending d' }
  | _, _ => l

/-! ### The claim -/

/-- Every completed transaction of a batch spends only coins that are there. -/
def LegalBatch (c : Cfg) : List InFlight → List Bool → (Hash → Prop) → Prop
  | t :: ts, true :: fs, coins =>
    (∀ x, Spends c t.tx x → coins x) ∧ LegalBatch c ts fs (takeEffect c t.tx coins)
  | _ :: ts, false :: fs, coins => LegalBatch c ts fs coins
  | _, _, _ => True

/-- Whatever the request completes spends only coins that are there. -/
def Legal (c : Cfg) (l : Ledger) : Req → Resp → Prop
  | .apply flags d, .apply true => ∀ b, l.pending d = some b → LegalBatch c b flags l.coins
  | _, _ => True

/-! ### Assumptions about whoever sends the requests -/

/-- A batch is only completed where this shard granted the lock. -/
def Obedient (l : Ledger) : Req → Prop
  | .apply flags d => ∀ b, l.pending d = some b →
      ∀ (i : Nat) (t : InFlight), b[i]? = some t → flags[i]? = some true → t.granted = true
  | _ => True

/-- Transactions of a batch that complete create coins that are not there yet. -/
def FreshBatch (c : Cfg) : List InFlight → List Bool → (Hash → Prop) → Prop
  | t :: ts, true :: fs, coins =>
    (∀ x, Creates c t.tx x → ¬ coins x) ∧ FreshBatch c ts fs (takeEffect c t.tx coins)
  | _ :: ts, false :: fs, coins => FreshBatch c ts fs coins
  | _, _, _ => True

/-- Completed transactions create coins that are not there yet (ids of outputs
are unique, C06). -/
def Fresh (c : Cfg) (l : Ledger) : Req → Prop
  | .apply flags d => ∀ b, l.pending d = some b → FreshBatch c b flags l.coins
  | _ => True

/-- Transactions of a batch that complete create ids that were never coins before. -/
def NewBatch (c : Cfg) : List InFlight → List Bool → (Hash → Prop) → Prop
  | t :: ts, true :: fs, born =>
    (∀ x, Creates c t.tx x → ¬ born x) ∧ NewBatch c ts fs fun x => born x ∨ Creates c t.tx x
  | _ :: ts, false :: fs, born => NewBatch c ts fs born
  | _, _, _ => True

/-- No id is created twice (C06). -/
def NeverReborn (c : Cfg) (l : Ledger) : Req → Prop
  | .apply flags d => ∀ b, l.pending d = some b → NewBatch c b flags l.born
  | _ => True

/-- `x` is held by a granted transaction in flight other than those up to
position `i` of batch `d`. -/
def HeldElsewhere (c : Cfg) (l : Ledger) (d : Hash) (i : Nat) (x : Hash) : Prop :=
  ∃ (d' : Hash) (b : List InFlight) (j : Nat) (t : InFlight), l.pending d' = some b ∧ b[j]? = some t ∧ t.granted = true ∧ Spends c t.tx x ∧
    (d' ≠ d ∨ i < j)

/-- When a transaction that was refused the lock is aborted, none of its inputs
is held by another transaction in flight. -/
def QuietAborts (c : Cfg) (l : Ledger) : Req → Prop
  | .apply flags d => ∀ b, l.pending d = some b →
      ∀ (i : Nat) (t : InFlight), b[i]? = some t → flags[i]? = some false → t.granted = false →
        ∀ x, Spends c t.tx x → ¬ HeldElsewhere c l d i x
  | _ => True

/-- A condition holds at every step of a history. -/
def Always (c : Cfg) (P : Ledger → Req → Resp → Prop) : Ledger → List Req → List Resp → Prop
  | l, r :: rs, a :: as => P l r a ∧ Always c P (l.next c r a) rs as
  | _, _, _ => True

/-- The observer's view after a history. -/
def Ledger.after (c : Cfg) (l : Ledger) : List Req → List Resp → Ledger
  | r :: rs, a :: as => (l.next c r a).after c rs as
  | _, _ => l

/-- The observer's view of a new shard: its preseeded coins, nothing in flight. -/
def Ledger.init (uhs : HSet) : Ledger := ⟨fun x => uhs x = true, fun x => uhs x = true, fun _ => none⟩

/-- The ids, in order, of the transactions of this shard that were decided (completed or
aborted) in a history. -/
def decidedIds (c : Cfg) (l : Ledger) : List Req → List Resp → List Hash
  | r :: rs, a :: as =>
    (match r, a with
      | .apply _ d, .apply true => ((l.pending d).getD []).filterMap fun t =>
          if c.owns t.tx.id then some t.tx.id else none
      | _, _ => []) ++ decidedIds c (l.next c r a) rs as
  | _, _ => []

/-- A transaction with this id was completed in the history. -/
def Completed (c : Cfg) (l : Ledger) (id : Hash) : List Req → List Resp → Prop
  | r :: rs, a :: as =>
    (match r, a with
      | .apply fs d, .apply true => ∃ b, l.pending d = some b ∧
          ∃ (i : Nat) (t : InFlight), b[i]? = some t ∧ fs[i]? = some true ∧ t.tx.id = id
      | _, _ => False) ∨ Completed c (l.next c r a) id rs as
  | _, _ => False

end Verif.LockingShard
