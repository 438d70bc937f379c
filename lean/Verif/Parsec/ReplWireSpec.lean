import Verif.Parsec.ReplWire

/-! What a log of a runtime locking shard says, in terms of the calls made: the tickets that are
prepared or committed and not finished. Nothing here refers to the state machine. -/
namespace Verif.Parsec.Wire

open Verif.Serial Verif.Serial.Cat

/-- The call prepares `t`. -/
def Call.prepares (t : Nat) : Call → Bool
  | .prepare t' _ _ => t' == t
  | _ => false

/-- The calls after the last one that finished `t`. -/
def since (h : List Call) (t : Nat) : List Call :=
  (h.reverse.takeWhile fun c => c != .finish t).reverse

/-- What is known about `t`: the first prepare since it was last finished counts; it is committed when a
commit came after that prepare, and then only the keys of its update are kept. -/
def record (h : List Call) (t : Nat) : Option RepTicket :=
  match (since h t).dropWhile fun c => !c.prepares t with
  | .prepare _ b u :: rest =>
    if rest.contains (.commit t) then some ⟨1, b, u.map fun p => (p.1, [])⟩ else some ⟨0, b, u⟩
  | _ => none

/-- What the callback of `c` has to be told when `h` came before it in the log. -/
def Right (h : List Call) : Call → Told → Prop
  | .prepare _ _ _, r => r = .result none
  | .commit t, r => r = .result (if (record h t).isSome then none else some 4)
  | .finish _, r => r = .result none
  | .tickets, r => ∃ m : List (Nat × RepTicket), r = .tickets (.tickets m) ∧
      (m.map Prod.fst).Nodup ∧ ∀ t, m.lookup t = record h t

/-- A call whose arguments their C++ types can hold. -/
def Call.Fits : Call → Prop
  | .prepare t b u => t < 2 ^ 64 ∧ b < 2 ^ 64 ∧ u.length < 2 ^ 64 ∧ (u.map Prod.fst).Nodup ∧
      ∀ p ∈ u, p.1.length ≤ maxBuf ∧ p.2.length ≤ maxBuf
  | .commit t => t < 2 ^ 64
  | .finish t => t < 2 ^ 64
  | .tickets => True

end Verif.Parsec.Wire
