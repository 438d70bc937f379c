import Verif.Serial.Model

/-! Writers and readers of the wire format as separate programs, composed the way the C++ overloads
compose. Unlike `Ty` (one layout for both directions), a `Codec` says what `operator<<` does and what
`operator>>` does; that they fit is a theorem. -/
namespace Verif.Serial

/-- The overloads `operator<<` and `operator>>` of a type, and the values its C++ type can hold. -/
structure Codec (α : Type) where
  write : α → Bytes
  read : Bytes → Res α
  valid : α → Prop

namespace Codec

/-- Empty types, `src/util/serialization/format.hpp:52-64`. -/
def unit : Codec Unit where
  write _ := []
  read b := .ok () b
  valid _ := True

/-- Integers of `w` bytes and enumerations of that width, `src/util/serialization/format.hpp:72-91`,
`:436-451`. (Values of an enumeration are numbers here: `static_cast` accepts every one.) -/
def int (w : Nat) : Codec Nat where
  write n := encInt w n
  read b := decInt w b
  valid n := n < 256 ^ w

/-- `uint8_t` and enumerations over it. -/
def u8 : Codec Nat := int 1
/-- `uint32_t`, `int` and enumerations without a declared width. -/
def u32 : Codec Nat := int 4
/-- `uint64_t`, `size_t`. -/
def u64 : Codec Nat := int 8

/-- `bool`, `src/util/serialization/format.hpp:72-91`. -/
def flag : Codec Bool where
  write f := if f then [1] else [0]
  read b := decBool b
  valid _ := True

/-- `std::array` of `n` bytes, `src/util/serialization/format.hpp:101-115`; `evmc::address` and
`evmc::bytes32`, `src/parsec/agent/runners/evm/format.cpp:22-41`. -/
def bytes (n : Nat) : Codec Bytes where
  write v := v
  read b := Serial.read n b
  valid v := v.length = n

/-- `hash_t`. -/
def hash : Codec Bytes := bytes 32

/-- `cbdc::buffer`, `src/util/serialization/format.cpp:24-36`. -/
def buf : Codec Bytes where
  write v := encInt 8 v.length ++ v
  read b := decBuf b
  valid v := v.length ≤ maxBuf

/-- `std::optional`, `src/util/serialization/format.hpp:119-152`. -/
def opt {α : Type} (c : Codec α) : Codec (Option α) where
  write
    | none => [0]
    | some v => 1 :: c.write v
  read b := (decBool b).bind fun h r =>
    if h then (c.read r).bind fun v r' => .ok (some v) r' else .ok none r
  valid o := ∀ v, o = some v → c.valid v

/-- `std::pair`, `src/util/serialization/format.hpp:157-179`. -/
def pair {α β : Type} (a : Codec α) (b : Codec β) : Codec (α × β) where
  write p := a.write p.1 ++ b.write p.2
  read bs := (a.read bs).bind fun x r => (b.read r).bind fun y r' => .ok (x, y) r'
  valid p := a.valid p.1 ∧ b.valid p.2

/-- `std::vector`, `src/util/serialization/format.hpp:185-233`. -/
def vec {α : Type} (c : Codec α) : Codec (List α) where
  write vs := encInt 8 vs.length ++ vs.flatMap c.write
  read b := (decInt 8 b).bind fun n r => decN c.read n r
  valid vs := vs.length < 2 ^ 64 ∧ ∀ v ∈ vs, c.valid v

/-- `std::unordered_map`, `src/util/serialization/format.hpp:238-285`. -/
def umap {α β : Type} [DecidableEq α] (k : Codec α) (c : Codec β) : Codec (List (α × β)) where
  write vs := encInt 8 vs.length ++ vs.flatMap fun p => k.write p.1 ++ c.write p.2
  read b := (decInt 8 b).bind fun n r => decUmap k.read c.read n (r.length + n + 1) [] r
  valid vs := vs.length < 2 ^ 64 ∧ (vs.map Prod.fst).Nodup ∧ ∀ p ∈ vs, k.valid p.1 ∧ c.valid p.2

/-- `std::unordered_set`, `src/util/serialization/format.hpp:322-359`. -/
def uset {α : Type} [DecidableEq α] (c : Codec α) : Codec (List α) where
  write vs := encInt 8 vs.length ++ vs.flatMap c.write
  read b := (decInt 8 b).bind fun n r => decUset c.read n (r.length + n + 1) [] r
  valid vs := vs.length < 2 ^ 64 ∧ vs.Nodup ∧ ∀ v ∈ vs, c.valid v

/-- The index of a variant, `src/util/serialization/format.hpp:363-377`. -/
def tag (i : Nat) : Bytes := encInt 1 i

/-- `operator>>` of a variant and `get_variant`, `src/util/serialization/format.hpp:380-400`,
`:409-431`: an unknown index throws, a failed read of the index is taken for 0. -/
def alternatives {α : Type} (alts : List (Bytes → Res α)) (b : Bytes) : Res α :=
  match decInt 1 b with
  | .ok i r =>
    match alts[i]? with
    | some f => f r
    | none => .bad
  | .fail r =>
    match alts with
    | f :: _ => (f r).spoil
    | [] => .bad
  | .bad => .bad

/-- An alternative of a variant: read the value and wrap it. -/
def alt {α β : Type} (c : Codec α) (wrap : α → β) (b : Bytes) : Res β :=
  (c.read b).bind fun v r => .ok (wrap v) r

/-- A value is read back as it was written, and the cursor is left behind it. -/
def Law {α : Type} (c : Codec α) : Prop :=
  ∀ (a : α) (rest : Bytes), c.valid a → c.read (c.write a ++ rest) = .ok a rest

end Codec

end Verif.Serial
