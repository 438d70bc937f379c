import Verif.Evm.Logs
import Verif.Hex.Model
/-!
# JSON values (C96-C99)

The part of the library jsoncpp which the HTTP server of the EVM agent uses
(`Json::Value`).  The library is not part of the project; what its functions do with
values of another type than they expect is taken from its documentation and source: they
throw `Json::LogicError`, which nothing in the project catches.
-/
namespace Verif.Http

open Verif.Serial Verif.Evm Verif.Hex

/-- The characters of a text of the program. -/
def lit (s : String) : Text := s.toList.map fun c => c.toNat.toUInt8

/-- `Json::Value`.  A number which is not an integer is represented by its integer part
and by whether it is equal to it. -/
inductive Json where
  | null
  | bool (b : Bool)
  | int (i : Int)
  | real (whole : Int) (exact : Bool)
  | str (t : Text)
  | arr (l : List Json)
  | obj (l : List (String × Json))

/-- The value of a field of an object, if there is one. -/
def find (k : String) : List (String × Json) → Option Json
  | [] => none
  | (k', v) :: l => if k = k' then some v else find k l

/-- `Value::isMember`. -/
def Json.isMember (j : Json) (k : String) : Outcome Bool :=
  match j with
  | .null => .ok false
  | .obj l => .ok (find k l).isSome
  | _ => .throws

/-- `Value::operator[](const char*)`; a missing field reads as null. -/
def Json.key (j : Json) (k : String) : Outcome Json :=
  match j with
  | .null => .ok .null
  | .obj l => .ok ((find k l).getD .null)
  | _ => .throws

/-- `Value::operator[](ArrayIndex)`; a missing element reads as null. -/
def Json.idx (j : Json) (i : Nat) : Outcome Json :=
  match j with
  | .null => .ok .null
  | .arr l => .ok (l[i]?.getD .null)
  | _ => .throws

/-- `Value::isString`. -/
def Json.isString : Json → Bool
  | .str _ => true
  | _ => false

/-- `Value::isArray`. -/
def Json.isArray : Json → Bool
  | .arr _ => true
  | _ => false

/-- `Value::isObject`. -/
def Json.isObject : Json → Bool
  | .obj _ => true
  | _ => false

/-- `Value::isBool`. -/
def Json.isBool : Json → Bool
  | .bool _ => true
  | _ => false

/-- `Value::isNumeric`. -/
def Json.isNumeric : Json → Bool
  | .int _ => true
  | .real _ _ => true
  | _ => false

/-- `Value::isUInt64` and then `Value::asUInt64`. -/
def Json.uint64? : Json → Option UInt64
  | .int i => if 0 ≤ i ∧ i < 2 ^ 64 then some i.toNat.toUInt64 else none
  | .real i exact => if exact ∧ 0 ≤ i ∧ i < 2 ^ 64 then some i.toNat.toUInt64 else none
  | _ => none

/-- `Value::size`. -/
def Json.size : Json → Nat
  | .arr l => l.length
  | .obj l => l.length
  | _ => 0

/-- `Value::empty`. -/
def Json.empty : Json → Bool
  | .null => true
  | .arr l => l.isEmpty
  | .obj l => l.isEmpty
  | _ => false

/-- `Value::asString`.  Simplification: the text of a number which is not an integer is
that of its integer part, followed by a point. -/
def Json.asString : Json → Outcome Text
  | .null => .ok []
  | .bool b => .ok (if b then lit "true" else lit "false")
  | .int i => .ok (lit (toString i))
  | .real i _ => .ok (lit (toString i) ++ lit ".")
  | .str t => .ok t
  | .arr _ => .throws
  | .obj _ => .throws

/-- `Value::asBool`. -/
def Json.asBool : Json → Outcome Bool
  | .null => .ok false
  | .bool b => .ok b
  | .int i => .ok (i != 0)
  | .real i exact => .ok (!(i == 0 && exact))
  | _ => .throws

/-- `Value::asInt` of a number: 32 bits. -/
def Json.asInt : Json → Outcome Int
  | .int i => if -2 ^ 31 ≤ i ∧ i < 2 ^ 31 then .ok i else .throws
  | .real i exact =>
    if (-2 ^ 31 ≤ i ∧ i < 2 ^ 31 - 1) ∨ (i = 2 ^ 31 - 1 ∧ exact) then .ok i else .throws
  | _ => .throws

/-- `result[key] = value` for the answers which the server makes. -/
def Json.set (j : Json) (k : String) (v : Json) : Json :=
  match j with
  | .obj l => .obj (l.filter (fun p => p.1 ≠ k) ++ [(k, v)])
  | _ => .obj [(k, v)]

/-- A field of an answer, as a user reads it. -/
def Json.get (j : Json) (k : String) : Json :=
  match j with
  | .obj l => (find k l).getD .null
  | _ => .null

/-- The decimal digits at the start of a text. -/
def decimal : Text → Nat → Nat
  | [], n => n
  | c :: rest, n => if 48 ≤ c.toNat ∧ c.toNat ≤ 57 then decimal rest (10 * n + (c.toNat - 48)) else n

/-- Whether a text starts with a decimal digit. -/
def startsDigit : Text → Bool
  | c :: _ => decide (48 ≤ c.toNat ∧ c.toNat ≤ 57)
  | [] => false

/-- The digits after the sign of `std::stoull`: no digit or a number beyond 2^64 throws. -/
def stoullDigits (t : Text) : Outcome Nat :=
  if !startsDigit t then .throws
  else if decimal t 0 < 2 ^ 64 then .ok (decimal t 0) else .throws

/-- `std::stoull` in base 10. -/
def stoull (t : Text) : Outcome UInt64 :=
  match t.dropWhile isSpace with
  | 43 :: rest => do
    let n ← stoullDigits rest
    .ok n.toUInt64
  | 45 :: rest => do
    let n ← stoullDigits rest
    .ok (0 - n.toUInt64)
  | rest => do
    let n ← stoullDigits rest
    .ok n.toUInt64

end Verif.Http
