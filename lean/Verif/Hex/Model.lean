import Verif.Evm.Math
/-!
# Hex text (C37, C74)

Model of the conversions in `src/util/common/buffer.cpp`,
`src/util/common/hash.cpp` and of those of the EVM runner that use them.  Text is
a list of characters of one byte each; the locale is the default one.
-/
namespace Verif.Hex

open Verif.Serial Verif.Evm

/-- A `std::string`. -/
abbrev Text := List UInt8

/-- The value of a hex digit of either case. -/
def digit (c : UInt8) : Option Nat :=
  if 48 ≤ c.toNat ∧ c.toNat ≤ 57 then some (c.toNat - 48)
  else if 97 ≤ c.toNat ∧ c.toNat ≤ 102 then some (c.toNat - 87)
  else if 65 ≤ c.toNat ∧ c.toNat ≤ 70 then some (c.toNat - 55)
  else none

/-- Characters skipped before a number (`std::isspace`). -/
def isSpace (c : UInt8) : Bool := c == 32 || (decide (9 ≤ c) && decide (c ≤ 13))

/-- The digits at the front of a text and the number they stand for. -/
def digits : Text → Nat → Bool → Option Nat
  | [], v, seen => if seen then some v else none
  | c :: rest, v, seen =>
    match digit c with
    | some d => digits rest (v * 16 + d) true
    | none => if seen then some v else none

/-- After the sign: an optional `0x`, then at least one digit.  A zero followed by
`x` counts as the prefix, so it must be followed by digits. -/
def unsignedPart : Text → Option Nat
  | 48 :: 120 :: rest => digits rest 0 false
  | 48 :: 88 :: rest => digits rest 0 false
  | s => digits s 0 false

/-- `s >> v` for an `unsigned int` and a stream in hex mode holding the text
(`std::num_get`): white space is skipped, a sign is accepted, reading stops at
the first other character; a negative number is taken modulo 2^32.  `none` means
that the stream fails.  The texts read here have at most two characters, so
numbers above 2^32 do not occur and are not treated. -/
def scan (s : Text) : Option Nat :=
  match s.dropWhile isSpace with
  | 43 :: rest => unsignedPart rest
  | 45 :: rest => (unsignedPart rest).map fun v => (2 ^ 32 - v) % 2 ^ 32
  | rest => unsignedPart rest

/-- One lower-case digit. -/
def digitChar (d : Nat) : UInt8 := if d < 10 then (48 + d).toUInt8 else (87 + d).toUInt8

/-- `ret << std::setw(2) << static_cast<int>(byte)`, hex, filled with zeros. -/
def hexByte (b : UInt8) : Text := [digitChar (b.toNat / 16), digitChar (b.toNat % 16)]

/-- `buffer::to_hex` (src/util/common/buffer.cpp:62-75); also `to_string` of a
hash (src/util/common/hash.cpp:15-24) and `evmc::hex`. -/
def toHex (b : Bytes) : Text := b.flatMap hexByte

/-- `buffer::to_hex_prefixed` (src/util/common/buffer.cpp:77-83). -/
def toHexPrefixed (b : Bytes) (pre : Text) : Text := pre ++ toHex b

/-- The loop of `buffer::from_hex` (src/util/common/buffer.cpp:93-103).  The
length is even there. -/
def fromPairs : Text → Option Bytes
  | a :: b :: rest =>
    match scan [a, b] with
    | none => none
    | some v => (fromPairs rest).map fun l => v.toUInt8 :: l
  | _ => some []

/-- `buffer::from_hex` (src/util/common/buffer.cpp:85-106). -/
def fromHex (s : Text) : Option Bytes :=
  if s.isEmpty || s.length % 2 != 0 || decide (s.length > 102400) then none
  else fromPairs s

/-- `buffer::from_hex_prefixed` (src/util/common/buffer.cpp:108-120). -/
def fromHexPrefixed (s pre : Text) : Option Bytes :=
  let h := if pre.isPrefixOf s then s.drop pre.length else s
  let h := if h.length % 2 != 0 then 48 :: h else h
  fromHex h

/-! ### Hashes -/

/-- What `hash_from_hex` leaves: the 32 bytes, each absent if it was never
written, or a write outside the array. -/
inductive HashRes where
  | ok (bytes : List (Option UInt8))
  | overflow
  deriving DecidableEq

/-- The loop of `hash_from_hex` (src/util/common/hash.cpp:29-35): `i` is the
index of the next byte.  A failed read leaves 0 in the number. -/
def hashLoop : Text → Nat → List (Option UInt8) → HashRes
  | [], _, acc => .ok acc
  | [a], i, acc =>
    if i < 32 then .ok (acc.set i (some (((scan [a]).getD 0).toUInt8)))
    else .overflow
  | a :: b :: rest, i, acc =>
    if i < 32 then
      hashLoop rest (i + 1) (acc.set i (some (((scan [a, b]).getD 0).toUInt8)))
    else .overflow

/-- `hash_from_hex` (src/util/common/hash.cpp:26-38).  `hash_t ret;` leaves the
bytes uninitialised. -/
def hashFromHex (s : Text) : HashRes := hashLoop s 0 (List.replicate 32 none)

/-! ### Numbers and arguments of the EVM runner -/

/-- "0x". -/
def zeroX : Text := [48, 120]

/-- Put bytes at the end of a zero word,
`memcpy(tmp.data_at(sizeof(ret) - bytes.size()), ...)`. -/
def padWord (b : Bytes) (h : b.length ≤ 32) : Word :=
  ⟨List.replicate (32 - b.length) 0 ++ b, by simp; omega⟩

/-- `uint256be_from_hex` (src/parsec/agent/runners/evm/util.cpp:81-99). -/
def uint256beFromHex (s : Text) : Option Word :=
  match fromHexPrefixed s zeroX with
  | none => none
  | some b => if h : b.length ≤ 32 then some (padWord b h) else none

/-- `to_hex_trimmed` (src/parsec/agent/runners/evm/util.cpp:35-54). -/
def toHexTrimmed (w : Word) (pre : Text) : Text :=
  match w.val.dropWhile (· == 0) with
  | [] => pre ++ [48]
  | rest =>
    let str := toHex rest
    pre ++ if str.take 1 = [48] then str.drop 1 else str

/-- `from_hex<T>` for a type of `size` bytes
(src/parsec/agent/runners/evm/util.hpp:53-71). -/
def fromHexSized (size : Nat) (s : Text) : Option Bytes :=
  match fromHexPrefixed s zeroX with
  | none => none
  | some b => if b.length = size then some b else none

/-- What becomes of a text argument. `crash`: `std::string::substr` throws
`std::out_of_range`; nothing in the program catches exceptions, so the process
ends. -/
inductive Arg where
  | crash
  | val (b : Option Bytes)
  deriving DecidableEq

/-- `from_hex(params_str.substr(2))`, the way text arguments are read
(src/parsec/agent/runners/evm/http_server.cpp:368-370, 420-422, 511-513, 840-842,
895-897 and src/parsec/agent/runners/evm/serialization.cpp:283-284). -/
def argBytes (s : Text) : Arg :=
  if s.length < 2 then .crash else .val (fromHex (s.drop 2))

/-- `buffer_from_json` for a string
(src/parsec/agent/runners/evm/serialization.cpp:258-267). -/
def bufferFromJson (s : Text) : Option Bytes :=
  if s.length > 2 then fromHex (s.drop 2) else none

/-- `uint256be_from_json` for a string (src/parsec/agent/runners/evm/serialization.cpp:245-256): reading a
`uint256be` from a buffer takes its first 32 bytes and fails if there are fewer
(src/parsec/agent/runners/evm/format.cpp:36-40). -/
def uint256beFromJson (s : Text) : Option Word :=
  match bufferFromJson s with
  | none => none
  | some b =>
    if h : 32 ≤ b.length then some ⟨b.take 32, by simp; omega⟩ else none

/-- `uint256be_or_default` (src/parsec/agent/runners/evm/serialization.cpp:269-276) as called by
`tx_from_json` (lines 307-317): the default is 0. -/
def quantity (s : Text) : Word := (uint256beFromJson s).getD .zero

end Verif.Hex
