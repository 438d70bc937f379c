import Verif.Tx.Model
/-!
# 256-bit numbers (C51)

Model of `src/parsec/agent/runners/evm/math.cpp` and of the conversions in
`src/parsec/agent/runners/evm/util.cpp`.  `evmc::uint256be` is 32 bytes, the most significant first.
-/
namespace Verif.Evm

open Verif.Serial Verif.Tx

/-- `evmc::uint256be`. -/
abbrev Word := { b : Bytes // b.length = 32 }

/-- `v.bytes[i]`. -/
def Word.at (w : Word) (i : Nat) : UInt8 := (w.val[i]?).getD 0

/-- A word with the given bytes: `ret.bytes[i] = f(i)` for all `i`. -/
def Word.of (f : Nat → UInt8) : Word := ⟨(List.range 32).map f, by simp⟩

/-- Zero, `evmc::uint256be{}`. -/
def Word.zero : Word := .of fun _ => 0

/-- `v.bytes[i] = b`. -/
def Word.set (w : Word) (i : Nat) (b : UInt8) : Word := ⟨w.val.set i b, by simp [w.2]⟩

/-- `evmc::uint256be(uint64_t)`: the last eight bytes (evmc, `evmc.hpp`). -/
def Word.ofU64 (v : UInt64) : Word :=
  .of fun i => if i < 24 then 0 else (v.toNat / 256 ^ (31 - i)).toUInt8

/-- The loop of `operator+` (src/parsec/agent/runners/evm/math.cpp:20-24), for `n` more bytes: the next index
is `n - 1`.  The sum of three bytes fits in an `int`. -/
def addLoop (a b : Word) : Nat → UInt8 → Word → Word
  | 0, _, ret => ret
  | n + 1, carry, ret =>
    let tmp := (a.at n).toNat + (b.at n).toNat + carry.toNat
    addLoop a b n (if tmp > 255 then 1 else 0) (ret.set n (tmp % 256).toUInt8)

/-- `operator+` (src/parsec/agent/runners/evm/math.cpp:14-26). -/
def add (a b : Word) : Word := addLoop a b 32 0 .zero

/-- The loop of `operator-` (src/parsec/agent/runners/evm/math.cpp:36-42). -/
def subLoop (a b : Word) : Nat → UInt8 → Word → Word
  | 0, _, ret => ret
  | n + 1, borrow, ret =>
    let tmp1 := (a.at n).toNat + 256
    let tmp2 := (b.at n).toNat + borrow.toNat
    let res := tmp1 - tmp2
    subLoop a b n (if res ≤ 255 then 1 else 0) (ret.set n (res % 256).toUInt8)

/-- `operator-` (src/parsec/agent/runners/evm/math.cpp:28-44). -/
def sub (a b : Word) : Word := subLoop a b 32 0 .zero

/-- `operator<<` (src/parsec/agent/runners/evm/math.cpp:74-84): a shift by whole bytes. -/
def shl (a : Word) (count : Nat) : Word :=
  if count ≥ 32 then .zero
  else .of fun i => if i + count < 32 then a.at (i + count) else 0

/-- The body of the inner loop of `operator*` (src/parsec/agent/runners/evm/math.cpp:55-67). -/
def mulCell (a b : Word) (i : Nat) (row : Word) (j : Nat) : Word :=
  if b.at j = 0 then row
  else
    let shift := (32 - i - 1) + (32 - j - 1)
    if shift ≥ 32 then row
    else add row (shl (.ofU64 ((a.at i).toUInt64 * (b.at j).toUInt64)) shift)

/-- The body of the outer loop of `operator*` (src/parsec/agent/runners/evm/math.cpp:50-69). -/
def mulRow (a b : Word) (ret : Word) (i : Nat) : Word :=
  if a.at i = 0 then ret
  else add ret ((List.range 32).foldl (mulCell a b i) .zero)

/-- `operator*` (src/parsec/agent/runners/evm/math.cpp:46-72). -/
def mul (a b : Word) : Word := (List.range 32).foldl (mulRow a b) .zero

/-- `to_uint64` (src/parsec/agent/runners/evm/util.cpp:23-25). -/
def toU64 (v : Word) : UInt64 :=
  UInt64.ofNat ((v.val.drop 24).foldl (fun n b => n * 256 + b.toNat) 0)

/-! ### Specification -/

/-- The number that bytes stand for, the most significant first. -/
def bytesNat (l : Bytes) : Nat := l.foldl (fun n b => n * 256 + b.toNat) 0

/-- The number a word stands for. -/
def Word.nat (w : Word) : Nat := bytesNat w.val

end Verif.Evm
