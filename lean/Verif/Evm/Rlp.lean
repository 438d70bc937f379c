import Verif.Evm.MathProps
import Verif.Serial.Lemmas
/-!
# Recursive length prefix encoding (C52)

Model of `src/parsec/agent/runners/evm/{src/parsec/agent/runners/evm/rlp.hpp,src/parsec/agent/runners/evm/rlp.cpp,src/parsec/agent/runners/evm/rlp_writer.cpp,
src/parsec/agent/runners/evm/rlp_reader.cpp}`.
-/
namespace Verif.Evm

open Verif.Serial

/-- `rlp_value`, src/parsec/agent/runners/evm/rlp.hpp:32-116.  A value of type `array` has an empty `m_buffer`
and a value of type `buffer` has no `m_values`: src/parsec/agent/runners/evm/rlp.cpp:10-19 and
src/parsec/agent/runners/evm/rlp_reader.cpp:17-18, 60-61, 66 keep it so. -/
inductive Rlp where
  | buffer (b : Bytes)
  | array (vs : List Rlp)

/-- `serialize_size`, src/parsec/agent/runners/evm/rlp_writer.cpp:63-83: the bytes of the `size_t` from the most
significant, without leading zeroes. -/
def serializeSize (n : Nat) : Bytes := ((encInt 8 n).reverse).dropWhile (· == 0)

/-- `serialize_rlp_length`, src/parsec/agent/runners/evm/rlp_writer.cpp:46-61. -/
def serializeLength (len offset : Nat) : Bytes :=
  if len ≤ 55 then [UInt8.ofNat (len + offset)]
  else UInt8.ofNat ((serializeSize len).length + 55 + offset) :: serializeSize len

/-- `write_buffer_to`, src/parsec/agent/runners/evm/rlp_writer.cpp:29-44. -/
def writeBuffer (b : Bytes) : Bytes :=
  match b with
  | [x] => if x < 0x80 then [x] else serializeLength 1 0x80 ++ [x]
  | b => serializeLength b.length 0x80 ++ b

mutual
/-- `write_to`, src/parsec/agent/runners/evm/rlp_writer.cpp:10-16, and `write_array_to`, src/parsec/agent/runners/evm/rlp_writer.cpp:18-27. -/
def Rlp.write : Rlp → Bytes
  | .buffer b => writeBuffer b
  | .array vs =>
    let buf := Rlp.writeAll vs
    serializeLength buf.length 0xc0 ++ buf
/-- The loop of `write_array_to`, src/parsec/agent/runners/evm/rlp_writer.cpp:21-23. -/
def Rlp.writeAll : List Rlp → Bytes
  | [] => []
  | v :: vs => v.write ++ Rlp.writeAll vs
end

/-- `deserialize_size`, src/parsec/agent/runners/evm/rlp_reader.cpp:80-90, of at most eight bytes. -/
def deserializeSize (buf : Bytes) : Nat := leNat ((List.replicate (8 - buf.length) 0 ++ buf).reverse)

/-- Reading a length of `k` bytes, src/parsec/agent/runners/evm/rlp_reader.cpp:35-39 and 47-54: when there are not
enough bytes the length buffer keeps its zeroes, nothing is consumed and the
serializer is no longer valid.  The result is the length, what is left and whether
the serializer is valid. -/
def readLength (k : Nat) (bs : Bytes) : Nat × Bytes × Bool :=
  if k ≤ bs.length then (deserializeSize (bs.take k), bs.drop k, true)
  else (0, bs, false)

/-- `read_buffer_from`, src/parsec/agent/runners/evm/rlp_reader.cpp:59-63; `none`: `extend` throws, because more
than `limit` bytes cannot be allocated.  When there are not enough bytes the buffer
keeps its zeroes. -/
def readBuffer (limit size : Nat) (bs : Bytes) (valid : Bool) : Option (Rlp × Bytes × Bool) :=
  if limit < size then none
  else if size ≤ bs.length then some (.buffer (bs.take size), bs.drop size, valid)
  else some (.buffer (List.replicate size 0), bs, false)

/-- The length of an array whose first byte is `b`, src/parsec/agent/runners/evm/rlp_reader.cpp:41-55. -/
def arrayLength (b : Nat) (rest : Bytes) : Nat × Bytes × Bool :=
  if b ≤ 0xc0 + 55 then (b - 0xc0, rest, true) else readLength (b - 0xc0 - 55) rest

mutual
/-- `read_from`, src/parsec/agent/runners/evm/rlp_reader.cpp:10-57, and `read_array_from`, 65-78.  The result is the
value, what is left to read and whether the serializer is valid; `none`: memory
exhausted.  When there are not enough bytes for an array, the array buffer keeps its
zeroes, of which each is then read as a value of one byte.  Simplification: the
recursion is bounded by `fuel`, of which `rlpDecode` gives enough
(`C52_total`). -/
def readFrom (limit : Nat) : Nat → Bytes → Option (Rlp × Bytes × Bool)
  | 0, _ => none
  | fuel + 1, bs =>
    match bs with
    | [] => some (.buffer [0], [], false)
    | b :: rest =>
      if b.toNat < 0x80 then some (.buffer [b], rest, true)
      else if b.toNat ≤ 0x80 + 55 then readBuffer limit (b.toNat - 0x80) rest true
      else if b.toNat < 0xc0 then
        let l := readLength (b.toNat - 0x80 - 55) rest
        readBuffer limit l.1 l.2.1 l.2.2
      else
        let l := arrayLength b.toNat rest
        if l.1 = 0 then some (.array [], l.2.1, l.2.2)
        else if limit < l.1 then none
        else if l.1 ≤ l.2.1.length then
          (readAll limit fuel (l.2.1.take l.1)).map fun vs => (.array vs, l.2.1.drop l.1, l.2.2)
        else some (.array (List.replicate l.1 (.buffer [0])), l.2.1, false)
/-- The loop of `read_array_from`, src/parsec/agent/runners/evm/rlp_reader.cpp:72-76.  Nothing looks at whether this
serializer is valid. -/
def readAll (limit : Nat) : Nat → Bytes → Option (List Rlp)
  | 0, _ => none
  | fuel + 1, bs =>
    match bs with
    | [] => some []
    | b :: rest =>
      match readFrom limit fuel (b :: rest) with
      | none => none
      | some (v, left, _) => (readAll limit fuel left).map (v :: ·)
end

/-- What a function of the code does. -/
inductive Outcome (α : Type) where
  | ok (a : α)
  /-- `std::nullopt` -/
  | refused
  /-- an exception which nothing catches -/
  | throws
  /-- memory outside a buffer is read or written -/
  | undefined
  deriving Repr

/-- What follows runs if there is a result. -/
def Outcome.bind {α β : Type} (x : Outcome α) (f : α → Outcome β) : Outcome β :=
  match x with
  | .ok a => f a
  | .refused => .refused
  | .throws => .throws
  | .undefined => .undefined

instance : Monad Outcome where
  pure := .ok
  bind := .bind

@[simp] theorem Outcome.bind_ok {α β : Type} (a : α) (f : α → Outcome β) :
    (Outcome.ok a >>= f) = f a := rfl
@[simp] theorem Outcome.bind_refused {α β : Type} (f : α → Outcome β) :
    (Outcome.refused >>= f) = .refused := rfl
@[simp] theorem Outcome.bind_throws {α β : Type} (f : α → Outcome β) :
    (Outcome.throws >>= f) = .throws := rfl
@[simp] theorem Outcome.bind_undefined {α β : Type} (f : α → Outcome β) :
    (Outcome.undefined >>= f) = .undefined := rfl
@[simp] theorem Outcome.pure_eq {α : Type} (a : α) : (pure a : Outcome α) = .ok a := rfl

/-- `from_buffer<rlp_value>`, src/parsec/agent/runners/evm/util.hpp:62-70: bytes left over are ignored. -/
def rlpDecode (limit : Nat) (bs : Bytes) : Outcome Rlp :=
  match readFrom limit (2 * bs.length + 1) bs with
  | none => .throws
  | some (v, _, true) => .ok v
  | some (_, _, false) => .refused

/-- `m_buffer`. -/
def Rlp.buf : Rlp → Bytes
  | .buffer b => b
  | .array _ => []

/-- `m_values`. -/
def Rlp.values : Rlp → List Rlp
  | .buffer _ => []
  | .array vs => vs

/-- `rlp_value::size`, src/parsec/agent/runners/evm/rlp.cpp:34-39. -/
def Rlp.size : Rlp → Nat
  | .buffer b => b.length
  | .array vs => vs.length

/-- `rlp_value::value_at`, src/parsec/agent/runners/evm/rlp.cpp:26-28. -/
def Rlp.valueAt (v : Rlp) (i : Nat) : Outcome Rlp :=
  match v.values[i]? with
  | some x => .ok x
  | none => .throws

/-- `rlp_value::value<T>`, src/parsec/agent/runners/evm/rlp.hpp:92-105, for a type of `n` bytes: the bytes are copied
to the offset `n - m_buffer.size()` of a buffer of `n` bytes, which lies outside the
buffer when there are more than `n`. -/
def Rlp.value (n : Nat) (v : Rlp) : Outcome { b : Bytes // b.length = n } :=
  if h : v.buf.length ≤ n then
    .ok ⟨List.replicate (n - v.buf.length) 0 ++ v.buf, by simp; omega⟩
  else .undefined

/-- `make_rlp_value`, src/parsec/agent/runners/evm/rlp.hpp:125-147, of something whose serialization is given. -/
def makeRlp (b : Bytes) (trim : Bool) : Rlp :=
  .buffer (if trim then b.dropWhile (· == 0) else b)

end Verif.Evm
