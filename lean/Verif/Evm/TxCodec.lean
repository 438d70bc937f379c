import Verif.Evm.RlpLemmas
/-!
# The Ethereum transaction format (C52, C53, C77)

Model of `src/parsec/agent/runners/evm/serialization.cpp:27-206`, of
`rlp_encode_access_list` (src/parsec/agent/runners/evm/rlp_writer.cpp:85-102) and of `rlp_decode_access_list`
(src/parsec/agent/runners/evm/rlp_reader.cpp:92-117).
-/
namespace Verif.Evm

open Verif.Serial

/-- `evmc::address`. -/
abbrev Address := { b : Bytes // b.length = 20 }

/-- `evm_tx_type`, src/parsec/agent/runners/evm/messages.hpp:59-63. -/
inductive TxType where
  | legacy
  | accessList
  | dynamicFee
  deriving DecidableEq, Repr

/-- `evm_tx`, src/parsec/agent/runners/evm/messages.hpp:66-89. -/
structure EvmTx where
  type : TxType
  to : Option Address
  value : Word
  nonce : Word
  gasPrice : Word
  gasLimit : Word
  gasTipCap : Word
  gasFeeCap : Word
  input : Bytes
  accessList : List (Address × List Word)
  v : Word
  r : Word
  s : Word

/-- `evm_tx{}` with the given type. -/
def EvmTx.empty (type : TxType) : EvmTx :=
  { type, to := none, value := .zero, nonce := .zero, gasPrice := .zero, gasLimit := .zero,
    gasTipCap := .zero, gasFeeCap := .zero, input := [], accessList := [],
    v := .zero, r := .zero, s := .zero }

/-- `make_rlp_value(w, true)` for a number. -/
def numberRlp (w : Word) : Rlp := makeRlp w.val true

/-- `rlp_encode_access_list`, src/parsec/agent/runners/evm/rlp_writer.cpp:85-102. -/
def accessListRlp (l : List (Address × List Word)) : Rlp :=
  .array (l.map fun t =>
    .array [makeRlp t.1.val false, .array (t.2.map fun k => makeRlp k.val false)])

/-- The value to which the destination is turned, src/parsec/agent/runners/evm/serialization.cpp:165-168. -/
def toRlp (to : Option Address) : Rlp :=
  match to with
  | none => makeRlp Word.zero.val true
  | some a => makeRlp a.val false

/-- The elements of `rlp_tx` before the signature, src/parsec/agent/runners/evm/serialization.cpp:172-193. -/
def bodyRlp (chain : UInt64) (tx : EvmTx) : List Rlp :=
  (if tx.type = .legacy then [] else [numberRlp (.ofU64 chain)]) ++
  [numberRlp tx.nonce] ++
  (if tx.type = .dynamicFee then [numberRlp tx.gasTipCap, numberRlp tx.gasFeeCap]
    else [numberRlp tx.gasPrice]) ++
  [numberRlp tx.gasLimit, toRlp tx.to, numberRlp tx.value, .buffer tx.input] ++
  (if tx.type = .legacy then [] else [accessListRlp tx.accessList])

/-- The elements after those, src/parsec/agent/runners/evm/serialization.cpp:194-202. -/
def tailRlp (chain : UInt64) (forSighash : Bool) (tx : EvmTx) : List Rlp :=
  if forSighash then
    if tx.type = .legacy then
      [numberRlp (.ofU64 chain), makeRlp [0, 0, 0, 0] true, makeRlp [0, 0, 0, 0] true]
    else []
  else [numberRlp tx.v, numberRlp tx.r, numberRlp tx.s]

/-- The byte before the array, src/parsec/agent/runners/evm/serialization.cpp:175. -/
def typeByte : TxType → Bytes
  | .legacy => []
  | .accessList => [1]
  | .dynamicFee => [2]

/-- `tx_encode`, src/parsec/agent/runners/evm/serialization.cpp:155-206. -/
def txEncode (chain : UInt64) (forSighash : Bool) (tx : EvmTx) : Bytes :=
  typeByte tx.type ++ (Rlp.array (bodyRlp chain tx ++ tailRlp chain forSighash tx)).write

/-- One element of an access list, src/parsec/agent/runners/evm/rlp_reader.cpp:100-113. -/
def decodeTuple (t : Rlp) : Outcome (Address × List Word) := do
  let addr ← match t with
    | .array [a, _] => a.value 20
    | _ => .ok ⟨List.replicate 20 0, by simp⟩
  let keys ← t.valueAt 1
  let ks ← (List.range keys.size).mapM fun j => do
    let k ← keys.valueAt j
    k.value 32
  .ok (addr, ks)

/-- `rlp_decode_access_list`, src/parsec/agent/runners/evm/rlp_reader.cpp:92-117, and what `tx_decode` does with the
result, src/parsec/agent/runners/evm/serialization.cpp:126-130: something which is not an array counts as no access
list. -/
def decodeAccessList (v : Rlp) : Outcome (List (Address × List Word)) :=
  match v with
  | .buffer _ => .ok []
  | .array vs => vs.mapM decodeTuple

/-- `is_valid_rlp_tx`, src/parsec/agent/runners/evm/serialization.cpp:27-45. -/
def isValidRlpTx (type : TxType) (v : Rlp) : Bool :=
  match type with
  | .dynamicFee => v.size == 12
  | .accessList => v.size == 11
  | .legacy => v.size == 9

/-- The type of an encoded transaction and where its array starts,
src/parsec/agent/runners/evm/serialization.cpp:52-58. -/
def txType (bs : Bytes) : TxType × Bytes :=
  match bs with
  | b :: rest => if b = 1 then (.accessList, rest) else if b = 2 then (.dynamicFee, rest)
      else (.legacy, bs)
  | [] => (.legacy, [])

/-- `check_tx_decode`, src/parsec/agent/runners/evm/serialization.cpp:47-76.  The first byte of an empty buffer is
memory outside the buffer. -/
def checkTxDecode (limit : Nat) (bs : Bytes) : Outcome (TxType × Rlp) := do
  if bs = [] then .undefined
  let v ← rlpDecode limit (txType bs).2
  if isValidRlpTx (txType bs).1 v then .ok ((txType bs).1, v) else .refused

/-- The input data, src/parsec/agent/runners/evm/serialization.cpp:120-122: `size()` bytes are copied from the buffer
of the value, which is empty when the value is an array. -/
def decodeData (v : Rlp) : Outcome Bytes :=
  if v.size ≤ v.buf.length then .ok (v.buf.take v.size) else .undefined

/-- The destination, src/parsec/agent/runners/evm/serialization.cpp:115-118. -/
def decodeTo (v : Rlp) : Outcome (Option Address) :=
  if 0 < v.size then (do .ok (some (← v.value 20))) else .ok none

/-- `eip155_v_offset`, src/parsec/agent/runners/evm/serialization.hpp:25. -/
def eip155 : UInt64 := 35

/-- Whether `v` says that a legacy transaction is for another chain,
src/parsec/agent/runners/evm/serialization.cpp:135-146. -/
def wrongChain (chain : UInt64) (v : Word) : Bool :=
  eip155 ≤ toU64 v && (toU64 v - eip155) / 2 != chain

/-- What `tx_decode` does after `check_tx_decode`, src/parsec/agent/runners/evm/serialization.cpp:90-152: `element`
is the index of the next element. -/
def decodeFields (chain : UInt64) (type : TxType) (t : Rlp) : Outcome EvmTx := do
  let e := 0
  let (e, ok) ← if type = .legacy then .ok (e, true) else do
    let c ← (← t.valueAt e).value 32
    .ok (e + 1, toU64 c == chain)
  if !ok then .refused
  let nonce ← (← t.valueAt e).value 32
  let e := e + 1
  let (tip, fee, price, e) ← if type = .dynamicFee then do
      let tip ← (← t.valueAt e).value 32
      let fee ← (← t.valueAt (e + 1)).value 32
      .ok (tip, fee, Word.zero, e + 2)
    else do
      let price ← (← t.valueAt e).value 32
      .ok (Word.zero, Word.zero, price, e + 1)
  let gasLimit ← (← t.valueAt e).value 32
  let to ← decodeTo (← t.valueAt (e + 1))
  let value ← (← t.valueAt (e + 2)).value 32
  let input ← decodeData (← t.valueAt (e + 3))
  let e := e + 4
  let (accessList, e) ← if type = .legacy then .ok ([], e) else do
    .ok (← decodeAccessList (← t.valueAt e), e + 1)
  let v ← (← t.valueAt e).value 32
  if type = .legacy && wrongChain chain v then .refused
  let r ← (← t.valueAt (e + 1)).value 32
  let s ← (← t.valueAt (e + 2)).value 32
  .ok { type, to, value, nonce, gasPrice := price, gasLimit, gasTipCap := tip, gasFeeCap := fee,
        input, accessList, v, r, s }

/-- `tx_decode`, src/parsec/agent/runners/evm/serialization.cpp:78-153. -/
def txDecode (limit : Nat) (chain : UInt64) (bs : Bytes) : Outcome EvmTx := do
  let (type, t) ← checkTxDecode limit bs
  decodeFields chain type t

end Verif.Evm
