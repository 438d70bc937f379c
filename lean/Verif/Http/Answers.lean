import Verif.Http.Json
/-!
# Transactions, receipts and logs in JSON (C96, C99)

Model of the second half of `src/parsec/agent/runners/evm/serialization.cpp` and of
`add_to_bloom` in `src/parsec/agent/runners/evm/util.cpp`.
-/
namespace Verif.Http

open Verif.Serial Verif.Evm Verif.Hex

/-- `opencbdc_chain_id`, src/parsec/agent/runners/evm/messages.hpp:20. -/
def chainId : UInt64 := 0xcbdc

/-- `"0x" + to_hex(..)` for an address, a word or a hash,
src/parsec/agent/runners/evm/util.cpp:27-33 and src/util/common/hash.cpp:15-24. -/
def hexText (b : Bytes) : Json := .str (zeroX ++ toHex b)

/-- `to_hex_trimmed` in an answer. -/
def number (w : Word) : Json := .str (toHexTrimmed w zeroX)

/-- `to_hex_prefixed` in an answer, or `"0x"` when there is nothing,
src/parsec/agent/runners/evm/serialization.cpp:358-365 and 441-448. -/
def dataText (b : Bytes) : Json := .str (if b = [] then zeroX else toHexPrefixed b zeroX)

/-- `access_list_to_json`, src/parsec/agent/runners/evm/serialization.cpp:464-477. -/
def accessListJson (al : List (Address × List Word)) : Json :=
  .arr (al.map fun t => .obj
    [("address", .str (toHex t.1.val)), ("storageKeys", .arr (t.2.map fun k => .str (toHex k.val)))])

/-- The number of a transaction type, src/parsec/agent/runners/evm/messages.hpp:59-63. -/
def typeNumber : TxType → UInt64
  | .legacy => 0
  | .accessList => 1
  | .dynamicFee => 2

/-- `tx_to_json`, src/parsec/agent/runners/evm/serialization.cpp:337-384. -/
def txToJson (c : Curve) (tx : EvmTx) : Json :=
  .obj (
    [("type", number (.ofU64 (typeNumber tx.type)))] ++
    (match tx.to with
     | some a => [("to", hexText a.val)]
     | none => []) ++
    [("value", number tx.value), ("nonce", number tx.nonce), ("gasPrice", number tx.gasPrice),
     ("gas", number tx.gasLimit)] ++
    (if tx.type = .dynamicFee then
      [("maxPriorityFeePerGas", number tx.gasTipCap), ("maxFeePerGas", number tx.gasFeeCap)]
     else []) ++
    [("input", dataText tx.input)] ++
    (if tx.type ≠ .legacy then [("accessList", accessListJson tx.accessList)] else []) ++
    [("hash", hexText (txId c chainId tx)), ("r", number tx.r), ("s", number tx.s),
     ("v", number tx.v), ("chainId", number (.ofU64 chainId))] ++
    (match checkSignature c chainId tx with
     | some a => [("from", hexText a.val)]
     | none => []))

/-- `evm_tx_receipt`, src/parsec/agent/runners/evm/messages.hpp:110-130. -/
structure FullReceipt extends Receipt where
  ticket : UInt64
  timestamp : UInt64

/-- The bits which `add_to_bloom` sets for an entry,
src/parsec/agent/runners/evm/util.cpp:58-79: three times two bytes of the hash are read as
a number, the less significant byte first, and the bits are counted from the last. -/
def bloomBits (hash : Bytes) : List Nat :=
  [0, 2, 4].map fun i =>
    0x7FF - ((hash[i]?.getD 0).toNat + 256 * (hash[i + 1]?.getD 0).toNat) % 0x800

/-- Set one bit, counted from the most significant of the first byte,
src/parsec/agent/runners/evm/util.cpp:70-77. -/
def setBit (bloom : Bytes) (bit : Nat) : Bytes :=
  bloom.set (bit / 8) ((bloom[bit / 8]?.getD 0) ||| (1 <<< (7 - bit % 8) : Nat).toUInt8)

/-- `add_to_bloom`, src/parsec/agent/runners/evm/util.cpp:58-79. -/
def addToBloom (c : Curve) (bloom entry : Bytes) : Bytes :=
  (bloomBits (c.keccak entry)).foldl setBit bloom

/-- The entries of a log, src/parsec/agent/runners/evm/serialization.cpp:410-413. -/
def bloomEntries (l : Log) : List Bytes := l.addr.val :: l.topics.map (·.val)

/-- `logsBloom`, src/parsec/agent/runners/evm/serialization.cpp:405-416 and
src/parsec/agent/runners/evm/http_server.cpp:1039-1052. -/
def bloomOf (c : Curve) (logs : List Log) : Bytes :=
  (logs.flatMap bloomEntries).foldl (addToBloom c) (List.replicate 256 0)

/-- `tx_log_to_json`, src/parsec/agent/runners/evm/serialization.cpp:436-462. -/
def logToJson (l : Log) (ticket : UInt64) (txid : Bytes) : Json :=
  .obj [("address", hexText l.addr.val), ("data", dataText l.data),
    ("topics", .arr (l.topics.map fun t => hexText t.val)),
    ("blockHash", hexText (Word.ofU64 ticket).val), ("blockNumber", number (.ofU64 ticket)),
    ("transactionIndex", .str (lit "0x0")), ("transactionHash", hexText txid),
    ("logIndex", .str (lit "0x0"))]

/-- `tx_receipt_to_json`, src/parsec/agent/runners/evm/serialization.cpp:386-434. -/
def receiptToJson (c : Curve) (r : FullReceipt) : Json :=
  let tx := txToJson c r.tx
  let txid := txId c chainId r.tx
  .obj (
    [("transaction", tx), ("from", tx.get "from"), ("to", tx.get "to")] ++
    (match r.created with
     | some a => [("contractAddress", hexText a.val)]
     | none => []) ++
    [("gasUsed", number (.ofU64 r.gasUsed)), ("cumulativeGasUsed", number (.ofU64 r.gasUsed)),
     ("logs", .arr (r.logs.map fun l => logToJson l r.ticket txid)),
     ("status", .str (if r.success then lit "0x1" else lit "0x0")),
     ("logsBloom", dataText (bloomOf c r.logs))] ++
    (if r.output = [] then [] else [("output_data", dataText r.output)]) ++
    [("success", .str (lit "0x1")), ("transactionIndex", .str (lit "0x0")),
     ("transactionHash", hexText txid), ("blockHash", hexText (Word.ofU64 r.ticket).val),
     ("blockNumber", number (.ofU64 r.ticket))])

/-- `address_from_json`, src/parsec/agent/runners/evm/serialization.cpp:226-243: the first
20 bytes of the text are taken. -/
def addressFromJson : Json → Option Address
  | .str t =>
    match bufferFromJson t with
    | none => none
    | some b => if h : 20 ≤ b.length then some ⟨b.take 20, by simp; omega⟩ else none
  | _ => none

/-- `uint256be_or_default(.., 0)`, src/parsec/agent/runners/evm/serialization.cpp:269-276. -/
def wordOrZero : Json → Word
  | .str t => quantity t
  | _ => .zero

/-- `buffer_from_json`, src/parsec/agent/runners/evm/serialization.cpp:258-267. -/
def bytesFromJson : Json → Option Bytes
  | .str t => bufferFromJson t
  | _ => none

/-- `raw_tx_from_json`, src/parsec/agent/runners/evm/serialization.cpp:278-291. -/
def rawTxFromJson (limit : Nat) : Json → Outcome EvmTx
  | .str t =>
    match argBytes t with
    | .crash => .throws
    | .val none => .refused
    | .val (some b) => txDecode limit chainId b
  | _ => .refused

/-- `json["type"]`, src/parsec/agent/runners/evm/serialization.cpp:297-300: the number is
reduced to 8 bits.  Simplification: a type which does not exist counts as legacy; in the
code the transaction keeps the number. -/
def typeFromJson (j : Json) : Outcome TxType := do
  let t ← j.key "type"
  if !t.empty && t.isNumeric then
    let n ← t.asInt
    .ok (if n % 256 = 1 then .accessList else if n % 256 = 2 then .dynamicFee else .legacy)
  else .ok .legacy

/-- `tx_from_json`, src/parsec/agent/runners/evm/serialization.cpp:293-335. -/
def txFromJson (j : Json) : Outcome EvmTx := do
  let type ← typeFromJson j
  let dest ← j.key "to"
  let value ← j.key "value"
  let nonce ← j.key "nonce"
  let gasPrice ← j.key "gasPrice"
  let gas ← j.key "gas"
  let tip ← j.key "maxPriorityFeePerGas"
  let fee ← j.key "maxFeePerGas"
  let data ← j.key "data"
  let r ← j.key "r"
  let s ← j.key "s"
  let v ← j.key "v"
  .ok { type, «to» := addressFromJson dest, value := wordOrZero value, nonce := wordOrZero nonce,
        gasPrice := wordOrZero gasPrice, gasLimit := wordOrZero gas, gasTipCap := wordOrZero tip,
        gasFeeCap := wordOrZero fee, input := (bytesFromJson data).getD [], accessList := [],
        v := wordOrZero v, r := wordOrZero r, s := wordOrZero s }

/-- `dryrun_tx_from_json`, src/parsec/agent/runners/evm/serialization.cpp:208-224. -/
def dryrunTxFromJson (j : Json) : Outcome (Address × EvmTx) := do
  let tx ← txFromJson j
  let sender ← j.key "from"
  .ok ((addressFromJson sender).getD ⟨List.replicate 20 0, by simp⟩, tx)

end Verif.Http
