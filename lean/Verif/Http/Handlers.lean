import Verif.Http.Answers
/-!
# The requests which the HTTP server of the EVM agent handles (C96-C99)

Model of `src/parsec/agent/runners/evm/http_server.cpp` and of the functions of
`src/parsec/agent/runners/evm/impl.cpp` which read.

Simplifications: an agent answers within the call of the handler and is asked again until
it does not answer with `retry`; what goes to the runner goes as a value, not as its
serialized form; memory which `m_host->ticket_number_key` and `m_host->log_index_key`
reach through a null pointer (src/parsec/agent/runners/evm/impl.cpp:157 and 233) is not
touched by these functions when they are given a ticket number
(src/parsec/agent/runners/evm/host.cpp:427-458), so this is taken to work.
-/
namespace Verif.Http

open Verif.Serial Verif.Evm Verif.Hex

/-- What a handler did: what it gave to the callback and what it returned. -/
abbrev Act := Outcome (List Json × Bool)

/-- What the handlers get from the broker, the agent, the shards and the machine. -/
structure Agent where
  curve : Curve
  /-- `m_broker->highest_ticket()` -/
  highest : UInt64
  /-- how many elements fit in memory -/
  limit : Nat
  /-- a read lock for a key: the value, or the error which the agent reports -/
  read : Bytes → Except Int Bytes
  /-- the key under which the transaction of a ticket number is found,
  src/parsec/agent/runners/evm/host.cpp:427-441 -/
  ticketKey : UInt64 → Bytes
  /-- `from_buffer<evm_tx_receipt>` -/
  receiptOf : Bytes → Option FullReceipt
  logs : LogQuery → Except Int (List LogIndex)
  execute : EvmTx → Option Int
  dryrun : Address → EvmTx → Except Int (Option (Option FullReceipt))

/-- `callback(ret); return true;` -/
def answer (j : Json) : Act := .ok ([j], true)

/-- `callback(ret); return false;` -/
def answerFalse (j : Json) : Act := .ok ([j], false)

/-- `return false;` -/
def bad : Act := .ok ([], false)

/-- `ret["result"] = ..`. -/
def result (j : Json) : Json := .obj [("result", j)]

/-- `ret["error"]["code"] = ..; ret["error"]["message"] = ..`. -/
def failure (code : Int) (message : Text) : Json :=
  .obj [("error", .obj [("code", .int code), ("message", .str message)])]

/-- `internal_error`, src/parsec/agent/runners/evm/http_server.hpp:64. -/
def internalError : Json := failure (-32603) (lit "Internal error")

/-- `not_found`, src/parsec/agent/runners/evm/http_server.hpp:65. -/
def notFound (message : String) : Json := failure (-32014) (lit message)

/-- `invalid_block_parameter`, src/parsec/agent/runners/evm/http_server.hpp:69. -/
def badBlock (message : String) : Json := failure (-32017) (lit message)

/-- `exec_tx`, src/parsec/agent/runners/evm/http_server.cpp:1388-1443: either the result is
given to the callback of the handler or the error is reported. -/
def execTx {α : Type} (r : Except Int α) (k : α → Outcome Json) : Act :=
  match r with
  | .error ec => answer (failure (-32088 - ec) (lit "Execution error"))
  | .ok a => do
    let j ← k a
    answer j

/-- The checks at the start of most handlers, for instance
src/parsec/agent/runners/evm/http_server.cpp:363: the first argument, if the parameters are
an array which is not empty. -/
def firstArg (params : Json) : Option Json :=
  match params with
  | .arr (a :: _) => some a
  | _ => none

/-- `from_hex(params_str.substr(2))`. -/
def hexArg (t : Text) : Outcome (Option Bytes) :=
  match argBytes t with
  | .crash => .throws
  | .val b => .ok b

/-- `from_buffer<evm_account>`, src/parsec/agent/runners/evm/format.cpp:17-20: what comes
after the 64 bytes is ignored. -/
def accountOf (b : Bytes) : Option Stored :=
  if h : 64 ≤ b.length then
    some { balance := ⟨b.take 32, by simp; omega⟩, nonce := ⟨(b.drop 32).take 32, by simp; omega⟩ }
  else none

/-- `make_buffer(evm_account)`, src/parsec/agent/runners/evm/format.cpp:11-15. -/
def accountBytes (s : Stored) : Bytes := s.balance.val ++ s.nonce.val

/-- `handle_get_transaction_count`, src/parsec/agent/runners/evm/http_server.cpp:360-410. -/
def getTransactionCount (ag : Agent) (params : Json) : Act :=
  match firstArg params with
  | some (.str t) => do
    match ← hexArg t with
    | none => bad
    | some key =>
      execTx (ag.read key) fun v =>
        if v = [] then .ok (result (number (.ofU64 1)))
        else match accountOf v with
          | none => .ok internalError
          | some acc => .ok (result (number (add acc.nonce (.ofU64 1))))
  | _ => bad

/-- `handle_get_balance`, src/parsec/agent/runners/evm/http_server.cpp:412-458. -/
def getBalance (ag : Agent) (params : Json) : Act :=
  match firstArg params with
  | some (.str t) => do
    match ← hexArg t with
    | none => bad
    | some key =>
      execTx (ag.read key) fun v =>
        if v = [] then .ok (result (.str (lit "0x0")))
        else match accountOf v with
          | none => .ok internalError
          | some acc => .ok (result (number acc.balance))
  | _ => bad

/-- `make_buffer(storage_key)`, src/parsec/agent/runners/evm/format.cpp:126-130. -/
def storageKey (a : Address) (k : Bytes) : Bytes := a.val ++ k

/-- `handle_get_storage_at`, src/parsec/agent/runners/evm/http_server.cpp:460-502. -/
def getStorageAt (ag : Agent) (params : Json) : Act :=
  match params with
  | .arr (.str a :: .str k :: _) =>
    match addressFromJson (.str a) with
    | none => bad
    | some addr =>
      match fromHexSized 32 k with
      | none => bad
      | some key =>
        execTx (ag.read (storageKey addr key)) fun v =>
          .ok (result (.str (if v = [] then zeroX else zeroX ++ toHex v)))
  | _ => bad

/-- The fields which are added to a transaction,
src/parsec/agent/runners/evm/http_server.cpp:549-553, 1055-1057 and 1234-1237. -/
def withBlock (tx : Json) (ticket : UInt64) : Json :=
  ((tx.set "blockHash" (hexText (Word.ofU64 ticket).val)).set "blockNumber"
    (number (.ofU64 ticket))).set "transactionIndex" (.str (lit "0x0"))

/-- What the receipt handlers do with what was read. -/
def withReceipt (ag : Agent) (key : Bytes) (k : FullReceipt → Json) : Act :=
  execTx (ag.read key) fun v =>
    if v = [] then .ok (notFound "Transaction not found")
    else match ag.receiptOf v with
      | none => .ok internalError
      | some r => .ok (result (k r))

/-- `handle_get_transaction_by_hash`, src/parsec/agent/runners/evm/http_server.cpp:504-558. -/
def getTransactionByHash (ag : Agent) (params : Json) : Act :=
  match firstArg params with
  | some (.str t) => do
    match ← hexArg t with
    | none => bad
    | some key => withReceipt ag key fun r => withBlock (txToJson ag.curve r.tx) r.ticket
  | _ => bad

/-- `handle_get_transaction_receipt`, src/parsec/agent/runners/evm/http_server.cpp:827-880. -/
def getTransactionReceipt (ag : Agent) (params : Json) : Act :=
  match firstArg params with
  | some (.str t) => do
    match ← hexArg t with
    | none => bad
    | some key => withReceipt ag key (receiptToJson ag.curve)
  | _ => answerFalse (badBlock "Invalid parameters to getTransactionReceipt")

/-- `run_get_account_code`, src/parsec/agent/runners/evm/impl.cpp:393-396: all bytes of the
argument are copied into an address of 20 bytes.  The key is that of `code_key`,
src/parsec/agent/runners/evm/format.cpp:115-118. -/
def codeKey (param : Bytes) : Outcome Bytes :=
  if 20 < param.length then .undefined
  else .ok (param ++ List.replicate (20 - param.length) 0 ++ [0])

/-- `handle_get_code`, src/parsec/agent/runners/evm/http_server.cpp:882-927. -/
def getCode (ag : Agent) (params : Json) : Act :=
  match firstArg params with
  | some (.str t) => do
    match ← hexArg t with
    | none => answerFalse (failure (-32088) (lit "Unable to decode getCode parameters: " ++ t))
    | some param => do
      let key ← codeKey param
      execTx (ag.read key) fun v =>
        .ok (result (.str (if v = [] then zeroX else zeroX ++ toHex v)))
  | _ => answerFalse (badBlock "Invalid parameters to getCode")

/-- `run_get_block` and `lock_tx_receipt`, src/parsec/agent/runners/evm/impl.cpp:147-218:
the transactions of the block.  The error is what the agent makes of `function_load`. -/
def Agent.block (ag : Agent) (ticket : UInt64) : Except Int (List FullReceipt) :=
  match ag.read (ag.ticketKey ticket) with
  | .error _ => .ok []
  | .ok v =>
    if v.length < 32 then .ok []
    else match ag.read v with
      | .error _ => .error 3
      | .ok b =>
        match ag.receiptOf b with
        | none => .error 3
        | some r => .ok [r]

/-- `fetch_block`, src/parsec/agent/runners/evm/http_server.cpp:948-992. -/
def fetchBlock (ag : Agent) (params : Json) (k : UInt64 → List FullReceipt → Outcome Json) : Act :=
  match params with
  | .arr (.str t :: rest) =>
    if rest.head?.elim true (·.isBool) then
      if t = lit "latest" then execTx (ag.block ag.highest) (k ag.highest)
      else match uint256beFromHex t with
        | none => answerFalse (badBlock "Invalid blockNumber / hash parameter")
        | some w => execTx (ag.block (toU64 w)) (k (toU64 w))
    else answerFalse (failure (-32017) (lit "Invalid parameters to getBlock (size: "
      ++ lit (toString params.size) ++ lit ")"))
  | _ => answerFalse (failure (-32017) (lit "Invalid parameters to getBlock (size: "
      ++ lit (toString params.size) ++ lit ")"))

/-- The time of a block, src/parsec/agent/runners/evm/http_server.cpp:1042-1046. -/
def blockTime (txs : List FullReceipt) : UInt64 :=
  txs.foldl (fun t r => if r.timestamp > t then r.timestamp else t) 0

/-- The answer of `handle_get_block`, src/parsec/agent/runners/evm/http_server.cpp:1024-1070. -/
def blockJson (c : Curve) (details : Bool) (ticket : UInt64) (txs : List FullReceipt) : Json :=
  .obj [("number", number (.ofU64 ticket)), ("hash", hexText (Word.ofU64 ticket).val),
    ("parentHash", hexText (Word.ofU64 (ticket - 1)).val), ("gasLimit", .str (lit "0xffffffff")),
    ("gasUsed", .str (lit "0x0")), ("baseFeePerGas", .str (lit "0x0")),
    ("miner", .str (lit "0x0000000000000000000000000000000000000000")),
    ("transactions", .arr (txs.map fun r =>
      if details then withBlock (txToJson c r.tx) ticket else hexText (txId c chainId r.tx))),
    ("nonce", .str (lit "0x0000000000000000")),
    ("timestamp", number (.ofU64 (blockTime txs))), ("extraData", hexText Word.zero.val),
    ("logsBloom", dataText (bloomOf c (txs.flatMap (·.logs)))), ("uncles", .arr [])]

/-- `handle_get_block`, src/parsec/agent/runners/evm/http_server.cpp:994-1072. -/
def getBlock (ag : Agent) (params : Json) : Act := do
  let p1 ← params.idx 1
  let details ← p1.asBool
  fetchBlock ag params fun ticket txs => .ok (result (blockJson ag.curve details ticket txs))

/-- `handle_get_block_txcount`, src/parsec/agent/runners/evm/http_server.cpp:1074-1107. -/
def getBlockTxCount (ag : Agent) (params : Json) : Act :=
  fetchBlock ag params fun _ txs => .ok (result (number (.ofU64 txs.length.toUInt64)))

/-- `handle_get_block_tx`, src/parsec/agent/runners/evm/http_server.cpp:1166-1241. -/
def getBlockTx (ag : Agent) (params : Json) : Act :=
  match params with
  | .arr (.str b :: .str i :: _) =>
    fetchBlock ag (.arr [.str b]) fun ticket txs =>
      match uint256beFromHex i with
      | none => .ok (failure (-32018) (lit "Transaction index was invalid - expect hex format"))
      | some w =>
        if txs.length < (toU64 w).toNat then .ok (notFound "Data was not found")
        else match txs[(toU64 w).toNat]? with
          | none => .undefined
          | some r => .ok (result (withBlock (txToJson ag.curve r.tx) ticket))
  | _ => answerFalse (badBlock "Invalid parameters to getTransacionByBlock{Hash/Number}AndIndex")

/-- The addresses of a log query, src/parsec/agent/runners/evm/http_server.cpp:560-594;
`none`: there are none or one is invalid. -/
def queryAddresses (q : Json) : Outcome (Option (List Address)) := do
  match ← q.key "address" with
  | .str t => .ok ((addressFromJson (.str t)).map ([·]))
  | .arr l =>
    .ok (if l = [] then none else l.mapM addressFromJson)
  | _ => .ok none

/-- The topics of a log query, src/parsec/agent/runners/evm/http_server.cpp:596-623. -/
def queryTopics (q : Json) : Outcome (Option (List Word)) := do
  match ← q.key "topics" with
  | .arr l => do
    let ts ← l.mapM fun v => v.asString
    .ok (if l = [] then none else ts.mapM fun t =>
      match fromHexSized 32 t with
      | some b => if h : b.length = 32 then some ⟨b, h⟩ else none
      | none => none)
  | _ => .ok none

/-- `latest` or a number, src/parsec/agent/runners/evm/http_server.cpp:649-679. -/
def blockNumber (ag : Agent) (t : Text) : Option UInt64 :=
  if t = lit "latest" then some ag.highest else (uint256beFromHex t).map toU64

/-- The blocks of a log query, src/parsec/agent/runners/evm/http_server.cpp:625-687; either
the error or the first and the last block. -/
def queryBlocks (ag : Agent) (q : Json) : Outcome (Except Json (UInt64 × UInt64)) := do
  match ← q.key "blockhash" with
  | .str t => .ok (match uint256beFromHex t with
      | none => .error (badBlock "Invalid blockNumber / hash parameter")
      | some w => .ok (toU64 w, toU64 w))
  | _ => do
    match ← q.key "fromBlock", ← q.key "toBlock" with
    | .str f, .str t => .ok (match blockNumber ag f, blockNumber ag t with
        | none, _ => .error (badBlock "Invalid fromBlock parameter")
        | _, none => .error (badBlock "Invalid toBlock parameter")
        | some f, some t => .ok (f, t))
    | _, _ => .ok (.error (badBlock "from/toBlock or blockHash parameter missing"))

/-- `run_get_logs`, src/parsec/agent/runners/evm/impl.cpp:231-235: the loop does not end
for the last ticket number there is (`C82_endless_violated`), so memory is exhausted. -/
def Agent.getLogs (ag : Agent) (q : LogQuery) : Outcome (Except Int (List LogIndex)) :=
  if q.toBlock = 0 - 1 then .throws else .ok (ag.logs q)

/-- The answer to a log query, src/parsec/agent/runners/evm/http_server.cpp:739-790. -/
def logsJson (q : LogQuery) (l : List LogIndex) : Json :=
  .arr (l.flatMap fun i => (i.logs.filter (wanted q.topics)).map fun g => logToJson g i.ticket i.txid.val)

/-- `handle_get_logs`, src/parsec/agent/runners/evm/http_server.cpp:792-825, with
`parse_evm_log_query`, 715-737, and the checks of the range, 689-710. -/
def getLogs (ag : Agent) (params : Json) : Act :=
  match firstArg params with
  | some (.obj q) => do
    match ← queryAddresses (.obj q) with
    | none => answer (failure (-32015) (lit "Address(es) in your query are either absent or invalid"))
    | some addresses => do
      match ← queryTopics (.obj q) with
      | none => answer (failure (-32016) (lit "Topic(s) in your query are either absent or invalid"))
      | some topics => do
        match ← queryBlocks ag (.obj q) with
        | .error e => answer e
        | .ok (first, last) =>
          let query : LogQuery := ⟨addresses, topics, first, last⟩
          match query.check with
          | .undefined => .undefined
          | .error =>
            if signed last < signed first then
              answer (failure (-32022) (lit "From block cannot be after to block"))
            else answer (failure (-32024) (lit
              "The product of address count and block range in your query cannot exceed 100"))
          | .accepted => do
            let r ← ag.getLogs query
            execTx r fun l => .ok (result (logsJson query l))
  | _ => answerFalse (badBlock "Invalid parameters to getLogs")

/-- The answer of `handle_fee_history`, src/parsec/agent/runners/evm/http_server.cpp:340-355.
A number which is a real is 0. -/
def feeJson (last blocks : UInt64) (rewards : Nat) : Json :=
  .obj [("oldestBlock", number (.ofU64 (last - blocks))),
    ("reward", .arr (List.replicate blocks.toNat (.arr (List.replicate rewards (.str (lit "0x0")))))),
    ("baseFeePerGas", .arr (List.replicate (blocks.toNat + 1) (.str (lit "0x0")))),
    ("gasUsedRatio", .arr (List.replicate blocks.toNat (.real 0 true)))]

/-- `handle_fee_history`, src/parsec/agent/runners/evm/http_server.cpp:308-358. -/
def feeHistory (ag : Agent) (params : Json) : Act :=
  match params with
  | .arr (.str n :: .str e :: .arr rewards :: _) =>
    match (if e = lit "latest" ∨ e = lit "pending" then some ag.highest
      else (uint256beFromJson e).map toU64) with
    | none => answer (failure (-32019) (lit "Invalid block identifier"))
    | some last => do
      let blocks ← stoull n
      let blocks := if blocks > last then last else blocks
      if ag.limit < blocks.toNat then .throws
      answer (result (feeJson last blocks rewards.length))
  | _ => bad

/-- `handle_decode_raw_transaction`, src/parsec/agent/runners/evm/http_server.cpp:268-281. -/
def decodeRawTransaction (ag : Agent) (params : Json) : Act := do
  let p ← params.idx 0
  match rawTxFromJson ag.limit p with
  | .ok tx => answer (result (txToJson ag.curve tx))
  | .refused => bad
  | .throws => .throws
  | .undefined => .undefined

/-- What `handle_send_raw_transaction` and `handle_send_transaction` do with a transaction,
src/parsec/agent/runners/evm/http_server.cpp:294-305 and 1374-1385. -/
def submit (ag : Agent) (tx : EvmTx) : Act :=
  execTx (match ag.execute tx with
    | some ec => .error ec
    | none => .ok ()) fun _ => .ok (result (hexText (txId ag.curve chainId tx)))

/-- `handle_send_raw_transaction`, src/parsec/agent/runners/evm/http_server.cpp:283-306. -/
def sendRawTransaction (ag : Agent) (params : Json) : Act := do
  let p ← params.idx 0
  match rawTxFromJson ag.limit p with
  | .ok tx => submit ag tx
  | .refused => bad
  | .throws => .throws
  | .undefined => .undefined

/-- `handle_send_transaction`, src/parsec/agent/runners/evm/http_server.cpp:1349-1386. -/
def sendTransaction (ag : Agent) (params : Json) : Act :=
  match firstArg params with
  | some (.obj q) => do
    let tx ← txFromJson (.obj q)
    submit ag tx
  | _ => answerFalse (badBlock "Invalid parameters to sendTransaction")

/-- `handle_call`, src/parsec/agent/runners/evm/http_server.cpp:1281-1347. -/
def call (ag : Agent) (params : Json) : Act :=
  match firstArg params with
  | some (.obj q) => do
    let p ← dryrunTxFromJson (.obj q)
    execTx (ag.dryrun p.1 p.2) fun r =>
      match r with
      | none => .ok (notFound "Data was not found")
      | some none => .ok internalError
      | some (some rcpt) => .ok (result (.str (zeroX ++ toHex rcpt.output)))
  | _ => answerFalse (badBlock "Parameter to call is invalid")

/-- `handle_sha3`, src/parsec/agent/runners/evm/http_server.cpp:1109-1131. -/
def sha3 (ag : Agent) (params : Json) : Act :=
  match firstArg params with
  | some (.str t) =>
    match bufferFromJson t with
    | none => bad
    | some b => answer (result (hexText (ag.curve.keccak b)))
  | _ => bad

/-- The handlers. -/
inductive Method where
  | sendRaw | send | txCount | call | gasPrice | code | balance | accounts | byHash | receipt
  | block | blockTxCount | blockTx | blockNumber | feeHistory | logs | storage
  | chainId | version | decodeRaw | sha3 | estimateGas
  | error (code : Int) (message : String)
  | number (n : UInt64)
  | boolean (b : Bool)
  deriving DecidableEq

/-- The messages of `handle_unsupported`,
src/parsec/agent/runners/evm/http_server.cpp:178-236. -/
def noWallet : Method := .error (-32001)
  "Wallet support not enabled - sign transactions locally before submitting"
/-- See `noWallet`. -/
def noFilters : Method := .error (-32001) "OpenCBDC does not support filters"
/-- See `noWallet`. -/
def noMining : Method := .error (-32002) "OpenCBDC does not use mining"
/-- See `noWallet`. -/
def noCompiler : Method := .error (-32004)
  "OpenCBDC does not provide compiler support - compile contracts locally before submitting"
/-- See `noWallet`. -/
def noUncles : Method := .error (-32006) "Uncle block not found"

/-- The names which `handle_supported`, `handle_static` and `handle_unsupported` know, in
that order, src/parsec/agent/runners/evm/http_server.cpp:67-259. -/
def methods : List (String × Method) :=
  [("eth_sendRawTransaction", .sendRaw), ("eth_sendTransaction", .send),
   ("eth_getTransactionCount", .txCount), ("eth_call", .call), ("eth_gasPrice", .gasPrice),
   ("eth_getCode", .code), ("eth_getBalance", .balance), ("eth_accounts", .accounts),
   ("eth_getTransactionByHash", .byHash), ("eth_getTransactionReceipt", .receipt),
   ("eth_getBlockByNumber", .block), ("eth_getBlockByHash", .block),
   ("eth_getBlockTransactionCountByHash", .blockTxCount),
   ("eth_getBlockTransactionCountByNumber", .blockTxCount),
   ("eth_getTransactionByBlockHashAndIndex", .blockTx),
   ("eth_getTransactionByBlockNumberAndIndex", .blockTx), ("eth_blockNumber", .blockNumber),
   ("eth_feeHistory", .feeHistory), ("eth_getLogs", .logs), ("eth_getStorageAt", .storage),
   ("eth_chainId", .chainId), ("net_version", .chainId), ("web3_clientVersion", .version),
   ("eth_decodeRawTransaction", .decodeRaw), ("web3_sha3", .sha3), ("eth_estimateGas", .estimateGas),
   ("eth_signTransaction", noWallet), ("eth_sign", noWallet), ("eth_uninstallFilter", noFilters),
   ("eth_newPendingTransactionFilter", noFilters), ("eth_newFilter", noFilters),
   ("eth_newBlockFilter", noFilters), ("eth_getFilterLogs", noFilters),
   ("eth_getFilterChanges", noFilters), ("eth_getWork", noMining), ("eth_submitWork", noMining),
   ("eth_submitHashrate", noMining),
   ("evm_increaseTime", .error (-32003) "OpenCBDC does not support time travel"),
   ("eth_getCompilers", noCompiler), ("eth_compileSolidity", noCompiler),
   ("eth_compileLLL", noCompiler), ("eth_compileSerpent", noCompiler),
   ("eth_coinbase", .error (-32005) "Coinbase payouts are not used in OpenCBDC"),
   ("eth_getUncleByBlockHashAndIndex", noUncles), ("eth_getUncleByBlockNumberAndIndex", noUncles),
   ("eth_getUncleCountByBlockHash", .number 0), ("eth_getUncleCountByBlockNumber", .number 0),
   ("eth_hashrate", .number 0), ("eth_mining", .boolean false), ("eth_syncing", .boolean false),
   ("net_listening", .boolean false), ("net_peerCount", .number 1)]

/-- The handler of a method; `none` is the last case of `handle_unsupported`,
src/parsec/agent/runners/evm/http_server.cpp:261-265. -/
def methodOf (name : Text) : Option Method :=
  (methods.find? fun p => lit p.1 == name).map (·.2)

/-- `request_handler`, src/parsec/agent/runners/evm/http_server.cpp:47-65, with the small
handlers, 929-946, 1133-1164 and 1243-1279. -/
def handle (ag : Agent) (name : Text) (params : Json) : Act :=
  match methodOf name with
  | none => answer (failure (-32099) (lit "Unknown method: " ++ name))
  | some .sendRaw => sendRawTransaction ag params
  | some .send => sendTransaction ag params
  | some .txCount => getTransactionCount ag params
  | some .call => call ag params
  | some .gasPrice => answer (result (.str (lit "0x0")))
  | some .code => getCode ag params
  | some .balance => getBalance ag params
  | some .accounts => answer (result (.arr []))
  | some .byHash => getTransactionByHash ag params
  | some .receipt => getTransactionReceipt ag params
  | some .block => getBlock ag params
  | some .blockTxCount => getBlockTxCount ag params
  | some .blockTx => getBlockTx ag params
  | some .blockNumber => answer (result (number (.ofU64 ag.highest)))
  | some .feeHistory => feeHistory ag params
  | some .logs => getLogs ag params
  | some .storage => getStorageAt ag params
  | some .chainId => answer (result (number (.ofU64 chainId)))
  | some .version => answer (result (.str (lit "opencbdc/v0.0")))
  | some .decodeRaw => decodeRawTransaction ag params
  | some .sha3 => sha3 ag params
  | some .estimateGas => answer (result (.str (lit "0xffffffffff")))
  | some (.error code message) => answer (failure code (lit message))
  | some (.number n) => answer (result (number (.ofU64 n)))
  | some (.boolean b) => answer (result (.bool b))

/-- What a client gets to see: a status and either the fields of an answer or a text. -/
inductive Response where
  | json (j : Json)
  /-- 400 -/
  | invalid
  /-- 405 -/
  | notAllowed
  /-- 503 -/
  | down
  /-- the answer to a request for the options -/
  | cors

/-- The HTTP request once all of its body has arrived: its method, and the body if it is
JSON. -/
structure Request where
  verb : Text
  body : Option Json

/-- `handle_response` with a value, src/util/rpc/http/json_rpc_http_server.cpp:269-275. -/
def respond (id : UInt64) (j : Json) : Response :=
  .json ((j.set "jsonrpc" (.str (lit "2.0"))).set "id" (.int id.toNat))

/-- `handle_request`, src/util/rpc/http/json_rpc_http_server.cpp:218-255: the responses and
whether it says that the request was handled. -/
def handleRequest (ag : Agent) (body : Option Json) : Outcome (List Response × Bool) :=
  match body with
  | none => .ok ([], false)
  | some req => do
    if !(← req.isMember "method") then .ok ([], false)
    else match ← req.key "method" with
      | .str name => do
        let params ← req.key "params"
        let id ← req.key "id"
        let r ← handle ag name params
        .ok (r.1.map (respond (id.uint64?.getD 0)), r.2)
      | _ => .ok ([], false)

/-- The last call of `callback` for a request, src/util/rpc/http/json_rpc_http_server.cpp:109-146:
every response for which `MHD_queue_response` is called. -/
def responses (ag : Agent) (cors running : Bool) (r : Request) : Outcome (List Response) :=
  if r.verb = lit "OPTIONS" ∧ cors then .ok [.cors]
  else if r.verb ≠ lit "POST" then .ok [.notAllowed]
  else if !running then .ok [.down]
  else do
    let x ← handleRequest ag r.body
    .ok (if x.2 then x.1 else x.1 ++ [.invalid])

/-- What the client gets: libmicrohttpd takes the first response and refuses others.
`none`: the client waits for ever. -/
def serve (ag : Agent) (cors running : Bool) (r : Request) : Outcome (Option Response) := do
  let l ← responses ag cors running r
  .ok l.head?

end Verif.Http
