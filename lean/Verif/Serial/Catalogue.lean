import Verif.Serial.Codec

/-! Every message of the system with its two overloads, field by field in the order of the source. -/
namespace Verif.Serial.Cat

open Codec

/-! ### Transactions -/

/-- `transaction::out_point`, `src/uhs/transaction/messages.cpp:13-21`. -/
structure OutPoint where
  txId : Bytes
  index : Nat

/-- Its overloads, same place. -/
def outPoint : Codec OutPoint where
  write m :=
    hash.write m.txId ++
    (u64.write m.index)
  read b := Res.bind (
    (hash.read b).seq fun b =>
    u64.read b)
    fun v r => .ok {
      txId := v.1,
      index := v.2 } r
  valid m := hash.valid m.txId ∧
    u64.valid m.index

/-- `transaction::output`, `src/uhs/transaction/messages.cpp:23-31`. -/
structure Output where
  commitment : Bytes
  value : Nat

/-- Its overloads, same place. -/
def output : Codec Output where
  write m :=
    hash.write m.commitment ++
    (u64.write m.value)
  read b := Res.bind (
    (hash.read b).seq fun b =>
    u64.read b)
    fun v r => .ok {
      commitment := v.1,
      value := v.2 } r
  valid m := hash.valid m.commitment ∧
    u64.valid m.value

/-- `transaction::input`, `src/uhs/transaction/messages.cpp:33-41`. -/
structure Input where
  prevout : OutPoint
  prevoutData : Output

/-- Its overloads, same place. -/
def input : Codec Input where
  write m :=
    outPoint.write m.prevout ++
    (output.write m.prevoutData)
  read b := Res.bind (
    (outPoint.read b).seq fun b =>
    output.read b)
    fun v r => .ok {
      prevout := v.1,
      prevoutData := v.2 } r
  valid m := outPoint.valid m.prevout ∧
    output.valid m.prevoutData

/-- `transaction::full_tx`, `src/uhs/transaction/messages.cpp:43-51`. -/
structure FullTx where
  inputs : List Input
  outputs : List Output
  witness : List (List Nat)

/-- Its overloads, same place. -/
def fullTx : Codec FullTx where
  write m :=
    (vec input).write m.inputs ++
    ((vec output).write m.outputs ++
    ((vec (vec u8)).write m.witness))
  read b := Res.bind (
    ((vec input).read b).seq fun b =>
    ((vec output).read b).seq fun b =>
    (vec (vec u8)).read b)
    fun v r => .ok {
      inputs := v.1,
      outputs := v.2.1,
      witness := v.2.2 } r
  valid m := (vec input).valid m.inputs ∧
    (vec output).valid m.outputs ∧
    (vec (vec u8)).valid m.witness

/-- `transaction::compact_tx`, `src/uhs/transaction/messages.cpp:53-63`; the attestations by public key, `src/uhs/transaction/transaction.hpp:111-131`. -/
structure CompactTx where
  id : Bytes
  inputs : List Bytes
  uhsOutputs : List Bytes
  attestations : List (Bytes × Bytes)

/-- Its overloads, same place. -/
def compactTx : Codec CompactTx where
  write m :=
    hash.write m.id ++
    ((vec hash).write m.inputs ++
    ((vec hash).write m.uhsOutputs ++
    ((umap (bytes 32) (bytes 64)).write m.attestations)))
  read b := Res.bind (
    (hash.read b).seq fun b =>
    ((vec hash).read b).seq fun b =>
    ((vec hash).read b).seq fun b =>
    (umap (bytes 32) (bytes 64)).read b)
    fun v r => .ok {
      id := v.1,
      inputs := v.2.1,
      uhsOutputs := v.2.2.1,
      attestations := v.2.2.2 } r
  valid m := hash.valid m.id ∧
    (vec hash).valid m.inputs ∧
    (vec hash).valid m.uhsOutputs ∧
    (umap (bytes 32) (bytes 64)).valid m.attestations

/-- `validation::input_error`, `src/uhs/transaction/messages.cpp:65-74`. -/
structure InputError where
  code : Nat
  dataErr : Option Nat
  idx : Nat

/-- Its overloads, same place. -/
def inputError : Codec InputError where
  write m :=
    u8.write m.code ++
    ((opt u8).write m.dataErr ++
    (u64.write m.idx))
  read b := Res.bind (
    (u8.read b).seq fun b =>
    ((opt u8).read b).seq fun b =>
    u64.read b)
    fun v r => .ok {
      code := v.1,
      dataErr := v.2.1,
      idx := v.2.2 } r
  valid m := u8.valid m.code ∧
    (opt u8).valid m.dataErr ∧
    u64.valid m.idx

/-- `validation::output_error`, `src/uhs/transaction/messages.cpp:76-85`. -/
structure OutputError where
  code : Nat
  idx : Nat

/-- Its overloads, same place. -/
def outputError : Codec OutputError where
  write m :=
    u8.write m.code ++
    (u64.write m.idx)
  read b := Res.bind (
    (u8.read b).seq fun b =>
    u64.read b)
    fun v r => .ok {
      code := v.1,
      idx := v.2 } r
  valid m := u8.valid m.code ∧
    u64.valid m.idx

/-- `validation::witness_error`, `src/uhs/transaction/messages.cpp:87-96`. -/
structure WitnessError where
  code : Nat
  idx : Nat

/-- Its overloads, same place. -/
def witnessError : Codec WitnessError where
  write m :=
    u8.write m.code ++
    (u64.write m.idx)
  read b := Res.bind (
    (u8.read b).seq fun b =>
    u64.read b)
    fun v r => .ok {
      code := v.1,
      idx := v.2 } r
  valid m := u8.valid m.code ∧
    u64.valid m.idx

/-- `validation::tx_error`, `src/uhs/transaction/validation.hpp:112-113`. -/
inductive TxError where
  | input (v : InputError)
  | output (v : OutputError)
  | witness (v : WitnessError)
  | code (v : Nat)

/-- Its overloads. -/
def txError : Codec TxError where
  write
    | .input v => tag 0 ++ inputError.write v
    | .output v => tag 1 ++ outputError.write v
    | .witness v => tag 2 ++ witnessError.write v
    | .code v => tag 3 ++ u8.write v
  read := alternatives [
    alt inputError .input,
    alt outputError .output,
    alt witnessError .witness,
    alt u8 .code]
  valid
    | .input v => inputError.valid v
    | .output v => outputError.valid v
    | .witness v => witnessError.valid v
    | .code v => u8.valid v

/-! ### Watchtower -/

/-- `watchtower::tx_error_info`, `src/uhs/atomizer/watchtower/tx_error_messages.hpp:32-36`; the alternatives of the reader are listed in `src/uhs/atomizer/watchtower/tx_error_messages.cpp:176-181`, their fields written and read in `:139-165`. -/
inductive ErrorInfo where
  | sync (v : Unit)
  | inputsDne (v : List Bytes)
  | stxoRange (v : Unit)
  | incomplete (v : Unit)
  | inputsSpent (v : List Bytes)

/-- Its overloads. -/
def errorInfo : Codec ErrorInfo where
  write
    | .sync v => tag 0 ++ unit.write v
    | .inputsDne v => tag 1 ++ (vec hash).write v
    | .stxoRange v => tag 2 ++ unit.write v
    | .incomplete v => tag 3 ++ unit.write v
    | .inputsSpent v => tag 4 ++ (uset hash).write v
  read := alternatives [
    alt unit .sync,
    alt (vec hash) .inputsDne,
    alt unit .stxoRange,
    alt unit .incomplete,
    alt (uset hash) .inputsSpent]
  valid
    | .sync v => unit.valid v
    | .inputsDne v => (vec hash).valid v
    | .stxoRange v => unit.valid v
    | .incomplete v => unit.valid v
    | .inputsSpent v => (uset hash).valid v

/-- `watchtower::tx_error`, `src/uhs/atomizer/watchtower/tx_error_messages.cpp:167-183`. -/
structure TowerError where
  txId : Bytes
  info : ErrorInfo

/-- Its overloads, same place. -/
def towerError : Codec TowerError where
  write m :=
    hash.write m.txId ++
    (errorInfo.write m.info)
  read b := Res.bind (
    (hash.read b).seq fun b =>
    errorInfo.read b)
    fun v r => .ok {
      txId := v.1,
      info := v.2 } r
  valid m := hash.valid m.txId ∧
    errorInfo.valid m.info

/-- `watchtower::status_update_request`, `src/uhs/atomizer/watchtower/status_update_messages.cpp:10-20`. -/
structure StatusRequest where
  uhsIds : List (Bytes × List Bytes)

/-- Its overloads, same place. -/
def statusRequest : Codec StatusRequest where
  write m :=
    (umap hash (vec hash)).write m.uhsIds
  read b := ((umap hash (vec hash)).read b).bind fun x r => .ok ⟨x⟩ r
  valid m := (umap hash (vec hash)).valid m.uhsIds

/-- `watchtower::status_update_state`, `src/uhs/atomizer/watchtower/status_update_messages.cpp:22-36`: the status travels as a `uint32_t`. -/
structure StatusState where
  status : Nat
  blockHeight : Nat
  uhsId : Bytes

/-- Its overloads, same place. -/
def statusState : Codec StatusState where
  write m :=
    u32.write m.status ++
    (u64.write m.blockHeight ++
    (hash.write m.uhsId))
  read b := Res.bind (
    (u32.read b).seq fun b =>
    (u64.read b).seq fun b =>
    hash.read b)
    fun v r => .ok {
      status := v.1,
      blockHeight := v.2.1,
      uhsId := v.2.2 } r
  valid m := u32.valid m.status ∧
    u64.valid m.blockHeight ∧
    hash.valid m.uhsId

/-- `watchtower::status_request_check_success`, `src/uhs/atomizer/watchtower/status_update_messages.cpp:38-48`. -/
structure CheckSuccess where
  states : List (Bytes × List StatusState)

/-- Its overloads, same place. -/
def checkSuccess : Codec CheckSuccess where
  write m :=
    (umap hash (vec statusState)).write m.states
  read b := ((umap hash (vec statusState)).read b).bind fun x r => .ok ⟨x⟩ r
  valid m := (umap hash (vec statusState)).valid m.states

/-- `watchtower::best_block_height_response`, `src/uhs/atomizer/watchtower/messages.cpp:12-23`. -/
structure BestHeight where
  height : Nat

/-- Its overloads, same place. -/
def bestHeight : Codec BestHeight where
  write m :=
    u64.write m.height
  read b := (u64.read b).bind fun x r => .ok ⟨x⟩ r
  valid m := u64.valid m.height

/-- `watchtower::request`, written in `src/uhs/atomizer/watchtower/messages.cpp:25-29`, read in `src/uhs/atomizer/watchtower/watchtower.cpp:196-198`. -/
inductive TowerRequest where
  | status (v : StatusRequest)
  | height (v : Unit)

/-- Its overloads. -/
def towerRequest : Codec TowerRequest where
  write
    | .status v => tag 0 ++ statusRequest.write v
    | .height v => tag 1 ++ unit.write v
  read := alternatives [
    alt statusRequest .status,
    alt unit .height]
  valid
    | .status v => statusRequest.valid v
    | .height v => unit.valid v

/-- `watchtower::response`, written in `src/uhs/atomizer/watchtower/messages.cpp:31-35`, read in `src/uhs/atomizer/watchtower/watchtower.cpp:210-212`. -/
inductive TowerResponse where
  | success (v : CheckSuccess)
  | height (v : BestHeight)

/-- Its overloads. -/
def towerResponse : Codec TowerResponse where
  write
    | .success v => tag 0 ++ checkSuccess.write v
    | .height v => tag 1 ++ bestHeight.write v
  read := alternatives [
    alt checkSuccess .success,
    alt bestHeight .height]
  valid
    | .success v => checkSuccess.valid v
    | .height v => bestHeight.valid v

/-! ### Atomizer, archiver, sentinel -/

/-- `atomizer::block`, `src/uhs/atomizer/atomizer/format.cpp:14-22`. -/
structure Block where
  height : Nat
  transactions : List CompactTx

/-- Its overloads, same place. -/
def block : Codec Block where
  write m :=
    u64.write m.height ++
    ((vec compactTx).write m.transactions)
  read b := Res.bind (
    (u64.read b).seq fun b =>
    (vec compactTx).read b)
    fun v r => .ok {
      height := v.1,
      transactions := v.2 } r
  valid m := u64.valid m.height ∧
    (vec compactTx).valid m.transactions

/-- `atomizer::tx_notify_request`, `src/uhs/atomizer/atomizer/format.cpp:50-61`. -/
structure TxNotify where
  blockHeight : Nat
  tx : CompactTx
  attestations : List Nat

/-- Its overloads, same place. -/
def txNotify : Codec TxNotify where
  write m :=
    u64.write m.blockHeight ++
    (compactTx.write m.tx ++
    ((uset u64).write m.attestations))
  read b := Res.bind (
    (u64.read b).seq fun b =>
    (compactTx.read b).seq fun b =>
    (uset u64).read b)
    fun v r => .ok {
      blockHeight := v.1,
      tx := v.2.1,
      attestations := v.2.2 } r
  valid m := u64.valid m.blockHeight ∧
    compactTx.valid m.tx ∧
    (uset u64).valid m.attestations

/-- `atomizer::aggregate_tx_notification`, `src/uhs/atomizer/atomizer/format.cpp:63-75`. -/
structure AggNotification where
  oldest : Nat
  tx : CompactTx

/-- Its overloads, same place. -/
def aggNotification : Codec AggNotification where
  write m :=
    u64.write m.oldest ++
    (compactTx.write m.tx)
  read b := Res.bind (
    (u64.read b).seq fun b =>
    compactTx.read b)
    fun v r => .ok {
      oldest := v.1,
      tx := v.2 } r
  valid m := u64.valid m.oldest ∧
    compactTx.valid m.tx

/-- `atomizer::aggregate_tx_notify_request`, `src/uhs/atomizer/atomizer/format.cpp:77-87`. -/
structure AggNotify where
  txs : List AggNotification

/-- Its overloads, same place. -/
def aggNotify : Codec AggNotify where
  write m :=
    (vec aggNotification).write m.txs
  read b := ((vec aggNotification).read b).bind fun x r => .ok ⟨x⟩ r
  valid m := (vec aggNotification).valid m.txs

/-- `atomizer::prune_request`, `src/uhs/atomizer/atomizer/format.cpp:89-96`. -/
structure Prune where
  blockHeight : Nat

/-- Its overloads, same place. -/
def prune : Codec Prune where
  write m :=
    u64.write m.blockHeight
  read b := (u64.read b).bind fun x r => .ok ⟨x⟩ r
  valid m := u64.valid m.blockHeight

/-- `atomizer::get_block_request`, `src/uhs/atomizer/atomizer/format.cpp:108-115`. -/
structure GetBlock where
  blockHeight : Nat

/-- Its overloads, same place. -/
def getBlock : Codec GetBlock where
  write m :=
    u64.write m.blockHeight
  read b := (u64.read b).bind fun x r => .ok ⟨x⟩ r
  valid m := u64.valid m.blockHeight

/-- `atomizer::make_block_response`, `src/uhs/atomizer/atomizer/format.cpp:117-124`. -/
structure MadeBlock where
  blk : Block
  errs : List TowerError

/-- Its overloads, same place. -/
def madeBlock : Codec MadeBlock where
  write m :=
    block.write m.blk ++
    ((vec towerError).write m.errs)
  read b := Res.bind (
    (block.read b).seq fun b =>
    (vec towerError).read b)
    fun v r => .ok {
      blk := v.1,
      errs := v.2 } r
  valid m := block.valid m.blk ∧
    (vec towerError).valid m.errs

/-- `atomizer::get_block_response`, `src/uhs/atomizer/atomizer/format.cpp:126-133`. -/
structure GotBlock where
  blk : Block

/-- Its overloads, same place. -/
def gotBlock : Codec GotBlock where
  write m :=
    block.write m.blk
  read b := (block.read b).bind fun x r => .ok ⟨x⟩ r
  valid m := block.valid m.blk

/-- `atomizer::request`, `src/uhs/atomizer/atomizer/messages.hpp:97-98`. -/
inductive AtomizerRequest where
  | notify (v : TxNotify)
  | prune (v : Prune)
  | get (v : GetBlock)

/-- Its overloads. -/
def atomizerRequest : Codec AtomizerRequest where
  write
    | .notify v => tag 0 ++ txNotify.write v
    | .prune v => tag 1 ++ prune.write v
    | .get v => tag 2 ++ getBlock.write v
  read := alternatives [
    alt txNotify .notify,
    alt prune .prune,
    alt getBlock .get]
  valid
    | .notify v => txNotify.valid v
    | .prune v => prune.valid v
    | .get v => getBlock.valid v

/-- `atomizer::state_machine::request`, `src/uhs/atomizer/atomizer/state_machine.hpp:30-33`; `make_block_request` is empty. -/
inductive MachineRequest where
  | notify (v : AggNotify)
  | make (v : Unit)
  | get (v : GetBlock)
  | prune (v : Prune)

/-- Its overloads. -/
def machineRequest : Codec MachineRequest where
  write
    | .notify v => tag 0 ++ aggNotify.write v
    | .make v => tag 1 ++ unit.write v
    | .get v => tag 2 ++ getBlock.write v
    | .prune v => tag 3 ++ prune.write v
  read := alternatives [
    alt aggNotify .notify,
    alt unit .make,
    alt getBlock .get,
    alt prune .prune]
  valid
    | .notify v => aggNotify.valid v
    | .make v => unit.valid v
    | .get v => getBlock.valid v
    | .prune v => prune.valid v

/-- `atomizer::state_machine::response`, `src/uhs/atomizer/atomizer/state_machine.hpp:36-37`. -/
inductive MachineResponse where
  | made (v : MadeBlock)
  | got (v : GotBlock)
  | errors (v : List TowerError)

/-- Its overloads. -/
def machineResponse : Codec MachineResponse where
  write
    | .made v => tag 0 ++ madeBlock.write v
    | .got v => tag 1 ++ gotBlock.write v
    | .errors v => tag 2 ++ (vec towerError).write v
  read := alternatives [
    alt madeBlock .made,
    alt gotBlock .got,
    alt (vec towerError) .errors]
  valid
    | .made v => madeBlock.valid v
    | .got v => gotBlock.valid v
    | .errors v => (vec towerError).valid v

/-- `archiver::response`, `src/uhs/atomizer/archiver/client.hpp:18`. -/
def archiverResponse : Codec (Option Block) := opt block

/-- `sentinel::execute_response`, `src/uhs/sentinel/format.cpp:12-20`; `tx_status` has the width of `int`. -/
structure ExecuteResponse where
  status : Nat
  error : Option TxError

/-- Its overloads, same place. -/
def executeResponse : Codec ExecuteResponse where
  write m :=
    u32.write m.status ++
    ((opt txError).write m.error)
  read b := Res.bind (
    (u32.read b).seq fun b =>
    (opt txError).read b)
    fun v r => .ok {
      status := v.1,
      error := v.2 } r
  valid m := u32.valid m.status ∧
    (opt txError).valid m.error

/-- `sentinel::request`, `src/uhs/sentinel/interface.hpp:70`: both alternatives are full transactions. -/
inductive SentinelRequest where
  | execute (v : FullTx)
  | validate (v : FullTx)

/-- Its overloads. -/
def sentinelRequest : Codec SentinelRequest where
  write
    | .execute v => tag 0 ++ fullTx.write v
    | .validate v => tag 1 ++ fullTx.write v
  read := alternatives [
    alt fullTx .execute,
    alt fullTx .validate]
  valid
    | .execute v => fullTx.valid v
    | .validate v => fullTx.valid v

/-- `sentinel::response`, `src/uhs/sentinel/interface.hpp:73`; an attestation is a pair, `src/uhs/transaction/transaction.hpp:111`. -/
inductive SentinelResponse where
  | execute (v : ExecuteResponse)
  | validate (v : Bytes × Bytes)

/-- Its overloads. -/
def sentinelResponse : Codec SentinelResponse where
  write
    | .execute v => tag 0 ++ executeResponse.write v
    | .validate v => tag 1 ++ (pair (bytes 32) (bytes 64)).write v
  read := alternatives [
    alt executeResponse .execute,
    alt (pair (bytes 32) (bytes 64)) .validate]
  valid
    | .execute v => executeResponse.valid v
    | .validate v => (pair (bytes 32) (bytes 64)).valid v

/-! ### Locking shards -/

/-- `locking_shard::tx`, `src/uhs/twophase/locking_shard/format.cpp:12-19`. -/
structure ShardTx where
  tx : CompactTx

/-- Its overloads, same place. -/
def shardTx : Codec ShardTx where
  write m :=
    compactTx.write m.tx
  read b := (compactTx.read b).bind fun x r => .ok ⟨x⟩ r
  valid m := compactTx.valid m.tx

/-- The parameters of a request, `src/uhs/twophase/locking_shard/messages.hpp:20-36`. -/
inductive ShardParams where
  | lock (v : List ShardTx)
  | apply (v : List Bool)
  | discard (v : Unit)

/-- Its overloads. -/
def shardParams : Codec ShardParams where
  write
    | .lock v => tag 0 ++ (vec shardTx).write v
    | .apply v => tag 1 ++ (vec flag).write v
    | .discard v => tag 2 ++ unit.write v
  read := alternatives [
    alt (vec shardTx) .lock,
    alt (vec flag) .apply,
    alt unit .discard]
  valid
    | .lock v => (vec shardTx).valid v
    | .apply v => (vec flag).valid v
    | .discard v => unit.valid v

/-- `locking_shard::rpc::request`, `src/uhs/twophase/locking_shard/format.cpp:21-29`. -/
structure ShardRequest where
  dtxId : Bytes
  params : ShardParams

/-- Its overloads, same place. -/
def shardRequest : Codec ShardRequest where
  write m :=
    hash.write m.dtxId ++
    (shardParams.write m.params)
  read b := Res.bind (
    (hash.read b).seq fun b =>
    shardParams.read b)
    fun v r => .ok {
      dtxId := v.1,
      params := v.2 } r
  valid m := hash.valid m.dtxId ∧
    shardParams.valid m.params

/-- `locking_shard::rpc::response`, `src/uhs/twophase/locking_shard/messages.hpp:40-62`. -/
inductive ShardResponse where
  | lock (v : List Bool)
  | apply (v : Unit)
  | discard (v : Unit)

/-- Its overloads. -/
def shardResponse : Codec ShardResponse where
  write
    | .lock v => tag 0 ++ (vec flag).write v
    | .apply v => tag 1 ++ unit.write v
    | .discard v => tag 2 ++ unit.write v
  read := alternatives [
    alt (vec flag) .lock,
    alt unit .apply,
    alt unit .discard]
  valid
    | .lock v => (vec flag).valid v
    | .apply v => unit.valid v
    | .discard v => unit.valid v

/-- `locking_shard::rpc::tx_status_request`, `src/uhs/twophase/locking_shard/format.cpp:31-40`. -/
structure TxStatus where
  txId : Bytes

/-- Its overloads, same place. -/
def txStatus : Codec TxStatus where
  write m :=
    hash.write m.txId
  read b := (hash.read b).bind fun x r => .ok ⟨x⟩ r
  valid m := hash.valid m.txId

/-- `locking_shard::rpc::uhs_status_request`, `src/uhs/twophase/locking_shard/format.cpp:42-51`. -/
structure UhsStatus where
  uhsId : Bytes

/-- Its overloads, same place. -/
def uhsStatus : Codec UhsStatus where
  write m :=
    hash.write m.uhsId
  read b := (hash.read b).bind fun x r => .ok ⟨x⟩ r
  valid m := hash.valid m.uhsId

/-- `locking_shard::rpc::status_request`, `src/uhs/twophase/locking_shard/status_messages.hpp:28`. -/
inductive ShardStatus where
  | uhs (v : UhsStatus)
  | tx (v : TxStatus)

/-- Its overloads. -/
def shardStatus : Codec ShardStatus where
  write
    | .uhs v => tag 0 ++ uhsStatus.write v
    | .tx v => tag 1 ++ txStatus.write v
  read := alternatives [
    alt uhsStatus .uhs,
    alt txStatus .tx]
  valid
    | .uhs v => uhsStatus.valid v
    | .tx v => txStatus.valid v

/-! ### Runtime locking shards, ticket machine, agent -/

/-- `try_lock_request`, `src/parsec/runtime_locking_shard/format.cpp:11-23`. -/
structure TryLock where
  ticket : Nat
  broker : Nat
  key : Bytes
  lockType : Nat
  firstLock : Bool

/-- Its overloads, same place. -/
def tryLock : Codec TryLock where
  write m :=
    u64.write m.ticket ++
    (u64.write m.broker ++
    (buf.write m.key ++
    (u8.write m.lockType ++
    (flag.write m.firstLock))))
  read b := Res.bind (
    (u64.read b).seq fun b =>
    (u64.read b).seq fun b =>
    (buf.read b).seq fun b =>
    (u8.read b).seq fun b =>
    flag.read b)
    fun v r => .ok {
      ticket := v.1,
      broker := v.2.1,
      key := v.2.2.1,
      lockType := v.2.2.2.1,
      firstLock := v.2.2.2.2 } r
  valid m := u64.valid m.ticket ∧
    u64.valid m.broker ∧
    buf.valid m.key ∧
    u8.valid m.lockType ∧
    flag.valid m.firstLock

/-- `prepare_request`, `src/parsec/runtime_locking_shard/format.cpp:37-49`. -/
structure Prepare where
  ticket : Nat
  updates : List (Bytes × Bytes)
  broker : Nat

/-- Its overloads, same place. -/
def prepare : Codec Prepare where
  write m :=
    u64.write m.ticket ++
    ((umap buf buf).write m.updates ++
    (u64.write m.broker))
  read b := Res.bind (
    (u64.read b).seq fun b =>
    ((umap buf buf).read b).seq fun b =>
    u64.read b)
    fun v r => .ok {
      ticket := v.1,
      updates := v.2.1,
      broker := v.2.2 } r
  valid m := u64.valid m.ticket ∧
    (umap buf buf).valid m.updates ∧
    u64.valid m.broker

/-- `commit_request`, `src/parsec/runtime_locking_shard/format.cpp:25-35`. -/
structure Commit where
  ticket : Nat

/-- Its overloads, same place. -/
def commit : Codec Commit where
  write m :=
    u64.write m.ticket
  read b := (u64.read b).bind fun x r => .ok ⟨x⟩ r
  valid m := u64.valid m.ticket

/-- `rollback_request`, `src/parsec/runtime_locking_shard/format.cpp:51-61`. -/
structure Rollback where
  ticket : Nat

/-- Its overloads, same place. -/
def rollback : Codec Rollback where
  write m :=
    u64.write m.ticket
  read b := (u64.read b).bind fun x r => .ok ⟨x⟩ r
  valid m := u64.valid m.ticket

/-- `finish_request`, `src/parsec/runtime_locking_shard/format.cpp:63-73`. -/
structure Finish where
  ticket : Nat

/-- Its overloads, same place. -/
def finish : Codec Finish where
  write m :=
    u64.write m.ticket
  read b := (u64.read b).bind fun x r => .ok ⟨x⟩ r
  valid m := u64.valid m.ticket

/-- `get_tickets_request`, `src/parsec/runtime_locking_shard/format.cpp:75-86`. -/
structure GetTickets where
  broker : Nat

/-- Its overloads, same place. -/
def getTickets : Codec GetTickets where
  write m :=
    u64.write m.broker
  read b := (u64.read b).bind fun x r => .ok ⟨x⟩ r
  valid m := u64.valid m.broker

/-- `runtime_locking_shard::rpc::request`, `src/parsec/runtime_locking_shard/messages.hpp:62-67`. -/
inductive RuntimeRequest where
  | tryLock (v : TryLock)
  | prepare (v : Prepare)
  | commit (v : Commit)
  | rollback (v : Rollback)
  | finish (v : Finish)
  | getTickets (v : GetTickets)

/-- Its overloads. -/
def runtimeRequest : Codec RuntimeRequest where
  write
    | .tryLock v => tag 0 ++ tryLock.write v
    | .prepare v => tag 1 ++ prepare.write v
    | .commit v => tag 2 ++ commit.write v
    | .rollback v => tag 3 ++ rollback.write v
    | .finish v => tag 4 ++ finish.write v
    | .getTickets v => tag 5 ++ getTickets.write v
  read := alternatives [
    alt tryLock .tryLock,
    alt prepare .prepare,
    alt commit .commit,
    alt rollback .rollback,
    alt finish .finish,
    alt getTickets .getTickets]
  valid
    | .tryLock v => tryLock.valid v
    | .prepare v => prepare.valid v
    | .commit v => commit.valid v
    | .rollback v => rollback.valid v
    | .finish v => finish.valid v
    | .getTickets v => getTickets.valid v

/-- `wounded_details`, `src/parsec/runtime_locking_shard/format.cpp:99-108`. -/
structure Wounded where
  ticket : Nat
  key : Bytes

/-- Its overloads, same place. -/
def wounded : Codec Wounded where
  write m :=
    u64.write m.ticket ++
    (buf.write m.key)
  read b := Res.bind (
    (u64.read b).seq fun b =>
    buf.read b)
    fun v r => .ok {
      ticket := v.1,
      key := v.2 } r
  valid m := u64.valid m.ticket ∧
    buf.valid m.key

/-- `shard_error`, `src/parsec/runtime_locking_shard/format.cpp:88-97`. -/
structure ShardError where
  code : Nat
  wounded : Option Wounded

/-- Its overloads, same place. -/
def shardError : Codec ShardError where
  write m :=
    u8.write m.code ++
    ((opt wounded).write m.wounded)
  read b := Res.bind (
    (u8.read b).seq fun b =>
    (opt wounded).read b)
    fun v r => .ok {
      code := v.1,
      wounded := v.2 } r
  valid m := u8.valid m.code ∧
    (opt wounded).valid m.wounded

/-- `try_lock_return_type`, `src/parsec/runtime_locking_shard/interface.hpp:121`. -/
inductive TryLockResult where
  | value (v : Bytes)
  | error (v : ShardError)

/-- Its overloads. -/
def tryLockResult : Codec TryLockResult where
  write
    | .value v => tag 0 ++ buf.write v
    | .error v => tag 1 ++ shardError.write v
  read := alternatives [
    alt buf .value,
    alt shardError .error]
  valid
    | .value v => buf.valid v
    | .error v => shardError.valid v

/-- `get_tickets_return_type`, `src/parsec/runtime_locking_shard/interface.hpp:217-222`. -/
inductive TicketsResult where
  | tickets (v : List (Nat × Nat))
  | error (v : Nat)

/-- Its overloads. -/
def ticketsResult : Codec TicketsResult where
  write
    | .tickets v => tag 0 ++ (umap u64 u8).write v
    | .error v => tag 1 ++ u8.write v
  read := alternatives [
    alt (umap u64 u8) .tickets,
    alt u8 .error]
  valid
    | .tickets v => (umap u64 u8).valid v
    | .error v => u8.valid v

/-- `runtime_locking_shard::rpc::response`, `src/parsec/runtime_locking_shard/messages.hpp:69-71`: variants inside a variant. -/
inductive RuntimeResponse where
  | tryLock (v : TryLockResult)
  | prepare (v : Option ShardError)
  | tickets (v : TicketsResult)

/-- Its overloads. -/
def runtimeResponse : Codec RuntimeResponse where
  write
    | .tryLock v => tag 0 ++ tryLockResult.write v
    | .prepare v => tag 1 ++ (opt shardError).write v
    | .tickets v => tag 2 ++ ticketsResult.write v
  read := alternatives [
    alt tryLockResult .tryLock,
    alt (opt shardError) .prepare,
    alt ticketsResult .tickets]
  valid
    | .tryLock v => tryLockResult.valid v
    | .prepare v => (opt shardError).valid v
    | .tickets v => ticketsResult.valid v

/-- `replicated_prepare_request`, `src/parsec/runtime_locking_shard/format.cpp:110-123`. -/
structure RepPrepare where
  ticket : Nat
  broker : Nat
  updates : List (Bytes × Bytes)

/-- Its overloads, same place. -/
def repPrepare : Codec RepPrepare where
  write m :=
    u64.write m.ticket ++
    (u64.write m.broker ++
    ((umap buf buf).write m.updates))
  read b := Res.bind (
    (u64.read b).seq fun b =>
    (u64.read b).seq fun b =>
    (umap buf buf).read b)
    fun v r => .ok {
      ticket := v.1,
      broker := v.2.1,
      updates := v.2.2 } r
  valid m := u64.valid m.ticket ∧
    u64.valid m.broker ∧
    (umap buf buf).valid m.updates

/-- `replicated_request`, `src/parsec/runtime_locking_shard/messages.hpp:88-91`; `replicated_get_tickets_request` is empty, `src/parsec/runtime_locking_shard/format.cpp:125-136`. -/
inductive RepRequest where
  | prepare (v : RepPrepare)
  | commit (v : Commit)
  | finish (v : Finish)
  | getTickets (v : Unit)

/-- Its overloads. -/
def repRequest : Codec RepRequest where
  write
    | .prepare v => tag 0 ++ repPrepare.write v
    | .commit v => tag 1 ++ commit.write v
    | .finish v => tag 2 ++ finish.write v
    | .getTickets v => tag 3 ++ unit.write v
  read := alternatives [
    alt repPrepare .prepare,
    alt commit .commit,
    alt finish .finish,
    alt unit .getTickets]
  valid
    | .prepare v => repPrepare.valid v
    | .commit v => commit.valid v
    | .finish v => finish.valid v
    | .getTickets v => unit.valid v

/-- `replicated_shard_interface::ticket_type`, `src/parsec/runtime_locking_shard/format.cpp:138-149`. -/
structure RepTicket where
  state : Nat
  broker : Nat
  updates : List (Bytes × Bytes)

/-- Its overloads, same place. -/
def repTicket : Codec RepTicket where
  write m :=
    u8.write m.state ++
    (u64.write m.broker ++
    ((umap buf buf).write m.updates))
  read b := Res.bind (
    (u8.read b).seq fun b =>
    (u64.read b).seq fun b =>
    (umap buf buf).read b)
    fun v r => .ok {
      state := v.1,
      broker := v.2.1,
      updates := v.2.2 } r
  valid m := u8.valid m.state ∧
    u64.valid m.broker ∧
    (umap buf buf).valid m.updates

/-- `replicated_shard_interface::get_tickets_return_type`, `src/parsec/runtime_locking_shard/replicated_shard_interface.hpp:99`. -/
inductive RepTickets where
  | tickets (v : List (Nat × RepTicket))
  | error (v : Nat)

/-- Its overloads. -/
def repTickets : Codec RepTickets where
  write
    | .tickets v => tag 0 ++ (umap u64 repTicket).write v
    | .error v => tag 1 ++ u8.write v
  read := alternatives [
    alt (umap u64 repTicket) .tickets,
    alt u8 .error]
  valid
    | .tickets v => (umap u64 repTicket).valid v
    | .error v => u8.valid v

/-- `replicated_response`, `src/parsec/runtime_locking_shard/messages.hpp:94-96`. -/
inductive RepResponse where
  | result (v : Option Nat)
  | tickets (v : RepTickets)

/-- Its overloads. -/
def repResponse : Codec RepResponse where
  write
    | .result v => tag 0 ++ (opt u8).write v
    | .tickets v => tag 1 ++ repTickets.write v
  read := alternatives [
    alt (opt u8) .result,
    alt repTickets .tickets]
  valid
    | .result v => (opt u8).valid v
    | .tickets v => repTickets.valid v

/-- `ticket_machine::rpc::request`, `src/parsec/ticket_machine/messages.hpp:13`. -/
inductive TicketRequest where
  | request (v : Unit)

/-- Its overloads. -/
def ticketRequest : Codec TicketRequest where
  write
    | .request v => tag 0 ++ unit.write v
  read := alternatives [
    alt unit .request]
  valid
    | .request v => unit.valid v

/-- `ticket_machine::rpc::response`, `src/parsec/ticket_machine/interface.hpp:33-43`. -/
inductive TicketResponse where
  | range (v : Nat × Nat)
  | error (v : Nat)

/-- Its overloads. -/
def ticketResponse : Codec TicketResponse where
  write
    | .range v => tag 0 ++ (pair u64 u64).write v
    | .error v => tag 1 ++ u8.write v
  read := alternatives [
    alt (pair u64 u64) .range,
    alt u8 .error]
  valid
    | .range v => (pair u64 u64).valid v
    | .error v => u8.valid v

/-- `agent::rpc::exec_request`, `src/parsec/agent/format.cpp:11-19`. -/
structure ExecRequest where
  function : Bytes
  param : Bytes
  readonly : Bool

/-- Its overloads, same place. -/
def execRequest : Codec ExecRequest where
  write m :=
    buf.write m.function ++
    (buf.write m.param ++
    (flag.write m.readonly))
  read b := Res.bind (
    (buf.read b).seq fun b =>
    (buf.read b).seq fun b =>
    flag.read b)
    fun v r => .ok {
      function := v.1,
      param := v.2.1,
      readonly := v.2.2 } r
  valid m := buf.valid m.function ∧
    buf.valid m.param ∧
    flag.valid m.readonly

/-- `agent::rpc::response`, `src/parsec/agent/interface.hpp:50`. -/
inductive ExecResponse where
  | updates (v : List (Bytes × Bytes))
  | error (v : Nat)

/-- Its overloads. -/
def execResponse : Codec ExecResponse where
  write
    | .updates v => tag 0 ++ (umap buf buf).write v
    | .error v => tag 1 ++ u8.write v
  read := alternatives [
    alt (umap buf buf) .updates,
    alt u8 .error]
  valid
    | .updates v => (umap buf buf).valid v
    | .error v => u8.valid v

/-! ### The EVM runner -/

/-- `evm_account`, `src/parsec/agent/runners/evm/messages.hpp:23-32`. -/
structure Account where
  balance : Bytes
  nonce : Bytes
  modified : List Bytes
  destruct : Bool

/-- Its overloads, `src/parsec/agent/runners/evm/format.cpp:11-20`: the modified keys and the mark of destruction do not travel; the reader
starts from a default account. Only accounts without them are read back as they were. -/
def account : Codec Account where
  write m := (bytes 32).write m.balance ++ (bytes 32).write m.nonce
  read b := Res.bind (
    ((bytes 32).read b).seq fun b =>
    (bytes 32).read b)
    fun v r => .ok {
      balance := v.1,
      nonce := v.2,
      modified := [],
      destruct := false } r
  valid m := (bytes 32).valid m.balance ∧ (bytes 32).valid m.nonce ∧ m.modified = [] ∧
    m.destruct = false

/-- `evm_sig`, `src/parsec/agent/runners/evm/format.cpp:43-50`: `v` travels first. -/
structure Sig where
  v : Bytes
  r : Bytes
  s : Bytes

/-- Its overloads, same place. -/
def sig : Codec Sig where
  write m :=
    (bytes 32).write m.v ++
    ((bytes 32).write m.r ++
    ((bytes 32).write m.s))
  read b := Res.bind (
    ((bytes 32).read b).seq fun b =>
    ((bytes 32).read b).seq fun b =>
    (bytes 32).read b)
    fun v r => .ok {
      v := v.1,
      r := v.2.1,
      s := v.2.2 } r
  valid m := (bytes 32).valid m.v ∧
    (bytes 32).valid m.r ∧
    (bytes 32).valid m.s

/-- `evm_access_tuple`, `src/parsec/agent/runners/evm/format.cpp:52-62`. -/
structure AccessTuple where
  address : Bytes
  keys : List Bytes

/-- Its overloads, same place. -/
def accessTuple : Codec AccessTuple where
  write m :=
    (bytes 20).write m.address ++
    ((vec (bytes 32)).write m.keys)
  read b := Res.bind (
    ((bytes 20).read b).seq fun b =>
    (vec (bytes 32)).read b)
    fun v r => .ok {
      address := v.1,
      keys := v.2 } r
  valid m := (bytes 20).valid m.address ∧
    (vec (bytes 32)).valid m.keys

/-- `evm_tx`, `src/parsec/agent/runners/evm/format.cpp:64-77`. -/
structure EvmTx where
  type : Nat
  toAddr : Option Bytes
  value : Bytes
  nonce : Bytes
  gasPrice : Bytes
  gasLimit : Bytes
  gasTipCap : Bytes
  gasFeeCap : Bytes
  input : List Nat
  accessList : List AccessTuple
  sig : Sig

/-- Its overloads, same place. -/
def evmTx : Codec EvmTx where
  write m :=
    u8.write m.type ++
    ((opt (bytes 20)).write m.toAddr ++
    ((bytes 32).write m.value ++
    ((bytes 32).write m.nonce ++
    ((bytes 32).write m.gasPrice ++
    ((bytes 32).write m.gasLimit ++
    ((bytes 32).write m.gasTipCap ++
    ((bytes 32).write m.gasFeeCap ++
    ((vec u8).write m.input ++
    ((vec accessTuple).write m.accessList ++
    (sig.write m.sig))))))))))
  read b := Res.bind (
    (u8.read b).seq fun b =>
    ((opt (bytes 20)).read b).seq fun b =>
    ((bytes 32).read b).seq fun b =>
    ((bytes 32).read b).seq fun b =>
    ((bytes 32).read b).seq fun b =>
    ((bytes 32).read b).seq fun b =>
    ((bytes 32).read b).seq fun b =>
    ((bytes 32).read b).seq fun b =>
    ((vec u8).read b).seq fun b =>
    ((vec accessTuple).read b).seq fun b =>
    sig.read b)
    fun v r => .ok {
      type := v.1,
      toAddr := v.2.1,
      value := v.2.2.1,
      nonce := v.2.2.2.1,
      gasPrice := v.2.2.2.2.1,
      gasLimit := v.2.2.2.2.2.1,
      gasTipCap := v.2.2.2.2.2.2.1,
      gasFeeCap := v.2.2.2.2.2.2.2.1,
      input := v.2.2.2.2.2.2.2.2.1,
      accessList := v.2.2.2.2.2.2.2.2.2.1,
      sig := v.2.2.2.2.2.2.2.2.2.2 } r
  valid m := u8.valid m.type ∧
    (opt (bytes 20)).valid m.toAddr ∧
    (bytes 32).valid m.value ∧
    (bytes 32).valid m.nonce ∧
    (bytes 32).valid m.gasPrice ∧
    (bytes 32).valid m.gasLimit ∧
    (bytes 32).valid m.gasTipCap ∧
    (bytes 32).valid m.gasFeeCap ∧
    (vec u8).valid m.input ∧
    (vec accessTuple).valid m.accessList ∧
    sig.valid m.sig

/-- `evm_dryrun_tx`, `src/parsec/agent/runners/evm/format.cpp:79-88`. -/
structure DryRun where
  sender : Bytes
  tx : EvmTx

/-- Its overloads, same place. -/
def dryRun : Codec DryRun where
  write m :=
    (bytes 20).write m.sender ++
    (evmTx.write m.tx)
  read b := Res.bind (
    ((bytes 20).read b).seq fun b =>
    evmTx.read b)
    fun v r => .ok {
      sender := v.1,
      tx := v.2 } r
  valid m := (bytes 20).valid m.sender ∧
    evmTx.valid m.tx

/-- `evm_log`, `src/parsec/agent/runners/evm/format.cpp:90-98`. -/
structure Log where
  addr : Bytes
  data : List Nat
  topics : List Bytes

/-- Its overloads, same place. -/
def log : Codec Log where
  write m :=
    (bytes 20).write m.addr ++
    ((vec u8).write m.data ++
    ((vec (bytes 32)).write m.topics))
  read b := Res.bind (
    ((bytes 20).read b).seq fun b =>
    ((vec u8).read b).seq fun b =>
    (vec (bytes 32)).read b)
    fun v r => .ok {
      addr := v.1,
      data := v.2.1,
      topics := v.2.2 } r
  valid m := (bytes 20).valid m.addr ∧
    (vec u8).valid m.data ∧
    (vec (bytes 32)).valid m.topics

/-- `evm_tx_receipt`, `src/parsec/agent/runners/evm/format.cpp:100-113`. -/
structure Receipt where
  tx : EvmTx
  createAddress : Option Bytes
  gasUsed : Bytes
  logs : List Log
  output : List Nat
  ticket : Nat
  timestamp : Nat
  success : Bool

/-- Its overloads, same place. -/
def receipt : Codec Receipt where
  write m :=
    evmTx.write m.tx ++
    ((opt (bytes 20)).write m.createAddress ++
    ((bytes 32).write m.gasUsed ++
    ((vec log).write m.logs ++
    ((vec u8).write m.output ++
    (u64.write m.ticket ++
    (u64.write m.timestamp ++
    (flag.write m.success)))))))
  read b := Res.bind (
    (evmTx.read b).seq fun b =>
    ((opt (bytes 20)).read b).seq fun b =>
    ((bytes 32).read b).seq fun b =>
    ((vec log).read b).seq fun b =>
    ((vec u8).read b).seq fun b =>
    (u64.read b).seq fun b =>
    (u64.read b).seq fun b =>
    flag.read b)
    fun v r => .ok {
      tx := v.1,
      createAddress := v.2.1,
      gasUsed := v.2.2.1,
      logs := v.2.2.2.1,
      output := v.2.2.2.2.1,
      ticket := v.2.2.2.2.2.1,
      timestamp := v.2.2.2.2.2.2.1,
      success := v.2.2.2.2.2.2.2 } r
  valid m := evmTx.valid m.tx ∧
    (opt (bytes 20)).valid m.createAddress ∧
    (bytes 32).valid m.gasUsed ∧
    (vec log).valid m.logs ∧
    (vec u8).valid m.output ∧
    u64.valid m.ticket ∧
    u64.valid m.timestamp ∧
    flag.valid m.success

/-- `code_key`, `src/parsec/agent/runners/evm/messages.hpp:173-176`. -/
structure CodeKey where
  addr : Bytes

/-- Its overloads, `src/parsec/agent/runners/evm/format.cpp:115-124`: a zero byte follows the address, and whatever byte follows is skipped. -/
def codeKey : Codec CodeKey where
  write m := (bytes 20).write m.addr ++ u8.write 0
  read b := Res.bind (
    ((bytes 20).read b).seq fun b =>
    u8.read b)
    fun v r => .ok ⟨v.1⟩ r
  valid m := (bytes 20).valid m.addr

/-- `storage_key`, `src/parsec/agent/runners/evm/format.cpp:126-134`. -/
structure StorageKey where
  addr : Bytes
  key : Bytes

/-- Its overloads, same place. -/
def storageKey : Codec StorageKey where
  write m :=
    (bytes 20).write m.addr ++
    ((bytes 32).write m.key)
  read b := Res.bind (
    ((bytes 20).read b).seq fun b =>
    (bytes 32).read b)
    fun v r => .ok {
      addr := v.1,
      key := v.2 } r
  valid m := (bytes 20).valid m.addr ∧
    (bytes 32).valid m.key

/-- `evm_pretend_block`, `src/parsec/agent/runners/evm/format.cpp:136-145`. -/
structure PretendBlock where
  ticket : Nat
  transactions : List Receipt

/-- Its overloads, same place. -/
def pretendBlock : Codec PretendBlock where
  write m :=
    u64.write m.ticket ++
    ((vec receipt).write m.transactions)
  read b := Res.bind (
    (u64.read b).seq fun b =>
    (vec receipt).read b)
    fun v r => .ok {
      ticket := v.1,
      transactions := v.2 } r
  valid m := u64.valid m.ticket ∧
    (vec receipt).valid m.transactions

/-- `evm_log_query`, `src/parsec/agent/runners/evm/format.cpp:147-157`: the topics travel last. -/
structure LogQuery where
  addresses : List Bytes
  fromBlock : Nat
  toBlock : Nat
  topics : List Bytes

/-- Its overloads, same place. -/
def logQuery : Codec LogQuery where
  write m :=
    (vec (bytes 20)).write m.addresses ++
    (u64.write m.fromBlock ++
    (u64.write m.toBlock ++
    ((vec (bytes 32)).write m.topics)))
  read b := Res.bind (
    ((vec (bytes 20)).read b).seq fun b =>
    (u64.read b).seq fun b =>
    (u64.read b).seq fun b =>
    (vec (bytes 32)).read b)
    fun v r => .ok {
      addresses := v.1,
      fromBlock := v.2.1,
      toBlock := v.2.2.1,
      topics := v.2.2.2 } r
  valid m := (vec (bytes 20)).valid m.addresses ∧
    u64.valid m.fromBlock ∧
    u64.valid m.toBlock ∧
    (vec (bytes 32)).valid m.topics

/-- `evm_log_index`, `src/parsec/agent/runners/evm/format.cpp:159-167`. -/
structure LogIndex where
  ticket : Nat
  txid : Bytes
  logs : List Log

/-- Its overloads, same place. -/
def logIndex : Codec LogIndex where
  write m :=
    u64.write m.ticket ++
    (hash.write m.txid ++
    ((vec log).write m.logs))
  read b := Res.bind (
    (u64.read b).seq fun b =>
    (hash.read b).seq fun b =>
    (vec log).read b)
    fun v r => .ok {
      ticket := v.1,
      txid := v.2.1,
      logs := v.2.2 } r
  valid m := u64.valid m.ticket ∧
    hash.valid m.txid ∧
    (vec log).valid m.logs

/-! ### The envelopes of the remote calls -/

/-- `rpc::request`, `src/util/rpc/messages.hpp:14-22`; its header is a number, `src/util/rpc/header.hpp:12-20`. -/
structure RpcRequest (α : Type) where
  id : Nat
  payload : α

/-- Its overloads, `src/util/rpc/format.hpp:16-25`, `src/util/rpc/format.cpp`. -/
def rpcRequest {α : Type} (c : Codec α) : Codec (RpcRequest α) where
  write m := u64.write m.id ++ c.write m.payload
  read b := Res.bind (
    (u64.read b).seq fun b =>
    c.read b)
    fun v r => .ok {
      id := v.1,
      payload := v.2 } r
  valid m := u64.valid m.id ∧ c.valid m.payload

/-- `rpc::response`, `src/util/rpc/messages.hpp:24-36`. -/
structure RpcResponse (α : Type) where
  id : Nat
  payload : Option α

/-- Its overloads, `src/util/rpc/format.hpp:27-36`. -/
def rpcResponse {α : Type} (c : Codec α) : Codec (RpcResponse α) where
  write m := u64.write m.id ++ (opt c).write m.payload
  read b := Res.bind (
    (u64.read b).seq fun b =>
    (opt c).read b)
    fun v r => .ok {
      id := v.1,
      payload := v.2 } r
  valid m := u64.valid m.id ∧ (opt c).valid m.payload

/-- Requests as they travel, `src/util/rpc/messages.hpp:14-22`. -/
def coordinatorRpc : Codec (RpcRequest CompactTx) := rpcRequest compactTx

/-- Requests as they travel, `src/util/rpc/messages.hpp:14-22`. -/
def shardRpc : Codec (RpcRequest ShardRequest) := rpcRequest shardRequest

/-- Requests as they travel, `src/util/rpc/messages.hpp:14-22`. -/
def statusRpc : Codec (RpcRequest ShardStatus) := rpcRequest shardStatus

/-- Requests as they travel, `src/util/rpc/messages.hpp:14-22`. -/
def sentinelRpc : Codec (RpcRequest SentinelRequest) := rpcRequest sentinelRequest

/-- Requests as they travel, `src/util/rpc/messages.hpp:14-22`. -/
def runtimeRpc : Codec (RpcRequest RuntimeRequest) := rpcRequest runtimeRequest

/-- Requests as they travel, `src/util/rpc/messages.hpp:14-22`. -/
def ticketRpc : Codec (RpcRequest TicketRequest) := rpcRequest ticketRequest

/-- Requests as they travel, `src/util/rpc/messages.hpp:14-22`. -/
def agentRpc : Codec (RpcRequest ExecRequest) := rpcRequest execRequest

/-- Answers as they travel, `src/util/rpc/messages.hpp:24-36`. -/
def flagAnswer : Codec (RpcResponse Bool) := rpcResponse flag

/-- Answers as they travel, `src/util/rpc/messages.hpp:24-36`. -/
def shardAnswer : Codec (RpcResponse ShardResponse) := rpcResponse shardResponse

/-- Answers as they travel, `src/util/rpc/messages.hpp:24-36`. -/
def sentinelAnswer : Codec (RpcResponse SentinelResponse) := rpcResponse sentinelResponse

/-- Answers as they travel, `src/util/rpc/messages.hpp:24-36`. -/
def runtimeAnswer : Codec (RpcResponse RuntimeResponse) := rpcResponse runtimeResponse

/-- Answers as they travel, `src/util/rpc/messages.hpp:24-36`. -/
def ticketAnswer : Codec (RpcResponse TicketResponse) := rpcResponse ticketResponse

/-- Answers as they travel, `src/util/rpc/messages.hpp:24-36`. -/
def agentAnswer : Codec (RpcResponse ExecResponse) := rpcResponse execResponse

/-- All of them. -/
def catalogue : List ((α : Type) × Codec α) := [
  ⟨_, outPoint⟩, ⟨_, output⟩, ⟨_, input⟩, ⟨_, fullTx⟩, ⟨_, compactTx⟩, ⟨_, inputError⟩,
  ⟨_, outputError⟩, ⟨_, witnessError⟩, ⟨_, txError⟩, ⟨_, errorInfo⟩, ⟨_, towerError⟩,
  ⟨_, statusRequest⟩, ⟨_, statusState⟩, ⟨_, checkSuccess⟩, ⟨_, bestHeight⟩, ⟨_, towerRequest⟩,
  ⟨_, towerResponse⟩, ⟨_, block⟩, ⟨_, txNotify⟩, ⟨_, aggNotification⟩, ⟨_, aggNotify⟩,
  ⟨_, prune⟩, ⟨_, getBlock⟩, ⟨_, madeBlock⟩, ⟨_, gotBlock⟩, ⟨_, atomizerRequest⟩,
  ⟨_, machineRequest⟩, ⟨_, machineResponse⟩, ⟨_, archiverResponse⟩, ⟨_, executeResponse⟩,
  ⟨_, sentinelRequest⟩, ⟨_, sentinelResponse⟩, ⟨_, shardTx⟩, ⟨_, shardParams⟩,
  ⟨_, shardRequest⟩, ⟨_, shardResponse⟩, ⟨_, txStatus⟩, ⟨_, uhsStatus⟩, ⟨_, shardStatus⟩,
  ⟨_, tryLock⟩, ⟨_, prepare⟩, ⟨_, commit⟩, ⟨_, rollback⟩, ⟨_, finish⟩, ⟨_, getTickets⟩,
  ⟨_, runtimeRequest⟩, ⟨_, wounded⟩, ⟨_, shardError⟩, ⟨_, tryLockResult⟩, ⟨_, ticketsResult⟩,
  ⟨_, runtimeResponse⟩, ⟨_, repPrepare⟩, ⟨_, repRequest⟩, ⟨_, repTicket⟩, ⟨_, repTickets⟩,
  ⟨_, repResponse⟩, ⟨_, ticketRequest⟩, ⟨_, ticketResponse⟩, ⟨_, execRequest⟩,
  ⟨_, execResponse⟩, ⟨_, account⟩, ⟨_, sig⟩, ⟨_, accessTuple⟩, ⟨_, evmTx⟩, ⟨_, dryRun⟩,
  ⟨_, log⟩, ⟨_, receipt⟩, ⟨_, codeKey⟩, ⟨_, storageKey⟩, ⟨_, pretendBlock⟩, ⟨_, logQuery⟩,
  ⟨_, logIndex⟩, ⟨_, coordinatorRpc⟩, ⟨_, shardRpc⟩, ⟨_, statusRpc⟩, ⟨_, sentinelRpc⟩,
  ⟨_, runtimeRpc⟩, ⟨_, ticketRpc⟩, ⟨_, agentRpc⟩, ⟨_, flagAnswer⟩, ⟨_, shardAnswer⟩,
  ⟨_, sentinelAnswer⟩, ⟨_, runtimeAnswer⟩, ⟨_, ticketAnswer⟩, ⟨_, agentAnswer⟩]

end Verif.Serial.Cat
