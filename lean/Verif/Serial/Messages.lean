import Verif.Serial.Spec

/-! Wire types of concrete messages. -/
namespace Verif.Serial

/-- `hash_t`, 32 bytes (`src/util/common/hash.hpp:19-22`). -/
def tHash : Ty := .arr 32
/-- `uint64_t`. -/
def tU64 : Ty := .int 8
/-- `transaction::out_point` (`src/uhs/transaction/messages.cpp:13-21`). -/
def tOutPoint : Ty := .fields tHash tU64
/-- `transaction::output` (`src/uhs/transaction/messages.cpp:23-31`). -/
def tOutput : Ty := .fields tHash tU64
/-- `transaction::input` (`src/uhs/transaction/messages.cpp:33-41`). -/
def tInput : Ty := .fields tOutPoint tOutput
/-- `witness_t`, a vector of bytes (`src/util/common/keys.hpp`). -/
def tWitness : Ty := .vec (.int 1)
/-- `transaction::full_tx` (`src/uhs/transaction/messages.cpp:43-51`). -/
def tFullTx : Ty := .fields (.vec tInput) (.fields (.vec tOutput) (.vec tWitness))
/-- `sentinel_attestation` map: 32-byte public keys to 64-byte signatures
(`src/uhs/transaction/transaction.hpp:111-131`). -/
def tAttestations : Ty := .umap (.arr 32) (.arr 64)
/-- `transaction::compact_tx` (`src/uhs/transaction/messages.cpp:53-63`). -/
def tCompactTx : Ty :=
  .fields tHash (.fields (.vec tHash) (.fields (.vec tHash) tAttestations))
/-- `atomizer::block` (`src/uhs/atomizer/atomizer/format.cpp:14-22`). -/
def tBlock : Ty := .fields tU64 (.vec tCompactTx)
/-- `atomizer::tx_notify_request` (`src/uhs/atomizer/atomizer/format.cpp:50-61`). -/
def tTxNotify : Ty := .fields tU64 (.fields tCompactTx (.uset tU64))
/-- `atomizer::aggregate_tx_notify_request` (`src/uhs/atomizer/atomizer/format.cpp:63-87`). -/
def tAggTxNotify : Ty := .vec (.fields tU64 tCompactTx)
/-- `locking_shard::rpc::request` (`src/uhs/twophase/locking_shard/format.cpp:21-29`):
the variant of lock, apply and discard parameters. -/
def tShardRequest : Ty := .fields tHash (.variant 3 fun i =>
  match i.val with
  | 0 => .vec tCompactTx
  | 1 => .vec .bool
  | _ => .unit)
/-- `coordinator_state` (`src/uhs/twophase/coordinator/format.cpp:15-25`,
`src/uhs/twophase/coordinator/state_machine.hpp:68-80`). -/
def tCoordinatorState : Ty :=
  .fields (.umap tHash (.vec tCompactTx))
    (.fields (.umap tHash (.pair (.vec .bool) (.vec (.vec tU64)))) (.uset tHash))
/-- `agent::rpc::exec_request` (`src/parsec/agent/format.cpp:11-19`). -/
def tExecRequest : Ty := .fields .buf (.fields .buf .bool)
/-- `runtime_locking_shard::rpc::try_lock_request`
(`src/parsec/runtime_locking_shard/format.cpp:11-23`). -/
def tTryLock : Ty := .fields tU64 (.fields tU64 (.fields .buf (.fields (.int 1) .bool)))
/-- `rpc::request` of the runtime locking shard (`src/parsec/runtime_locking_shard/messages.hpp:40-95`, `src/parsec/runtime_locking_shard/format.cpp`). -/
def tShardRpc : Ty := .fields tU64 (.variant 6 fun i =>
  match i.val with
  | 0 => tTryLock
  | 1 => .fields tU64 (.fields (.umap .buf .buf) tU64)
  | _ => tU64)
/-- `replicated_shard::ticket_type` (`src/parsec/runtime_locking_shard/format.cpp:138-149`). -/
def tTicket : Ty := .fields (.int 1) (.fields tU64 (.umap .buf .buf))

end Verif.Serial
