import Verif.Evm.Signature
/-!
# The host of the virtual machine and the runner of transactions (C54-C56, C79-C83)

Model of `src/parsec/agent/runners/evm/host.cpp` and of the part of `src/parsec/agent/runners/evm/impl.cpp` which
executes transactions.

The virtual machine (evmone) is not part of the project: it is any tree of calls to the
host (`Op`), with any result.  What is taken from evmone is that an instruction which
calls or creates with a value does so only when `get_balance` says that the caller has
that much.

Simplifications: the sets of warm addresses and storage keys, which only bear on the
price of instructions, are left out, as are time stamps; the maps of the host are
functions; assertions are compiled out, as in a release build.
-/
namespace Verif.Evm

open Verif.Serial

/-- What is stored of an account, src/parsec/agent/runners/evm/format.cpp:11-15. -/
structure Stored where
  balance : Word
  nonce : Word

/-- `evm_account`, src/parsec/agent/runners/evm/messages.hpp:23-33. -/
structure Account extends Stored where
  modified : List Word
  destruct : Bool

/-- `from_buffer<evm_account>`. -/
def Account.ofStored (s : Stored) : Account := { s with modified := [], destruct := false }

/-- `evm_account()`. -/
def Account.new : Account := .ofStored { balance := .zero, nonce := .zero }

/-- `evm_log`, src/parsec/agent/runners/evm/messages.hpp:100-107. -/
structure Log where
  addr : Address
  data : Bytes
  topics : List Word

/-- What the shards store: accounts, storage and code.  `C83_keys` shows that their keys
are different.  Simplification: what is stored under these keys can be read. -/
structure World where
  accounts : Address → Option Stored
  storage : Address → Word → Option Word
  code : Address → Option Bytes

/-- What surrounds an execution: the contents of the shards, of which the locks keep what
is read from changing; which requests for a lock fail; the addresses of new contracts,
src/parsec/agent/runners/evm/address.cpp:20-55. -/
structure Env where
  world : World
  fails : Nat → Bool
  createAddress : Address → Word → Address
  create2Address : Address → Word → Bytes → Address

/-- `f` with another value at one place. -/
def put {α β : Type} [DecidableEq α] (f : α → β) (a : α) (b : β) : α → β :=
  fun x => if x = a then b else f x

/-- `evm_host`, src/parsec/agent/runners/evm/host.hpp:150-180. -/
structure Host where
  /-- `m_accounts`; the flag says that the lock is for writing. -/
  accounts : Address → Option (Option Account × Bool)
  /-- `m_account_storage` -/
  storage : Address → Word → Option (Option Word × Bool)
  /-- `m_account_code` -/
  code : Address → Option (Option Bytes × Bool)
  /-- `m_init_state` -/
  init : Address → Option (Option Account × Bool)
  /-- `m_is_readonly_run` -/
  readonly : Bool
  /-- `m_retry` -/
  retry : Bool
  /-- The number of requests for a lock so far. -/
  requests : Nat
  /-- The keys which are locked for writing, of accounts, storage and code. -/
  lockedAccounts : List Address
  lockedStorage : List (Address × Word)
  lockedCode : List Address
  /-- An exception was thrown through a function which must not throw: the process ended. -/
  crashed : Bool
  /-- `m_receipt.m_logs` -/
  logs : List Log
  /-- `m_receipt.m_create_address` -/
  created : Option Address
  /-- `m_receipt.m_output_data` -/
  output : Bytes
  /-- `m_receipt.m_success` -/
  success : Bool

/-- The host as it is constructed, src/parsec/agent/runners/evm/host.cpp:23-37. -/
def Host.new (readonly : Bool) : Host :=
  { accounts := fun _ => none, storage := fun _ _ => none, code := fun _ => none,
    init := fun _ => none, readonly, retry := false, requests := 0, lockedAccounts := [],
    lockedStorage := [], lockedCode := [], crashed := false, logs := [], created := none,
    output := [], success := false }

/-- `is_precompile`, src/parsec/agent/runners/evm/host.cpp:598-607. -/
def isPrecompile (a : Address) : Bool :=
  (a.val.take 18).all (· == 0) && a.val[19]? != some 0

/-- `get_account`, src/parsec/agent/runners/evm/host.cpp:39-81, with `get_key`, 686-742. -/
def Host.getAccount (env : Env) (h : Host) (a : Address) (write : Bool) : Option Account × Host :=
  if isPrecompile a then (some .new, h)
  else
    let fetch : Option Account × Host :=
      if env.fails h.requests then (none, { h with retry := true, requests := h.requests + 1 })
      else
        let acc := (env.world.accounts a).map Account.ofStored
        (acc, { h with
          accounts := put h.accounts a (some (acc, write))
          lockedAccounts := if write then a :: h.lockedAccounts else h.lockedAccounts
          requests := h.requests + 1 })
    match h.accounts a with
    | some (acc, locked) => if locked || !write then (acc, h) else fetch
    | none => fetch

/-- `get_account_storage`, src/parsec/agent/runners/evm/host.cpp:609-649. -/
def Host.getAccountStorage (env : Env) (h : Host) (a : Address) (k : Word) (write : Bool) :
    Option Word × Host :=
  if isPrecompile a then (none, h)
  else
    let fetch : Option Word × Host :=
      if env.fails h.requests then (none, { h with retry := true, requests := h.requests + 1 })
      else
        let v := env.world.storage a k
        (v, { h with
          storage := put h.storage a (put (h.storage a) k (some (v, write)))
          lockedStorage := if write then (a, k) :: h.lockedStorage else h.lockedStorage
          requests := h.requests + 1 })
    match h.storage a k with
    | some (v, locked) => if locked || !write then (v, h) else fetch
    | none => fetch

/-- `get_account_code`, src/parsec/agent/runners/evm/host.cpp:651-684. -/
def Host.getAccountCode (env : Env) (h : Host) (a : Address) (write : Bool) : Option Bytes × Host :=
  if isPrecompile a then (none, h)
  else
    let fetch : Option Bytes × Host :=
      if env.fails h.requests then (none, { h with retry := true, requests := h.requests + 1 })
      else
        let c := env.world.code a
        (c, { h with
          code := put h.code a (some (c, write))
          lockedCode := if write then a :: h.lockedCode else h.lockedCode
          requests := h.requests + 1 })
    match h.code a with
    | some (c, locked) => if locked || !write then (c, h) else fetch
    | none => fetch

/-- `get_balance`, src/parsec/agent/runners/evm/host.cpp:150-160. -/
def Host.getBalance (env : Env) (h : Host) (a : Address) : Word × Host :=
  let r := h.getAccount env a false
  ((r.1.map fun acc => acc.balance).getD .zero, r.2)

/-- `get_code_size`, src/parsec/agent/runners/evm/host.cpp:162-173. -/
def Host.getCodeSize (env : Env) (h : Host) (a : Address) : Nat × Host :=
  if isPrecompile a then (1, h)
  else
    let r := h.getAccountCode env a false
    ((r.1.getD []).length, r.2)

/-- `m_accounts[a] = {acc, w}`. -/
def Host.cache (h : Host) (a : Address) (acc : Account) (w : Bool) : Host :=
  { h with accounts := put h.accounts a (some (some acc, w)) }

/-- The account which `set_storage` works on, src/parsec/agent/runners/evm/host.cpp:112-122: one that does not exist is
made, with the key among those modified. -/
def Host.storageAccount (env : Env) (h : Host) (a : Address) (k : Word) : Account × Host × Bool :=
  let r := h.getAccount env a false
  match r.1 with
  | some acc => (acc, r.2, false)
  | none =>
    let h1 := if r.2.readonly then r.2 else (r.2.getAccount env a true).2
    let acc := { Account.new with modified := [k] }
    (acc, h1.cache a acc (!h1.readonly), true)

/-- `set_storage`, src/parsec/agent/runners/evm/host.cpp:104-148; the status, which only bears on the price, is left
out. -/
def Host.setStorage (env : Env) (h : Host) (a : Address) (k v : Word) : Host :=
  let (acc, h1, added) := h.storageAccount env a k
  let r := h1.getAccountStorage env a k (!h1.readonly)
  let h2 := r.2
  let prev := r.1.getD .zero
  let acc := if added || prev = v || acc.modified.contains k || v = .zero then acc
    else { acc with modified := k :: acc.modified }
  let locked := ((h2.accounts a).map (·.2)).getD false
  { h2.cache a acc locked with
    storage := put h2.storage a (put (h2.storage a) k (some (some v, !h2.readonly))) }

/-- The account from which `val` is taken, src/parsec/agent/runners/evm/host.cpp:555-564. -/
def Account.debit (acc : Account) (val : Word) (destroy : Bool) : Account :=
  { acc with balance := sub acc.balance val, destruct := acc.destruct || destroy }

/-- The account to which `val` is given, src/parsec/agent/runners/evm/host.cpp:571-572. -/
def Account.credit (acc : Account) (val : Word) : Account :=
  { acc with balance := add acc.balance val }

/-- `transfer`, src/parsec/agent/runners/evm/host.cpp:548-574.  Without an account to take from,
`maybe_acc.value()` throws. -/
def Host.transfer (env : Env) (h : Host) (source dest : Address) (value : Word) : Host :=
  let r := h.getAccount env source (!h.readonly)
  match r.1 with
  | none => { r.2 with crashed := true }
  | some acc =>
    let val := if value = .zero then acc.balance else value
    let h1 := r.2.cache source (acc.debit val (decide (value = .zero))) (!h.readonly)
    let r' := h1.getAccount env dest (!h.readonly)
    r'.2.cache dest ((r'.1.getD .new).credit val) (!h.readonly)

/-- `selfdestruct`, src/parsec/agent/runners/evm/host.cpp:217-224. -/
def Host.selfdestruct (env : Env) (h : Host) (a beneficiary : Address) : Host :=
  h.transfer env a beneficiary .zero

/-- `evmc_call_kind` for calls. -/
inductive Kind where
  | call
  | delegatecall
  | callcode
  deriving DecidableEq

/-- What the virtual machine asks of the host while code runs; `body` is what the code of
a nested call asks, and `ok` whether it ended with success. -/
inductive Op where
  | exists (a : Address)
  | balance (a : Address)
  | getStorage (a : Address) (k : Word)
  | setStorage (a : Address) (k v : Word)
  | code (a : Address)
  | selfdestruct (a beneficiary : Address)
  | log (l : Log)
  | call (kind : Kind) (sender recipient codeAddr : Address) (value : Word) (body : List Op)
  | create (salt : Option (Word × Bytes)) (sender : Address) (value : Word) (body : List Op)
      (ok : Bool) (output : Bytes)

/-- The address of a new contract, src/parsec/agent/runners/evm/host.cpp:239-248. -/
def newAddress (env : Env) (salt : Option (Word × Bytes)) (sender : Address) (nonce : Word) : Address :=
  match salt with
  | none => env.createAddress sender nonce
  | some (s, code) => env.create2Address sender s code

/-- What `create` does after the code of the constructor ended with success,
src/parsec/agent/runners/evm/host.cpp:279-293. -/
def Host.deploy (env : Env) (h : Host) (a : Address) (output : Bytes) : Host :=
  let r := h.getAccount env a (!h.readonly)
  let h1 := r.2.cache a (r.1.getD .new) (!h.readonly)
  let h2 := (h1.getAccountCode env a (!h.readonly)).2
  { h2 with code := put h2.code a (some (some output, !h.readonly)) }

/-- The start of `call`, src/parsec/agent/runners/evm/host.cpp:313-328: whether value is transferred, the transfer, and
whether there is code. -/
def Host.beginCall (env : Env) (h : Host) (kind : Kind) (sender recipient codeAddr : Address)
    (value : Word) : Bool × Host :=
  let native := value ≠ .zero && kind = .call
  let h1 := if native then h.transfer env sender recipient value else h
  let r := h1.getCodeSize env (if kind = .call then recipient else codeAddr)
  if r.1 = 0 then (false, if native then { r.2 with success := true } else r.2)
  else (true, (r.2.getAccountCode env (if kind = .call then recipient else codeAddr) false).2)

/-- The start of `create`, src/parsec/agent/runners/evm/host.cpp:226-253: the new address and the transfer; nothing
when there is no account of the sender. -/
def Host.beginCreate (env : Env) (h : Host) (salt : Option (Word × Bytes)) (sender : Address)
    (value : Word) : Option Address × Host :=
  let r := h.getAccount env sender false
  match r.1 with
  | none => (none, r.2)
  | some acc =>
    let a := newAddress env salt sender acc.nonce
    (some a, if value = .zero then r.2 else r.2.transfer env sender a value)

/-- The check which evmone makes before it calls or creates with a value. -/
def Host.covered (env : Env) (h : Host) (sender : Address) (value : Word) : Bool × Host :=
  if value = .zero then (true, h)
  else
    let r := h.getBalance env sender
    (decide (value.nat ≤ r.1.nat), r.2)

mutual
/-- What a call of the virtual machine does. -/
def Host.op (env : Env) (h : Host) : Op → Host
  | .exists a => (h.getAccount env a false).2
  | .balance a => (h.getBalance env a).2
  | .getStorage a k => (h.getAccountStorage env a k false).2
  | .setStorage a k v => h.setStorage env a k v
  | .code a => (h.getAccountCode env a false).2
  | .selfdestruct a b => h.selfdestruct env a b
  | .log l => { h with logs := h.logs ++ [l] }
  | .call kind sender recipient codeAddr value body =>
    let c := if kind = .delegatecall then (true, h) else h.covered env sender value
    if c.1 then
      let r := c.2.beginCall env kind sender recipient codeAddr value
      if r.1 then Host.ops env r.2 body else r.2
    else c.2
  | .create salt sender value body ok output =>
    let c := h.covered env sender value
    if c.1 then
      let r := c.2.beginCreate env salt sender value
      match r.1 with
      | none => r.2
      | some a =>
        let h1 := Host.ops env r.2 body
        if ok then h1.deploy env a output else h1
    else c.2
/-- What a sequence of them does. -/
def Host.ops (env : Env) (h : Host) : List Op → Host
  | [] => h
  | o :: os => Host.ops env (Host.op env h o) os
end

/-- `evmc_status_code`: success, revert, the others above zero, those below. -/
inductive Status where
  | success
  | revert
  | failure
  | internal
  deriving DecidableEq

/-- What the code of the called or created contract does: what it asks of the host, and
its result. -/
structure Vm where
  ops : List Op
  status : Status
  gasLeft : UInt64
  output : Bytes

/-- `evmc_message` for a transaction, src/parsec/agent/runners/evm/impl.cpp:462-499. -/
structure Msg where
  sender : Address
  recipient : Option Address
  value : Word
  /-- The bits of the `int64_t`. -/
  gas : UInt64

/-- `call` of the host for a transaction (depth zero), src/parsec/agent/runners/evm/host.cpp:226-373, with the status
and the gas left over. -/
def Host.run (env : Env) (h : Host) (msg : Msg) (vm : Vm) : Host × Status × UInt64 :=
  match msg.recipient with
  | some to =>
    let r := h.beginCall env .call msg.sender to to msg.value
    if r.1 then
      ({ Host.ops env r.2 vm.ops with output := vm.output, success := vm.status = .success },
        vm.status, vm.gasLeft)
    else (r.2, .success, msg.gas)
  | none =>
    let r := h.beginCreate env none msg.sender msg.value
    match r.1 with
    | none => (r.2, .revert, 0)
    | some a =>
      let h1 := Host.ops env { r.2 with created := some a } vm.ops
      let h2 := if vm.status = .success then h1.deploy env a vm.output else h1
      ({ h2 with output := vm.output, success := vm.status = .success }, vm.status, vm.gasLeft)

/-- `revert`, src/parsec/agent/runners/evm/host.cpp:594-596. -/
def Host.revert (h : Host) : Host := { h with accounts := h.init }

/-- `finalize`, src/parsec/agent/runners/evm/host.cpp:576-592; `origin` is `tx_origin` and `price` `tx_gas_price`. -/
def Host.finalize (env : Env) (h : Host) (origin : Address) (price : Word) (gasLeft : UInt64) : Host :=
  if h.readonly then h
  else
    let r := h.getAccount env origin true
    match r.1 with
    | none => { r.2 with crashed := true }
    | some acc => r.2.cache origin (acc.credit (mul (.ofU64 gasLeft) price)) true

/-- `evm_tx_receipt`, src/parsec/agent/runners/evm/messages.hpp:110-130. -/
structure Receipt where
  tx : EvmTx
  created : Option Address
  gasUsed : UInt64
  logs : List Log
  output : Bytes
  success : Bool

/-- `state_update_type` as `get_state_updates` makes it, src/parsec/agent/runners/evm/host.cpp:481-535: for each key
the new value, if there is one.  An account which was destroyed is made empty.  The
receipt stands for the keys of the transaction, of the ticket number and of the logs.
The locks are not part of the result: they are the keys of accounts, storage and code
which are locked for writing by then. -/
structure Updates where
  accounts : Address → Option (Option Stored)
  code : Address → Option Bytes
  storage : Address → Word → Option Word
  receipt : Receipt
  lockedAccounts : List Address
  lockedStorage : List (Address × Word)
  lockedCode : List Address

/-- `get_state_updates`, src/parsec/agent/runners/evm/host.cpp:481-535. -/
def Host.updates (h : Host) (tx : EvmTx) (gasUsed : UInt64) : Updates :=
  { accounts := fun a =>
      match h.accounts a with
      | some (some acc, true) => some (if acc.destruct then none else some acc.toStored)
      | _ => none
    code := fun a =>
      match h.code a with
      | some (some c, true) => some c
      | _ => none
    storage := fun a k =>
      match h.storage a k with
      | some (some v, true) => some v
      | _ => none
    receipt := { tx, created := h.created, gasUsed, logs := h.logs, output := h.output,
                 success := h.success }
    lockedAccounts := h.lockedAccounts
    lockedStorage := h.lockedStorage
    lockedCode := h.lockedCode }

/-- The shards once the updates are committed. -/
def World.apply (w : World) (u : Updates) : World :=
  { accounts := fun a => (u.accounts a).getD (w.accounts a)
    code := fun a => match u.code a with | some c => some c | none => w.code a
    storage := fun a k => match u.storage a k with | some v => some v | none => w.storage a k }

/-- What is given to the callback of the runner. -/
inductive Answer where
  | functionLoad
  | execError
  | internalError
  | wounded
  | crashed
  | updates (u : Updates)

/-- `check_base_gas`, src/parsec/agent/runners/evm/impl.cpp:447-460. -/
def minGas (tx : EvmTx) : Word :=
  if tx.to = none then add (.ofU64 21000) (.ofU64 32000) else .ofU64 21000

/-- `exec`, src/parsec/agent/runners/evm/impl.cpp:567-596.  The keys of the logs are locked for writing
(src/parsec/agent/runners/evm/impl.cpp:598-621), which the agent refuses in a dry run (src/parsec/agent/impl.cpp:205-209).
Simplification: in other runs the locks for the keys of the logs, of which the answers
are ignored (src/parsec/agent/runners/evm/impl.cpp:609-614), are not modelled. -/
def exec (env : Env) (h : Host) (tx : EvmTx) (msg : Msg) (price : Word) (vm : Vm) : Answer :=
  let r := h.run env msg vm
  if r.1.crashed then .crashed
  else if r.2.1 = .internal then .internalError
  else if r.1.retry then .wounded
  else
    let h1 := if r.2.1 = .revert then r.1.revert else r.1
    let h2 := h1.finalize env msg.sender price r.2.2
    if h1.readonly && !h1.logs.isEmpty then .internalError
    else if h2.crashed then .crashed
    else .updates (h2.updates tx (msg.gas - r.2.2))

/-- The account of the sender as `handle_lock_from_account` takes it,
src/parsec/agent/runners/evm/impl.cpp:630-639. -/
def senderAccount (w : World) (sender : Address) : Account :=
  match w.accounts sender with
  | some s => .ofStored s
  | none => .new

/-- `insert_account`, src/parsec/agent/runners/evm/host.cpp:541-546. -/
def Host.insertAccount (h : Host) (a : Address) (acc : Account) : Host :=
  let accounts := match h.accounts a with
    | some _ => h.accounts
    | none => put h.accounts a (some (some acc, !h.readonly))
  { h with accounts, init := accounts }

/-- The message, src/parsec/agent/runners/evm/impl.cpp:490-497. -/
def makeMsg (sender : Address) (tx : EvmTx) (readonly : Bool) : Msg :=
  { sender, recipient := tx.to, value := tx.value,
    gas := if readonly then 2 ^ 63 - 1 else toU64 (sub tx.gasLimit (minGas tx)) }

/-- `run_execute_transaction` and `handle_lock_from_account` for a transaction with a
valid signature, src/parsec/agent/runners/evm/impl.cpp:522-565 and 623-714; `locks.1` says whether the lock for the
account of the sender is given and `locks.2` whether those for the identifier and the
ticket number are. -/
def runTransaction (env : Env) (sender : Address) (tx : EvmTx) (locks : Bool × Bool) (vm : Vm) :
    Answer :=
  if tx.gasLimit.nat < (minGas tx).nat then .execError
  else if !locks.1 then .wounded
  else
    let acc := senderAccount env.world sender
    if add acc.nonce (.ofU64 1) ≠ tx.nonce then .execError
    else
      let cost := mul tx.gasLimit tx.gasPrice
      if acc.balance.nat < (add tx.value cost).nat then .execError
      else
        let acc := { acc with balance := sub acc.balance cost, nonce := add acc.nonce (.ofU64 1) }
        if !locks.2 then .wounded else
        let h := { (Host.new false).insertAccount sender acc with lockedAccounts := [sender] }
        exec env h tx (makeMsg sender tx false) tx.gasPrice vm

/-- `run_execute_dryrun_transaction`, src/parsec/agent/runners/evm/impl.cpp:434-445 and 522-565. -/
def dryRun (env : Env) (sender : Address) (tx : EvmTx) (vm : Vm) : Answer :=
  exec env (.new true) tx (makeMsg sender tx true) .zero vm

/-- `run_execute_real_transaction`, src/parsec/agent/runners/evm/impl.cpp:415-432. -/
def runSigned (c : Curve) (env : Env) (chain : UInt64) (tx : EvmTx) (locks : Bool × Bool)
    (vm : Vm) : Answer :=
  match checkSignature c chain tx with
  | none => .execError
  | some sender => runTransaction env sender tx locks vm

end Verif.Evm
