import Verif.Tx.Model
/-!
# The wallet

Model of `src/uhs/transaction/wallet.cpp`.  Arithmetic is that of `uint64_t`.
Assertions are taken as compiled out; `assertOk` is the one about the state.
Every method takes the wallet's mutexes for each part it reads or changes; the
model runs methods one after another.
-/
namespace Verif.Wallet

open Verif.Serial Verif.Tx

/-- The members (src/uhs/transaction/wallet.hpp:225-250).  `keys` stands for `m_keys`, `m_pubkeys`
and `m_witness_programs`, which hold the same keys; private keys are not
modelled.  `utxos` is `m_utxos_set`, a set ordered by outpoint; the model keeps
its elements in the order of insertion, and only `load` depends on the order. -/
structure Wallet where
  keys : List PubKey := []
  balance : UInt64 := 0
  utxos : List Input := []
  queue : List Input := []
  seedFrom : UInt64 := 0
  seedTo : UInt64 := 0
  seedValue : UInt32 := 0
  seedCommit : Hash

/-- Membership in `m_utxos_set`: elements with the same outpoint are equivalent
(src/uhs/transaction/wallet.hpp:215-221). -/
def has (s : List Input) (i : Input) : Bool :=
  s.any fun x => x.prevout = i.prevout

/-- `m_utxos_set.erase(i)`. -/
def erase (s : List Input) (i : Input) : List Input :=
  s.filter fun x => x.prevout ≠ i.prevout

/-- What `generate_key` draws: a new key and an index. -/
abbrev Draw := PubKey × Nat

/-- `generate_key` (src/uhs/transaction/wallet.cpp:124-156).  With more than 10000 keys one of them
is used again. -/
def generateKey (w : Wallet) (d : Draw) : PubKey × Wallet :=
  if 10000 < w.keys.length then
    ((w.keys[d.2 % w.keys.length]?).getD d.1, w)
  else (d.1, { w with keys := w.keys ++ [d.1] })

/-- `mint_new_coins` (src/uhs/transaction/wallet.cpp:25-44), one draw per output. -/
def mint (c : Crypto) (w : Wallet) (v : UInt32) : List Draw → FullTx × Wallet
  | [] => (⟨[], [], []⟩, w)
  | d :: ds =>
    let (k, w) := generateKey w d
    let (t, w) := mint c w v ds
    ({ t with outputs := ⟨p2pkCommitment c k, v.toUInt64⟩ :: t.outputs }, w)

/-- A hash of 32 zero bytes. -/
def zero : Hash := ⟨List.replicate 32 0, by simp⟩

/-- `create_seeded_transaction` (src/uhs/transaction/wallet.cpp:82-98) when there are seeds. -/
def seedTx (w : Wallet) (idx : UInt64) : FullTx where
  inputs := [⟨⟨zero, idx⟩, ⟨zero, w.seedValue.toUInt64⟩⟩]
  outputs := [⟨w.seedCommit, w.seedValue.toUInt64⟩]
  witness := []

/-- `create_seeded_input` (src/uhs/transaction/wallet.cpp:100-107) when there are seeds. -/
def seedInput (c : Crypto) (w : Wallet) (idx : UInt64) : Input :=
  ⟨⟨txId c (seedTx w idx), 0⟩, ⟨w.seedCommit, w.seedValue.toUInt64⟩⟩

/-- Number of seeds left, `m_seed_to - m_seed_from`. -/
def seedsLeft (w : Wallet) : Nat := (w.seedTo - w.seedFrom).toNat

/-- The loop that takes seeds until the amount is reached
(src/uhs/transaction/wallet.cpp:501-511); the first argument is the number of seeds left.  Returns
the inputs, and what has been added up. -/
def takeSeeds (c : Crypto) (w : Wallet) (amount : UInt64) :
    Nat → UInt64 → UInt64 → List Input × UInt64
  | 0, _, tot => ([], tot)
  | n + 1, idx, tot =>
    if tot < amount then
      let r := takeSeeds c w amount n (idx + 1) (tot + w.seedValue.toUInt64)
      (seedInput c w idx :: r.1, r.2)
    else ([], tot)

/-- The loop over the spend queue (src/uhs/transaction/wallet.cpp:513-519). -/
def takeQueue (amount : UInt64) : List Input → UInt64 → List Input × UInt64
  | [], tot => ([], tot)
  | i :: l, tot =>
    if tot < amount then
      let r := takeQueue amount l (tot + i.prevoutData.value)
      (i :: r.1, r.2)
    else ([], tot)

/-- The loop that removes the outputs taken from the front of the queue
(src/uhs/transaction/wallet.cpp:526-531). -/
def dropFront : Nat → Wallet → Wallet
  | 0, w => w
  | n + 1, w =>
    match w.queue with
    | [] => w
    | i :: l => dropFront n { w with
        balance := w.balance - i.prevoutData.value
        utxos := erase w.utxos i
        queue := l }

/-- `accumulate_inputs` (src/uhs/transaction/wallet.cpp:494-534), without the empty witnesses. -/
def accumulate (c : Crypto) (w : Wallet) (amount : UInt64) :
    Option (List Input × UInt64) × Wallet :=
  let s := takeSeeds c w amount (seedsLeft w) w.seedFrom 0
  let k := UInt64.ofNat s.1.length
  let w := { w with seedFrom := w.seedFrom + k }
  let q := takeQueue amount w.queue s.2
  if q.2 < amount then (none, { w with seedFrom := w.seedFrom - k })
  else (some (s.1 ++ q.1, q.2), dropFront q.1.length w)

/-- The signatures the wallet can make with its private keys. -/
abbrev Signer := PubKey → Hash → Sig

/-- The witness of one input (src/uhs/transaction/wallet.cpp:163-212): `old` is what was there. -/
def signInput (c : Crypto) (sg : Signer) (w : Wallet) (id : Hash)
    (i : Input) (old : Bytes) : Bytes :=
  match w.keys.find? fun k => p2pkCommitment c k = i.prevoutData.commitment with
  | none => old
  | some k => 0 :: (k.val ++ (sg k id).val)

/-- `sign` (src/uhs/transaction/wallet.cpp:158-213). -/
def sign (c : Crypto) (sg : Signer) (w : Wallet) (t : FullTx) : FullTx :=
  let id := txId c t
  { t with witness := t.inputs.mapIdx fun n i =>
      signInput c sg w id i ((t.witness[n]?).getD []) }

/-- An empty witness (src/uhs/transaction/wallet.cpp:507, 516). -/
def blank : Bytes := List.replicate 64 0

/-- `sign` if asked to (src/uhs/transaction/wallet.cpp:75-77). -/
def signIf (c : Crypto) (sg : Signer) (w : Wallet) (b : Bool) (t : FullTx) :
    FullTx :=
  if b then sign c sg w t else t

/-- The change output (src/uhs/transaction/wallet.cpp:65-73). -/
def change (c : Crypto) (w : Wallet) (tot amount : UInt64) (d : Draw) :
    List Output × Wallet :=
  if amount < tot then
    let (k, w) := generateKey w d
    ([⟨p2pkCommitment c k, tot - amount⟩], w)
  else ([], w)

/-- `send_to` (src/uhs/transaction/wallet.cpp:46-80). -/
def sendTo (c : Crypto) (sg : Signer) (w : Wallet) (amount : UInt32)
    (payee : PubKey) (d : Draw) (b : Bool) : Option FullTx × Wallet :=
  match accumulate c w amount.toUInt64 with
  | (none, w) => (none, w)
  | (some (ins, tot), w) =>
    let (ch, w) := change c w tot amount.toUInt64 d
    (some (signIf c sg w b
      { inputs := ins
        outputs := ⟨p2pkCommitment c payee, amount.toUInt64⟩ :: ch
        witness := ins.map fun _ => blank }), w)

/-- `fan` (src/uhs/transaction/wallet.cpp:454-492). -/
def fan (c : Crypto) (sg : Signer) (w : Wallet) (count : UInt64) (v : UInt32)
    (payee : PubKey) (d : Draw) (b : Bool) : Option FullTx × Wallet :=
  let amount := count * v.toUInt64
  match accumulate c w amount with
  | (none, w) => (none, w)
  | (some (ins, tot), w) =>
    let (ch, w) := change c w tot amount d
    (some (signIf c sg w b
      { inputs := ins
        outputs := ch ++ List.replicate count.toNat
          ⟨p2pkCommitment c payee, v.toUInt64⟩
        witness := ins.map fun _ => blank }), w)

/-- The outputs of `send_to` with counts (src/uhs/transaction/wallet.cpp:425-438): all equal, and
the last takes the rest. -/
def split (c : Crypto) (payee : PubKey) (v : UInt64) :
    Nat → UInt64 → List Output
  | 0, _ => []
  | 1, tot => [⟨p2pkCommitment c payee, tot⟩]
  | n + 1, tot => ⟨p2pkCommitment c payee, v⟩ :: split c payee v n (tot - v)

/-- Total of a list of inputs in `uint64_t`. -/
def sum64 (l : List Input) : UInt64 :=
  l.foldl (fun t i => t + i.prevoutData.value) 0

/-- `send_to` with counts (src/uhs/transaction/wallet.cpp:366-447).  The two loops that take inputs
(388-407) are written as taking the first elements. -/
def sendCounts (c : Crypto) (sg : Signer) (w : Wallet) (nin nout : UInt64)
    (payee : PubKey) (b : Bool) : Option FullTx × Wallet :=
  if UInt64.ofNat w.utxos.length + w.seedTo - w.seedFrom < nin then (none, w)
  else
    let k := min (seedsLeft w) nin.toNat
    let seeds := (List.range k).map fun j =>
      seedInput c w (w.seedFrom + UInt64.ofNat j)
    let ins := seeds ++ w.queue.take (nin.toNat - k)
    let tot := sum64 ins
    let v := tot / nout
    if v = 0 ∧ 1 < nout then (none, w)
    else
      let w := dropFront (ins.length - k)
        { w with seedFrom := w.seedFrom + UInt64.ofNat k }
      (some (signIf c sg w b
        { inputs := ins
          outputs := split c payee v nout.toNat tot
          witness := seeds.map fun _ => blank }), w)

/-- The credit loop of `update_balance` (src/uhs/transaction/wallet.cpp:219-225). -/
def credit (w : Wallet) : List Input → Wallet
  | [] => w
  | i :: l =>
    credit (if has w.utxos i then w else { w with
      utxos := w.utxos ++ [i]
      balance := w.balance + i.prevoutData.value
      queue := w.queue ++ [i] }) l

/-- The debit loop of `update_balance` (src/uhs/transaction/wallet.cpp:227-232). -/
def debit (w : Wallet) : List Input → Wallet
  | [] => w
  | i :: l =>
    debit (if has w.utxos i then { w with
      utxos := erase w.utxos i
      balance := w.balance - i.prevoutData.value } else w) l

/-- `update_balance` (src/uhs/transaction/wallet.cpp:215-234). -/
def updateBalance (w : Wallet) (credits debits : List Input) : Wallet :=
  debit (credit w credits) debits

/-- The assertion at the end of `update_balance` (src/uhs/transaction/wallet.cpp:233). -/
def assertOk (w : Wallet) : Bool := w.queue.length = w.utxos.length

/-- `is_spendable` (src/uhs/transaction/wallet.cpp:536-546). -/
def spendable (c : Crypto) (w : Wallet) (h : Hash) : Bool :=
  w.keys.any fun k => p2pkCommitment c k = h

/-- The outputs of a transaction that are the wallet's (src/uhs/transaction/wallet.cpp:272-284). -/
def newUtxos (c : Crypto) (w : Wallet) (t : FullTx) : List Input :=
  (List.range t.outputs.length).filterMap fun n =>
    match inputFromOutputId t n (txId c t) with
    | none => none
    | some i => if spendable c w i.prevoutData.commitment then some i else none

/-- `confirm_transaction` (src/uhs/transaction/wallet.cpp:270-286). -/
def confirmTx (c : Crypto) (w : Wallet) (t : FullTx) : Wallet :=
  updateBalance w (newUtxos c w t) t.inputs

/-- `confirm_inputs` (src/uhs/transaction/wallet.cpp:449-452). -/
def confirmInputs (w : Wallet) (l : List Input) : Wallet :=
  updateBalance w l []

/-- `balance` (src/uhs/transaction/wallet.cpp:288-296). -/
def balanceOf (w : Wallet) : UInt64 :=
  if w.seedFrom ≠ w.seedTo then
    w.balance + (w.seedTo - w.seedFrom) * w.seedValue.toUInt64
  else w.balance

/-- `load` of a saved wallet (src/uhs/transaction/wallet.cpp:307-364), `order` being the order of
the set.  The seeds are not saved; they stay what they were. -/
def load (w : Wallet) (keys : List PubKey) (order : List Input) : Wallet :=
  { w with
    keys, utxos := order, queue := order
    balance := order.foldl (fun t i => t + i.prevoutData.value) 0 }

end Verif.Wallet
