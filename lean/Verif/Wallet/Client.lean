import Verif.Wallet.Model
import Verif.Watchtower.Model
/-!
# The client

Model of `src/uhs/client/client.cpp`, and of `sync` of its two subclasses.  The
maps are lists of pairs.  Every operation ends with `save`, and `restart` loads
what was saved: a crash in the middle of an operation is the subject of `Verif/Wallet/Files.lean`.  What the
network answers is an input of the model.
-/
namespace Verif.Wallet

open Verif.Serial Verif.Tx

/-- The members (src/uhs/client/client.hpp:279-299). -/
structure Client where
  wallet : Wallet
  txs : List (Hash × FullTx) := []
  inputs : List (Hash × Input) := []
  spend : List (Hash × Input) := []

/-- `insert` into a map: an entry that is there already stays. -/
def put {α : Type} (m : List (Hash × α)) (k : Hash) (v : α) : List (Hash × α) :=
  if (m.lookup k).isSome then m else m ++ [(k, v)]

/-- `erase` of a key. -/
def del {α : Type} (m : List (Hash × α)) (k : Hash) : List (Hash × α) :=
  m.filter fun e => e.1 ≠ k

/-- `register_pending_tx` (src/uhs/client/client.cpp:112-119). -/
def register (c : Crypto) (cl : Client) : List Input → Client
  | [] => cl
  | i :: l => register c { cl with spend := put cl.spend (i.hash c) i } l

/-- `import_transaction` (src/uhs/client/client.cpp:234-237). -/
def importTx (c : Crypto) (cl : Client) (t : FullTx) : Client :=
  { cl with txs := put cl.txs (txId c t) t }

/-- The second half of `create_transaction` and of `fan`: a payment made by the
wallet is registered (src/uhs/client/client.cpp:124-130, 160-165). -/
def made (c : Crypto) (cl : Client) : Option FullTx × Wallet →
    Option FullTx × Client
  | (none, w) => (none, { cl with wallet := w })
  | (some t, w) => (some t, register c { cl with wallet := w } t.inputs)

/-- `create_transaction` (src/uhs/client/client.cpp:121-131). -/
def create (c : Crypto) (sg : Signer) (cl : Client) (amount : UInt32)
    (payee : PubKey) (d : Draw) : Option FullTx × Client :=
  made c cl (sendTo c sg cl.wallet amount payee d true)

/-- The part of `send` and `fan` after the payment is registered, up to where
the sentinel is asked (src/uhs/client/client.cpp:145, 167, 177).  If the sentinel answers that
the transaction is confirmed, `confirm` follows (src/uhs/client/client.cpp:190-192). -/
def submit (c : Crypto) : Option FullTx × Client → Option FullTx × Client
  | (none, cl) => (none, cl)
  | (some t, cl) => (some t, importTx c cl t)

/-- `send` (src/uhs/client/client.cpp:133-151). -/
def send (c : Crypto) (sg : Signer) (cl : Client) (amount : UInt32)
    (payee : PubKey) (d : Draw) : Option FullTx × Client :=
  submit c (create c sg cl amount payee d)

/-- `fan` (src/uhs/client/client.cpp:153-173); `count` is a `uint32_t`. -/
def fanOut (c : Crypto) (sg : Signer) (cl : Client) (count v : UInt32)
    (payee : PubKey) (d : Draw) : Option FullTx × Client :=
  submit c (made c cl (fan c sg cl.wallet count.toUInt64 v payee d true))

/-- `mint` (src/uhs/client/client.cpp:95-106). -/
def mintCoins (c : Crypto) (cl : Client) (v : UInt32) (ds : List Draw) :
    FullTx × Client :=
  let (t, w) := mint c cl.wallet v ds
  (t, importTx c { cl with wallet := w } t)

/-- `import_send_input` (src/uhs/client/client.cpp:203-210). -/
def importInput (c : Crypto) (cl : Client) (i : Input) : Client :=
  if spendable c cl.wallet i.prevoutData.commitment then
    { cl with inputs := put cl.inputs i.prevout.txId i }
  else cl

/-- `new_address` (src/uhs/client/client.cpp:212-216). -/
def newAddress (cl : Client) (d : Draw) : PubKey × Client :=
  let (k, w) := generateKey cl.wallet d
  (k, { cl with wallet := w })

/-- `check_pending` (src/uhs/client/client.cpp:239-251). -/
def checkPending (txs : List (Hash × FullTx)) (i : Input) : Bool :=
  txs.any fun e => e.2.inputs.any fun x => x = i

/-- The loop of `abandon_transaction` (src/uhs/client/client.cpp:262-271). -/
def giveBack (c : Crypto) (cl : Client) : List Input → Client
  | [] => cl
  | i :: l =>
    giveBack c (if (cl.spend.lookup (i.hash c)).isSome then
        if checkPending cl.txs i then cl
        else { cl with
          spend := del cl.spend (i.hash c)
          wallet := confirmInputs cl.wallet [i] }
      else cl) l

/-- `abandon_transaction` (src/uhs/client/client.cpp:253-278). -/
def abandon (c : Crypto) (cl : Client) (id : Hash) : Bool × Client :=
  match cl.txs.lookup id with
  | none => (false, cl)
  | some t => (true, giveBack c { cl with txs := del cl.txs id } t.inputs)

/-- The loop of `confirm_transaction` (src/uhs/client/client.cpp:287-292). -/
def unregister (c : Crypto) (m : List (Hash × Input)) (l : List Input) :
    List (Hash × Input) :=
  l.foldl (fun m i => del m (i.hash c)) m

/-- The part of `confirm_transaction` about a pending transaction
(src/uhs/client/client.cpp:284-295). -/
def confirmPending (c : Crypto) (cl : Client) (id : Hash) : Bool × Client :=
  match cl.txs.lookup id with
  | none => (false, cl)
  | some t => (true, { cl with
      wallet := confirmTx c cl.wallet t
      spend := unregister c cl.spend t.inputs
      txs := del cl.txs id })

/-- The part of `confirm_transaction` about a pending input
(src/uhs/client/client.cpp:297-302). -/
def confirmInput (cl : Client) (id : Hash) : Bool × Client :=
  match cl.inputs.lookup id with
  | none => (false, cl)
  | some i => (true, { cl with
      wallet := confirmInputs cl.wallet [i]
      inputs := del cl.inputs id })

/-- `confirm_transaction` (src/uhs/client/client.cpp:280-307). -/
def confirm (c : Crypto) (cl : Client) (id : Hash) : Bool × Client :=
  let (b1, cl) := confirmPending c cl id
  let (b2, cl) := confirmInput cl id
  (b1 || b2, cl)

/-- `init` after `save`, when the program is started again (src/uhs/client/client.cpp:71-86,
309-339).  `order` is the order of the set of outputs.  The order of the three
maps may change too; nothing below depends on it except `syncAtomizer`, where it
is an argument. -/
def restart (cl : Client) (order : List Input) : Client :=
  { cl with wallet := load cl.wallet cl.wallet.keys order }

/-- `twophase_client::sync` (src/uhs/client/twophase_client.cpp:36-64).  `ids` lists the
transactions that are pending, or that pending inputs come from; `ask` is what
the shards answer to `check_tx_id`, if they do. -/
def syncTwoPhase (c : Crypto) (ask : Hash → Option Bool) (cl : Client) :
    List Hash → Bool × Client
  | [] => (true, cl)
  | id :: ids =>
    match ask id with
    | none =>
      let (_, cl) := syncTwoPhase c ask cl ids
      (false, cl)
    | some true => syncTwoPhase c ask (confirm c cl id).2 ids
    | some false => syncTwoPhase c ask cl ids

/-- The loop over the answers for one transaction (src/uhs/client/atomizer_client.cpp:65-78):
stops at the first answer that is `spent` or `unspent`. -/
def scan (success : Bool) : List Watchtower.Status → Bool
  | [] => success
  | s :: l => if s ≠ .unspent ∧ s ≠ .spent then scan false l else success

/-- The loop of `atomizer_client::sync` (src/uhs/client/atomizer_client.cpp:63-85) over the
answers of the watchtower, in the order of the map of answers. -/
def syncAtomizer (c : Crypto) (cl : Client) (success : Bool) :
    List (Hash × List Watchtower.Status) → Bool × Client
  | [] => (success, cl)
  | (id, l) :: rest =>
    if scan success l then
      let (b, cl) := confirm c cl id
      syncAtomizer c cl b rest
    else syncAtomizer c cl false rest

end Verif.Wallet
