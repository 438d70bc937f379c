import Verif.Wallet.Client
/-!
# The two files of a client

Model of how the client keeps its state on disk: `client::save` and
`client::init` (src/uhs/client/client.cpp), `wallet::save` and `wallet::load`
(src/uhs/transaction/wallet.cpp), byte for byte.  Both files are written in
place, one after the other; a program that is killed leaves a beginning of the
file it was writing.

Simplifications: bytes reach the disk in the order in which they are written
and a file that was closed stays as it is (a power cut may do worse); that a
file cannot be opened or that the disk is full is not modelled.
-/
namespace Verif.Wallet

open Verif.Serial Verif.Tx

/-- The private key that goes with each public key; both are 32 bytes
(src/util/common/keys.hpp:23-25, src/uhs/transaction/wallet.hpp:242-244). -/
abbrev Secrets := PubKey → Hash

/-- The contents of the two files; `none` if there is no such file. -/
structure Files where
  client : Option Bytes := none
  wallet : Option Bytes := none
  deriving DecidableEq

/-- The type of the first part of the wallet file, the map `m_keys`
(src/uhs/transaction/wallet.cpp:320). -/
abbrev tKeys : Ty := .umap (.arr 32) (.arr 32)

/-- The type of the client file: `m_pending_txs`, `m_pending_inputs` and
`m_pending_spend` (src/uhs/client/client.cpp:331). -/
abbrev tPending : Ty :=
  .fields (.umap tHash tFullTx) (.fields (.umap tHash tInput) (.umap tHash tInput))

/-- What `save_client_state` writes (src/uhs/client/client.cpp:323-334). -/
def clientBytes (cl : Client) : Bytes :=
  enc tPending (cl.txs.map (fun e => (e.1.val, e.2.wire)),
    cl.inputs.map (fun e => (e.1.val, e.2.wire)),
    cl.spend.map (fun e => (e.1.val, e.2.wire)))

/-- What `wallet::save` writes (src/uhs/transaction/wallet.cpp:307-327);
`order` is the order of the set of outputs. -/
def walletBytes (sec : Secrets) (keys : List PubKey) (order : List Input) : Bytes :=
  enc tKeys (keys.map fun k => (k.val, (sec k).val)) ++
    enc (.oset tInput) (order.map Input.wire)

/-- `client::save` when it is not interrupted (src/uhs/client/client.cpp:336-339). -/
def filesOf (sec : Secrets) (cl : Client) (order : List Input) : Files :=
  ⟨some (clientBytes cl), some (walletBytes sec cl.wallet.keys order)⟩

/-- What a program leaves that is killed somewhere in `save`, when the files
were `old` and would become `new`: each file is emptied when it is opened
(`std::ios::trunc`) and then grows (src/uhs/client/client.cpp:323-339,
src/uhs/transaction/wallet.cpp:307-327). -/
inductive Killed (old : Files) (cb wb : Bytes) : Files → Prop
  | before : Killed old cb wb old
  | client (p : Bytes) (h : p <+: cb) : Killed old cb wb ⟨some p, old.wallet⟩
  | wallet (p : Bytes) (h : p <+: wb) : Killed old cb wb ⟨some cb, some p⟩

/-- A public and a private key out of the wallet file
(src/util/serialization/format.hpp:271-279). -/
def decPair (b : Bytes) : Res (Bytes × Bytes) := dec (.pair (.arr 32) (.arr 32)) b

/-- An output out of the wallet file (src/uhs/transaction/messages.cpp:38-41). -/
def decInput (b : Bytes) : Res ((Bytes × Nat) × (Bytes × Nat)) := dec tInput b

/-- Reading a map from a stream (src/util/serialization/format.hpp:254-285):
the elements read before a failure stay in the map.  The second part is what is
left of the stream, `none` after a failure, which sticks
(src/util/serialization/istream_serializer.cpp:41-49, src/util/serialization/stream_serializer.cpp:11-13). -/
def streamMap (len : Nat) :
    (fuel : Nat) → List (Bytes × Bytes) → Bytes → List (Bytes × Bytes) × Option Bytes
  | 0, acc, _ => (acc, none)
  | fuel + 1, acc, b =>
    if acc.length < len then
      match decPair b with
      | .ok e r =>
        if e.1 ∈ acc.map Prod.fst then streamMap len fuel acc r
        else streamMap len fuel (acc ++ [e]) r
      | _ => (acc, none)
    else (acc, some b)

/-- `deser >> m_keys` (src/uhs/transaction/wallet.cpp:340). -/
def streamKeys (b : Bytes) : List (Bytes × Bytes) × Option Bytes :=
  match decInt 8 b with
  | .ok n r => streamMap n (r.length + n + 1) [] r
  | _ => ([], none)

/-- The loop that reads the set of outputs (src/util/serialization/format.hpp:303-318):
elements with the same outpoint are equivalent, the first one stays
(src/uhs/transaction/wallet.hpp:215-221). -/
def streamSet : (n : Nat) → List Input → Bytes → List Input
  | 0, acc, _ => acc
  | n + 1, acc, b =>
    match decInput b with
    | .ok v r =>
      match Input.ofWire v with
      | some i => streamSet n (if has acc i then acc else acc ++ [i]) r
      | none => acc
    | _ => acc

/-- `deser >> m_utxos_set` (src/uhs/transaction/wallet.cpp:357). -/
def streamOutputs (b : Option Bytes) : List Input :=
  match b with
  | none => []
  | some b =>
    match decInt 8 b with
    | .ok n r => streamSet n [] r
    | _ => []

/-- `wallet::load` (src/uhs/transaction/wallet.cpp:329-364): nobody looks
whether reading succeeded. -/
def loadWallet (w : Wallet) (b : Bytes) : Wallet :=
  let (ks, rest) := streamKeys b
  load w (ks.filterMap fun e => toArr 32 e.1) (streamOutputs rest)

/-- A map of pending transactions out of what was read. -/
def txsOf (v : List (Bytes × (List ((Bytes × Nat) × (Bytes × Nat)) ×
    List (Bytes × Nat) × List (List Nat)))) : Option (List (Hash × FullTx)) :=
  v.mapM fun e => do some (← toArr 32 e.1, ← FullTx.ofWire e.2)

/-- A map of outputs out of what was read. -/
def inputsOf (v : List (Bytes × ((Bytes × Nat) × (Bytes × Nat)))) :
    Option (List (Hash × Input)) :=
  v.mapM fun e => do some (← toArr 32 e.1, ← Input.ofWire e.2)

/-- The members out of what was read (src/uhs/client/client.cpp:314-315). -/
def ofPending (w : Wallet) (v : tPending.val) : Option Client := do
  some ⟨w, ← txsOf v.1, ← inputsOf v.2.1, ← inputsOf v.2.2⟩

/-- `client::init` up to where it connects (src/uhs/client/client.cpp:71-78,
309-321).  `w` is the wallet as constructed.  `none`: the program ends with
"Error deserializing client file" (`fatal` exits, src/util/common/logging.hpp:115-120). -/
def start (w : Wallet) (f : Files) : Option Client :=
  let w := match f.wallet with
    | none => w
    | some b => loadWallet w b
  match f.client with
  | none => some { wallet := w }
  | some b =>
    match dec tPending b with
    | .ok v _ => ofPending w v
    | _ => none

end Verif.Wallet
