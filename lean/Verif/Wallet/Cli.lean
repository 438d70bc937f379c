import Verif.Wallet.Client
import Verif.Bech32.Model
import Verif.Hex.Model
import Verif.Http.Json
import Verif.Config.File
/-!
# The command line of the client

Model of `src/uhs/client/client-cli.cpp` on top of the client of
`Verif/Wallet/Client.lean`, with the part of `send_transaction` that depends on the
answer of the sentinel.  A run of the program starts from the client that its two
files hold and leaves the client that they hold afterwards (how they are written and
read is the subject of `Verif/Wallet/Files.lean`).  What is printed is a list of
lines, on either stream; messages of the logger are left out.
-/
namespace Verif.Wallet.Cli

open Verif.Serial Verif.Tx Verif.Evm
open Verif.Http (lit stoull)
open Verif.Config (dec)

/-- A `std::string`. -/
abbrev Text := List UInt8

/-- `sentinel::tx_status` (src/uhs/sentinel/interface.hpp:18-32). -/
inductive Status
  | pending | staticInvalid | stateInvalid | confirmed
  deriving DecidableEq

/-- `to_string` of a status (src/uhs/sentinel/interface.cpp:15-32). -/
def Status.text : Status → Text
  | .stateInvalid => lit "Contextually invalid"
  | .confirmed => lit "Confirmed"
  | .pending => lit "Pending"
  | .staticInvalid => lit "Statically invalid"

/-- `execute_response` (src/uhs/sentinel/interface.hpp:52-60).  Of the error only its
text is kept. -/
structure Response where
  status : Status
  error : Option Text := none

/-- What a run of the program depends on besides the client. -/
structure World where
  /-- The message of `load_options`, if the file is refused. -/
  config : Text → Option Text
  /-- The network part of `init` (src/uhs/client/client.cpp:80-85). -/
  started : Bool
  /-- What the generator of keys draws, one after the other. -/
  draws : Nat → Draw
  /-- What the sentinel answers to a transaction, if it does. -/
  answer : FullTx → Option Response
  /-- `sync` of the kind of client that is configured (`syncTwoPhase`,
  `syncAtomizer`). -/
  sync : Client → Client
  /-- `print_amount` (src/uhs/client/client.cpp:88-93): how a `double` is printed is up
  to the platform. -/
  amount : UInt64 → Text

/-- How the program ends. -/
inductive End
  | exit (code : Int)
  /-- by an exception that nothing catches -/
  | throws
  /-- memory outside an array or bytes never written are read or written -/
  | undefined
  deriving DecidableEq

/-- What a run leaves behind. -/
structure Run where
  client : Client
  out : List Text
  ended : End

/-- A command returned `false`, and `main` returns -1. -/
def failed (cl : Client) (out : List Text) : Run := ⟨cl, out, .exit (-1)⟩

/-- The end of `main` (src/uhs/client/client-cli.cpp:262). -/
def done (cl : Client) (out : List Text) : Run := ⟨cl, out, .exit 0⟩

/-- A number is read, or the program ends (`std::stoul`, `std::stoull`; `unsigned
long` has 64 bits). -/
def reading (cl : Client) (t : Text) (k : UInt64 → Run) : Run :=
  match stoull t with
  | .ok n => k n
  | .refused | .throws => ⟨cl, [], .throws⟩
  | .undefined => ⟨cl, [], .undefined⟩

/-- `send_transaction` (src/uhs/client/client.cpp:175-195). -/
def sendTransaction (c : Crypto) (w : World) (cl : Client) (t : FullTx) :
    Option Response × Client :=
  let cl := importTx c cl t
  match w.answer t with
  | none => (none, cl)
  | some r =>
    (some r, if r.status = .confirmed then (confirm c cl (txId c t)).2 else cl)

/-- The second half of `send` and of `fan` (src/uhs/client/client.cpp:145-150,
167-172): without an answer there is no result. -/
def answered (c : Crypto) (w : World) :
    Option FullTx × Client → Option (FullTx × Response) × Client
  | (none, cl) => (none, cl)
  | (some t, cl) =>
    match sendTransaction c w cl t with
    | (none, cl) => (none, cl)
    | (some r, cl) => (some (t, r), cl)

/-- `export_send_inputs` (src/uhs/transaction/wallet.cpp:109-122).  The index is a
`uint32_t` there; a transaction has fewer outputs. -/
def exportInputs (c : Crypto) (t : FullTx) (payee : PubKey) : List Input :=
  (List.range t.outputs.length).filterMap fun n =>
    match inputFromOutput c t n with
    | none => none
    | some i =>
      if i.prevoutData.commitment = p2pkCommitment c payee then some i else none

/-- The bytes of an input, `make_buffer(inp)`. -/
def inputBytes (i : Input) : Bytes := makeBuffer tInput i.wire

/-- `from_buffer<input>`; `none` of the outer option does not occur for such a plain
type. -/
def inputFrom (b : Bytes) : Option (Option Input) :=
  match fromBuffer tInput b with
  | none => none
  | some none => some none
  | some (some v) => some (Input.ofWire v)

/-- `print_tx_result` (src/uhs/client/client-cli.cpp:38-63). -/
def txResult (c : Crypto) (t : FullTx) (r : Response) (payee : PubKey) : List Text :=
  [lit "tx_id:", Hex.toHex (txId c t).val] ++
    (exportInputs c t payee).flatMap (fun i =>
      [lit "Data for recipient importinput:", Hex.toHex (inputBytes i)]) ++
    [lit "Sentinel responded: " ++ r.status.text] ++
    match r.error with
    | none => []
    | some e => [lit "Validation error: " ++ e]

/-- `address::decode` of an argument (src/uhs/client/client-cli.cpp:74-79, 103-108); what
follows runs with the key.  The message of `decode` itself is left out. -/
def paying (cl : Client) (a : Text) (k : PubKey → Run) : Run :=
  match Bech32.addressDecode (a.map UInt8.toNat) with
  | .undefined => ⟨cl, [], .undefined⟩
  | .invalid => failed cl [lit "Could not decode address"]
  | .key b =>
    match toArr 32 (b.map Nat.toUInt8) with
    | none => ⟨cl, [], .undefined⟩
    | some p => k p

/-- The end of `send_command` and of `fan_command`
(src/uhs/client/client-cli.cpp:83-89, 113-119). -/
def report (c : Crypto) (payee : PubKey) :
    Option (FullTx × Response) × Client → Run
  | (none, cl) => failed cl [lit "Could not generate valid send tx."]
  | (some (t, r), cl) => done cl (txResult c t r payee)

/-- `mint_command` (src/uhs/client/client-cli.cpp:19-36). -/
def mintCommand (c : Crypto) (w : World) (cl : Client) (args : List Text) : Run :=
  match args with
  | _ :: _ :: _ :: _ :: _ :: n :: v :: _ =>
    reading cl n fun n => reading cl v fun v =>
      let (t, cl) := mintCoins c cl v.toUInt32 ((List.range n.toNat).map w.draws)
      done cl [Hex.toHex (txId c t).val]
  | _ => failed cl [lit "Mint requires args <n outputs> <output value>"]

/-- `send_command` (src/uhs/client/client-cli.cpp:65-90). -/
def sendCommand (c : Crypto) (sg : Signer) (w : World) (cl : Client)
    (args : List Text) : Run :=
  match args with
  | _ :: _ :: _ :: _ :: _ :: v :: a :: _ =>
    reading cl v fun v => paying cl a fun payee =>
      report c payee (answered c w (create c sg cl v.toUInt32 payee (w.draws 0)))
  | _ => failed cl [lit "Send requires args <value> <pubkey>"]

/-- `fan_command` (src/uhs/client/client-cli.cpp:92-120). -/
def fanCommand (c : Crypto) (sg : Signer) (w : World) (cl : Client)
    (args : List Text) : Run :=
  match args with
  | _ :: _ :: _ :: _ :: _ :: n :: v :: a :: _ =>
    reading cl v fun v => reading cl n fun n => paying cl a fun payee =>
      report c payee (answered c w (made c cl
        (fan c sg cl.wallet n.toUInt32.toUInt64 v.toUInt32 payee (w.draws 0) true)))
  | _ => failed cl [lit "Fan requires args <count> <value> <pubkey>"]

/-- `newaddress_command` (src/uhs/client/client-cli.cpp:122-142). -/
def newAddressCommand (w : World) (cl : Client) : Run :=
  let (k, cl) := newAddress cl (w.draws 0)
  match Bech32.newAddress (k.val.map UInt8.toNat) with
  | none => ⟨cl, [], .undefined⟩
  | some a => done cl [a.map Nat.toUInt8]

/-- `importinput_command` (src/uhs/client/client-cli.cpp:144-160): the number of
arguments is not checked. -/
def importCommand (c : Crypto) (cl : Client) (args : List Text) : Run :=
  match args[5]? with
  | none => ⟨cl, [], .undefined⟩
  | some t =>
    match Hex.fromHex t with
    | none => failed cl [lit "Invalid input encoding."]
    | some b =>
      match inputFrom b with
      | none => ⟨cl, [], .undefined⟩
      | some none => failed cl [lit "Invalid input"]
      | some (some i) => done (importInput c cl i) []

/-- `hash_from_hex` of an argument: `none` if bytes are not written or are written
outside the array. -/
def hashArg (t : Text) : Option Hash :=
  match Hex.hashFromHex t with
  | .overflow => none
  | .ok l => do toArr 32 (← l.mapM id)

/-- `utxo_count` (src/uhs/transaction/wallet.cpp:298-305). -/
def utxoCount (w : Wallet) : Nat :=
  if w.seedFrom ≠ w.seedTo then w.utxos.length + (w.seedTo - w.seedFrom).toNat
  else w.utxos.length

/-- `confirmtx_command` (src/uhs/client/client-cli.cpp:162-174): the number of
arguments is not checked. -/
def confirmCommand (c : Crypto) (w : World) (cl : Client) (args : List Text) : Run :=
  match args[5]? with
  | none => ⟨cl, [], .undefined⟩
  | some t =>
    match hashArg t with
    | none => ⟨cl, [], .undefined⟩
    | some id =>
      match confirm c cl id with
      | (false, cl) => failed cl [lit "Unknown TXID"]
      | (true, cl) => done cl [lit "Confirmed. Balance: " ++
          w.amount (balanceOf cl.wallet) ++ lit " UTXOs: " ++ dec (utxoCount cl.wallet)]

/-- The command `info` (src/uhs/client/client-cli.cpp:239-244). -/
def infoCommand (w : World) (cl : Client) : Run :=
  done cl [lit "Balance: " ++ w.amount (balanceOf cl.wallet) ++ lit ", UTXOs: " ++
    dec (utxoCount cl.wallet) ++ lit ", pending TXs: " ++ dec cl.txs.length]

/-- The choice of the command (src/uhs/client/client-cli.cpp:221-255). -/
def command (c : Crypto) (sg : Signer) (w : World) (cl : Client) (args : List Text)
    (name : Text) : Run :=
  if name = lit "mint" then mintCommand c w cl args
  else if name = lit "send" then sendCommand c sg w cl args
  else if name = lit "fan" then fanCommand c sg w cl args
  else if name = lit "sync" then done (w.sync cl) []
  else if name = lit "newaddress" then newAddressCommand w cl
  else if name = lit "info" then infoCommand w cl
  else if name = lit "importinput" then importCommand c cl args
  else if name = lit "confirmtx" then confirmCommand c w cl args
  else done cl [lit "Unknown command"]

/-- The line about the use of the program (src/uhs/client/client-cli.cpp:181-183). -/
def usage (name : Text) : Text :=
  lit "Usage: " ++ name ++
    lit " <config file> <client file> <wallet file> <command> <args...>"

/-- `main` (src/uhs/client/client-cli.cpp:177-263).  There is always a name of the
program. -/
def run (c : Crypto) (sg : Signer) (w : World) (cl : Client) (args : List Text) : Run :=
  match args with
  | prog :: cfg :: _ :: _ :: name :: _ =>
    match w.config cfg with
    | some e => failed cl [lit "Error loading config file: " ++ e]
    | none => if w.started then command c sg w cl args name else failed cl []
  | prog :: _ => done cl [usage prog]
  | [] => ⟨cl, [], .undefined⟩

end Verif.Wallet.Cli
