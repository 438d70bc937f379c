import Verif.Crypto.Sha256
import Verif.Tx.Model

/-!
# How the code computes the identifiers of transactions and outputs

The other files about transactions take the hash function as given and say what is fed to it.  Here
the functions are written once more with the object of class `CSHA256`, call by call.
-/

namespace Verif.Sha256

open Verif.Serial Verif.Tx

/-- An object made, written to and finalized. -/
def digestOf (memory : List UInt8) (chunks : List (List UInt8)) : Option (List UInt8) :=
  match (Sha.new memory).writes chunks with
  | none => none
  | some x =>
    match x.finalize with
    | none => none
    | some r => some r.2

/-- `tx_id` (`src/uhs/transaction/transaction.cpp:72-85`): two calls of `Write`. -/
def txIdCode (memory : List UInt8) (t : FullTx) : Option (List UInt8) :=
  digestOf memory [enc (.vec tInput) (t.inputs.map Input.wire),
    enc (.vec tOutput) (t.outputs.map Output.wire)]

/-- `uhs_id_from_output` (`src/uhs/transaction/transaction.cpp:105-120`): three calls of `Write`. -/
def uhsIdCode (memory : List UInt8) (entropy : Hash) (i : UInt64) (o : Output) :
    Option (List UInt8) :=
  digestOf memory [entropy.val, encInt 8 i.toNat, enc tOutput o.wire]

/-- `input::hash` (`src/uhs/transaction/transaction.cpp:48-58`). -/
def inputHashCode (memory : List UInt8) (i : Input) : Option (List UInt8) :=
  digestOf memory [enc tInput i.wire]

/-- `compact_tx::hash` (`src/uhs/transaction/transaction.cpp:158-168`). -/
def compactHashCode (memory : List UInt8) (t : CompactTx) : Option (List UInt8) :=
  digestOf memory [enc tCompactTx ({ t with attestations := [] } : CompactTx).wire]

end Verif.Sha256
