import Verif.Tx.Model

/-! Specification of transaction validity, independent of the checking code. -/
namespace Verif.Tx

open Verif.Serial

/-- Unbounded total of a list of 64-bit values. -/
def total (vs : List UInt64) : Nat := (vs.map UInt64.toNat).sum

/-- Every size fits the 64-bit length prefixes (true of anything in memory). -/
def FullTx.Fits (t : FullTx) : Prop :=
  t.inputs.length < 2 ^ 64 ∧ t.outputs.length < 2 ^ 64 ∧ t.witness.length < 2 ^ 64 ∧
    ∀ w ∈ t.witness, w.length < 2 ^ 64

/-- Sizes fit and the attestation map has one entry per key. -/
def CompactTx.Fits (t : CompactTx) : Prop :=
  t.inputs.length < 2 ^ 64 ∧ t.uhsOutputs.length < 2 ^ 64 ∧ t.attestations.length < 2 ^ 64 ∧
    (t.attestations.map Prod.fst).Nodup

/-- `w` proves, for a transaction with id `id`, ownership of an output with the
given commitment: it is a type byte 0, a public key and a signature, the
commitment is the hash of type byte and key, and the signature by that key over
the transaction id verifies. -/
def OwnerSigned (c : Crypto) (id commitment : Hash) (w : Bytes) : Prop :=
  ∃ (pk : PubKey) (sig : Sig), w = 0 :: (pk.val ++ sig.val) ∧ c.sha (0 :: pk.val) = commitment ∧
    c.parse pk.val = true ∧ c.verify pk.val id.val sig.val = true

/-- A well-formed transaction. -/
structure WellFormed (c : Crypto) (t : FullTx) : Prop where
  has_input : t.inputs ≠ []
  has_output : t.outputs ≠ []
  one_witness_each : t.witness.length = t.inputs.length
  no_outpoint_twice : (t.inputs.map (·.prevout)).Nodup
  input_values : ∀ i ∈ t.inputs, 1 ≤ i.prevoutData.value.toNat
  output_values : ∀ o ∈ t.outputs, 1 ≤ o.value.toNat
  fits : total (t.inputs.map (·.prevoutData.value)) < 2 ^ 64
  balanced : total (t.inputs.map (·.prevoutData.value)) = total (t.outputs.map (·.value))
  witnessed : ∀ (i : Nat) (inp : Input) (w : Bytes), t.inputs[i]? = some inp →
    t.witness[i]? = some w → OwnerSigned c (txId c t) inp.prevoutData.commitment w

/-- What each error claims about the transaction. -/
def Explains (c : Crypto) (t : FullTx) : TxError → Prop
  | .noInputs => t.inputs = []
  | .noOutputs => t.outputs = []
  | .missingWitness => t.witness.length ≠ t.inputs.length
  | .inputDuplicate idx => ∃ j i i', j < idx ∧ t.inputs[j]? = some i ∧ t.inputs[idx]? = some i' ∧
      i.prevout = i'.prevout
  | .inputZeroValue idx => ∃ i, t.inputs[idx]? = some i ∧ i.prevoutData.value = 0
  | .outputZeroValue idx => ∃ o, t.outputs[idx]? = some o ∧ o.value = 0
  | .valueOverflow => 2 ^ 64 ≤ total (t.inputs.map (·.prevoutData.value)) ∨
      2 ^ 64 ≤ total (t.outputs.map (·.value))
  | .asymmetricValues =>
      total (t.inputs.map (·.prevoutData.value)) ≠ total (t.outputs.map (·.value))
  | .witness code idx => ∃ inp w, t.inputs[idx]? = some inp ∧ t.witness[idx]? = some w ∧
      match code with
      | .missingType => w = []
      | .unknownType => ∃ ty rest, w = ty :: rest ∧ ty ≠ 0
      | .malformed => w.length ≠ 97
      | .programMismatch => c.sha (w.take 33) ≠ inp.prevoutData.commitment
      | .invalidPubkey => c.parse ((w.drop 1).take 32) = false
      | .invalidSignature => c.verify ((w.drop 1).take 32) (txId c t).val (w.drop 33) = false

end Verif.Tx
