import Verif.Serial.Messages

/-!
Model of `src/uhs/transaction/{transaction,messages,validation}.cpp`.

SHA-256 and the secp256k1 operations are parameters (`Crypto`).
-/
namespace Verif.Tx

open Verif.Serial

/-- `hash_t`: `std::array<unsigned char, 32>` (`src/util/common/hash.hpp:19`). -/
abbrev Hash := { b : Bytes // b.length = 32 }

/-- `pubkey_t` (`src/util/common/keys.hpp:25`). -/
abbrev PubKey := { b : Bytes // b.length = 32 }

/-- `signature_t` (`src/util/common/keys.hpp:29`). -/
abbrev Sig := { b : Bytes // b.length = 64 }

/-- The cryptographic primitives, arbitrary functions of their inputs. `parse`
is `secp256k1_xonly_pubkey_parse(..) == 1`, `verify pk msg sig` is
`secp256k1_schnorrsig_verify(..) == 1` for the parsed key. -/
structure Crypto where
  sha : Bytes → Hash
  parse : Bytes → Bool
  verify : Bytes → Bytes → Bytes → Bool

/-- `out_point` (`src/uhs/transaction/transaction.hpp:27-41`). -/
structure OutPoint where
  txId : Hash
  index : UInt64
  deriving DecidableEq

/-- `output` (`src/uhs/transaction/transaction.hpp:49-62`). -/
structure Output where
  commitment : Hash
  value : UInt64
  deriving DecidableEq

/-- `input` (`src/uhs/transaction/transaction.hpp:70-83`). -/
structure Input where
  prevout : OutPoint
  prevoutData : Output
  deriving DecidableEq

/-- `full_tx` (`src/uhs/transaction/transaction.hpp:94-107`); a witness is a byte vector. -/
structure FullTx where
  inputs : List Input
  outputs : List Output
  witness : List Bytes
  deriving DecidableEq

/-- `compact_tx` (`src/uhs/transaction/transaction.hpp:119-166`). The attestation map is the list of
its bindings in iteration order. -/
structure CompactTx where
  id : Hash
  inputs : List Hash
  uhsOutputs : List Hash
  attestations : List (PubKey × Sig)
  deriving DecidableEq

/-! ### Wire representation, `src/uhs/transaction/messages.cpp:13-63` -/

/-- `operator<<(out_point)`, `src/uhs/transaction/messages.cpp:13-16`. -/
def OutPoint.wire (o : OutPoint) : Bytes × Nat := (o.txId.val, o.index.toNat)
/-- `operator<<(output)`, `src/uhs/transaction/messages.cpp:23-26`. -/
def Output.wire (o : Output) : Bytes × Nat := (o.commitment.val, o.value.toNat)
/-- `operator<<(input)`, `src/uhs/transaction/messages.cpp:33-36`. -/
def Input.wire (i : Input) : (Bytes × Nat) × (Bytes × Nat) := (i.prevout.wire, i.prevoutData.wire)
/-- A witness is serialized byte by byte, `src/util/serialization/format.hpp:185-194`, `src/util/serialization/format.cpp:9-12`. -/
def witnessWire (w : Bytes) : List Nat := w.map UInt8.toNat
/-- `operator<<(full_tx)`, `src/uhs/transaction/messages.cpp:43-46`. -/
def FullTx.wire (t : FullTx) :
    List ((Bytes × Nat) × (Bytes × Nat)) × List (Bytes × Nat) × List (List Nat) :=
  (t.inputs.map Input.wire, t.outputs.map Output.wire, t.witness.map witnessWire)
/-- `operator<<(compact_tx)`, `src/uhs/transaction/messages.cpp:53-57`. -/
def CompactTx.wire (t : CompactTx) :
    Bytes × List Bytes × List Bytes × List (Bytes × Bytes) :=
  (t.id.val, t.inputs.map Subtype.val, t.uhsOutputs.map Subtype.val,
    t.attestations.map fun p => (p.1.val, p.2.val))

/-- The array of exactly `n` bytes, if the bytes are that many. -/
def toArr (n : Nat) (b : Bytes) : Option { b : Bytes // b.length = n } :=
  if h : b.length = n then some ⟨b, h⟩ else none

/-- `operator>>(out_point)`, `src/uhs/transaction/messages.cpp:18-21`. -/
def OutPoint.ofWire (v : Bytes × Nat) : Option OutPoint := do
  some ⟨← toArr 32 v.1, UInt64.ofNat v.2⟩
/-- `operator>>(output)`, `src/uhs/transaction/messages.cpp:28-31`. -/
def Output.ofWire (v : Bytes × Nat) : Option Output := do
  some ⟨← toArr 32 v.1, UInt64.ofNat v.2⟩
/-- `operator>>(input)`, `src/uhs/transaction/messages.cpp:38-41`. -/
def Input.ofWire (v : (Bytes × Nat) × (Bytes × Nat)) : Option Input := do
  some ⟨← OutPoint.ofWire v.1, ← Output.ofWire v.2⟩
/-- `operator>>(full_tx)`, `src/uhs/transaction/messages.cpp:48-51`. -/
def FullTx.ofWire (v : List ((Bytes × Nat) × (Bytes × Nat)) × List (Bytes × Nat) ×
    List (List Nat)) : Option FullTx := do
  some ⟨← v.1.mapM Input.ofWire, ← v.2.1.mapM Output.ofWire, v.2.2.map (·.map UInt8.ofNat)⟩
/-- `operator>>(compact_tx)`, `src/uhs/transaction/messages.cpp:59-63`. -/
def CompactTx.ofWire (v : Bytes × List Bytes × List Bytes × List (Bytes × Bytes)) :
    Option CompactTx := do
  some ⟨← toArr 32 v.1, ← v.2.1.mapM (toArr 32), ← v.2.2.1.mapM (toArr 32),
    ← v.2.2.2.mapM fun p => do some (← toArr 32 p.1, ← toArr 64 p.2)⟩

/-- `make_buffer(full_tx)`. -/
def FullTx.encode (t : FullTx) : Bytes := makeBuffer tFullTx t.wire
/-- `from_buffer<full_tx>`. -/
def FullTx.decode (b : Bytes) : Option FullTx :=
  match fromBuffer tFullTx b with
  | some (some v) => FullTx.ofWire v
  | _ => none
/-- `make_buffer(compact_tx)`. -/
def CompactTx.encode (t : CompactTx) : Bytes := makeBuffer tCompactTx t.wire
/-- `from_buffer<compact_tx>`. -/
def CompactTx.decode (b : Bytes) : Option CompactTx :=
  match fromBuffer tCompactTx b with
  | some (some v) => CompactTx.ofWire v
  | _ => none

/-! ### Hashing, `src/uhs/transaction/transaction.cpp` -/

/-- `input::hash`, `src/uhs/transaction/transaction.cpp:48-58`. -/
def Input.hash (c : Crypto) (i : Input) : Hash := c.sha (enc tInput i.wire)

/-- What `tx_id` feeds to SHA-256, `src/uhs/transaction/transaction.cpp:75-79`. -/
def txIdPreimage (t : FullTx) : Bytes :=
  enc (.vec tInput) (t.inputs.map Input.wire) ++ enc (.vec tOutput) (t.outputs.map Output.wire)

/-- `tx_id`, `src/uhs/transaction/transaction.cpp:72-85`. -/
def txId (c : Crypto) (t : FullTx) : Hash := c.sha (txIdPreimage t)

/-- `input_from_output` with the transaction id given, `src/uhs/transaction/transaction.cpp:87-97`. -/
def inputFromOutputId (t : FullTx) (i : Nat) (id : Hash) : Option Input :=
  match t.outputs[i]? with
  | none => none
  | some o => some ⟨⟨id, UInt64.ofNat i⟩, o⟩

/-- `input_from_output`, `src/uhs/transaction/transaction.cpp:99-103`. -/
def inputFromOutput (c : Crypto) (t : FullTx) (i : Nat) : Option Input :=
  inputFromOutputId t i (txId c t)

/-- What `uhs_id_from_output` feeds to SHA-256, `src/uhs/transaction/transaction.cpp:110-117`. -/
def uhsIdPreimage (entropy : Hash) (i : UInt64) (o : Output) : Bytes :=
  entropy.val ++ encInt 8 i.toNat ++ enc tOutput o.wire

/-- `uhs_id_from_output`, `src/uhs/transaction/transaction.cpp:105-120`. -/
def uhsIdFromOutput (c : Crypto) (entropy : Hash) (i : UInt64) (o : Output) : Hash :=
  c.sha (uhsIdPreimage entropy i o)

/-- `compact_tx::compact_tx(full_tx)`, `src/uhs/transaction/transaction.cpp:126-135`. -/
def CompactTx.ofFull (c : Crypto) (t : FullTx) : CompactTx where
  id := txId c t
  inputs := t.inputs.map (Input.hash c)
  uhsOutputs := t.outputs.mapIdx fun i o => uhsIdFromOutput c (txId c t) (UInt64.ofNat i) o
  attestations := []

/-- `compact_tx::hash`, `src/uhs/transaction/transaction.cpp:158-168`. -/
def CompactTx.hash (c : Crypto) (t : CompactTx) : Hash :=
  c.sha (enc tCompactTx ({ t with attestations := [] } : CompactTx).wire)

/-- `compact_tx::verify`, `src/uhs/transaction/transaction.cpp:170-187`. -/
def CompactTx.verify (c : Crypto) (t : CompactTx) (att : PubKey × Sig) : Bool :=
  if c.parse att.1.val then c.verify att.1.val (t.hash c).val att.2.val else false

/-! ### Validation, `src/uhs/transaction/validation.cpp` -/

/-- `witness_error_code`, `src/uhs/transaction/validation.hpp:60-71`. -/
inductive WitnessCode where
  | missingType | unknownType | malformed | programMismatch | invalidPubkey | invalidSignature
  deriving DecidableEq, Repr

/-- `tx_error`, `src/uhs/transaction/validation.hpp:29-114`. The only `output_error_code` is
`zero_value`, so it is not repeated. -/
inductive TxError where
  | inputDuplicate (idx : Nat)
  | inputZeroValue (idx : Nat)
  | outputZeroValue (idx : Nat)
  | witness (code : WitnessCode) (idx : Nat)
  | noInputs | noOutputs | missingWitness | asymmetricValues | valueOverflow
  deriving DecidableEq, Repr

/-- Result of a check: `std::nullopt`, an error, or an access out of bounds. -/
inductive Check (ε : Type) where
  | pass
  | err (e : ε)
  | ub
  deriving DecidableEq, Repr

/-- `if(err) return err;` -/
def Check.andThen {ε : Type} (a b : Check ε) : Check ε :=
  match a with
  | .pass => b
  | .err e => .err e
  | .ub => .ub

/-- Reclassify an error. -/
def Check.mapErr {ε δ : Type} (f : ε → δ) : Check ε → Check δ
  | .pass => .pass
  | .err e => .err (f e)
  | .ub => .ub

/-- `check_input_count`, `src/uhs/transaction/validation.cpp:243-250`. -/
def checkInputCount (t : FullTx) : Check TxError :=
  if t.inputs.isEmpty then .err .noInputs else .pass

/-- `check_output_count`, `src/uhs/transaction/validation.cpp:252-259`. -/
def checkOutputCount (t : FullTx) : Check TxError :=
  if t.outputs.isEmpty then .err .noOutputs else .pass

/-- `check_witness_count`, `src/uhs/transaction/validation.cpp:261-268`. -/
def checkWitnessCount (t : FullTx) : Check TxError :=
  if t.inputs.length ≠ t.witness.length then .err .missingWitness else .pass

/-- The loop of `check_input_set`, `src/uhs/transaction/validation.cpp:274-283`; `inps` is the set of
outpoints seen so far. -/
def checkInputSetLoop : List Input → (idx : Nat) → (inps : List OutPoint) → Check TxError
  | [], _, _ => .pass
  | i :: is, idx, inps =>
    if i.prevout ∈ inps then .err (.inputDuplicate idx)
    else checkInputSetLoop is (idx + 1) (i.prevout :: inps)

/-- `check_input_set`, `src/uhs/transaction/validation.cpp:270-286`. -/
def checkInputSet (t : FullTx) : Check TxError := checkInputSetLoop t.inputs 0 []

/-- `check_tx_structure`, `src/uhs/transaction/validation.cpp:75-98`. -/
def checkTxStructure (t : FullTx) : Check TxError :=
  (checkInputCount t).andThen <| (checkOutputCount t).andThen <|
    (checkWitnessCount t).andThen <| checkInputSet t

/-- `check_output_value`, `src/uhs/transaction/validation.cpp:288-295`: true when the value is zero. -/
def zeroValue (o : Output) : Bool := o.value < 1

/-- The input loop of `check_tx`, `src/uhs/transaction/validation.cpp:43-50`, with
`check_input_structure`, `src/uhs/transaction/validation.cpp:100-109`. -/
def checkInputs : List Input → Nat → Check TxError
  | [], _ => .pass
  | i :: is, idx =>
    if zeroValue i.prevoutData then .err (.inputZeroValue idx) else checkInputs is (idx + 1)

/-- The output loop of `check_tx`, `src/uhs/transaction/validation.cpp:52-58`. -/
def checkOutputs : List Output → Nat → Check TxError
  | [], _ => .pass
  | o :: os, idx =>
    if zeroValue o then .err (.outputZeroValue idx) else checkOutputs os (idx + 1)

/-- One of the summing loops of `check_in_out_set`, `src/uhs/transaction/validation.cpp:113-127`, in
64-bit arithmetic; `none` is the overflow error. -/
def sumLoop : List UInt64 → (total : UInt64) → Option UInt64
  | [], total => some total
  | v :: vs, total => if total + v ≤ total then none else sumLoop vs (total + v)

/-- `check_in_out_set`, `src/uhs/transaction/validation.cpp:111-134`. -/
def checkInOutSet (t : FullTx) : Check TxError :=
  match sumLoop (t.inputs.map (·.prevoutData.value)) 0 with
  | none => .err .valueOverflow
  | some inTotal =>
    match sumLoop (t.outputs.map (·.value)) 0 with
    | none => .err .valueOverflow
    | some outTotal => if inTotal ≠ outTotal then .err .asymmetricValues else .pass

/-- `len` bytes of a witness from an offset; `none` when they are not all there
(the C++ would read out of bounds). -/
def slice (w : Bytes) (off len : Nat) : Option Bytes :=
  if off + len ≤ w.length then some ((w.drop off).take len) else none

/-- `p2pk_witness_prog_len`, `src/uhs/transaction/validation.hpp:25-26`. -/
def progLen : Nat := 33
/-- `p2pk_witness_len`, `src/uhs/transaction/validation.hpp:27`. -/
def witLen : Nat := progLen + 64

/-- `check_p2pk_witness_len`, `src/uhs/transaction/validation.cpp:179-188`. -/
def checkP2pkLen (w : Bytes) : Check WitnessCode :=
  if w.length ≠ witLen then .err .malformed else .pass

/-- `check_p2pk_witness_commitment`, `src/uhs/transaction/validation.cpp:190-205`. -/
def checkP2pkCommitment (c : Crypto) (t : FullTx) (idx : Nat) (w : Bytes) : Check WitnessCode :=
  match slice w 0 progLen, t.inputs[idx]? with
  | some prog, some inp =>
    if c.sha prog ≠ inp.prevoutData.commitment then .err .programMismatch else .pass
  | _, _ => .ub

/-- `check_p2pk_witness_signature`, `src/uhs/transaction/validation.cpp:207-241`. -/
def checkP2pkSignature (c : Crypto) (t : FullTx) (w : Bytes) : Check WitnessCode :=
  match slice w 1 32, slice w progLen 64 with
  | some pk, some sig =>
    if c.parse pk then
      if c.verify pk (txId c t).val sig then .pass else .err .invalidSignature
    else .err .invalidPubkey
  | _, _ => .ub

/-- `check_p2pk_witness`, `src/uhs/transaction/validation.cpp:158-177`. -/
def checkP2pkWitness (c : Crypto) (t : FullTx) (idx : Nat) (w : Bytes) : Check WitnessCode :=
  (checkP2pkLen w).andThen <| (checkP2pkCommitment c t idx w).andThen <|
    checkP2pkSignature c t w

/-- `check_witness`, `src/uhs/transaction/validation.cpp:138-156`; the witness program type of
pay-to-public-key is `0x0` (`src/uhs/transaction/validation.hpp:21-23`). -/
def checkWitness (c : Crypto) (t : FullTx) (idx : Nat) (w : Bytes) : Check WitnessCode :=
  match w with
  | [] => .err .missingType
  | ty :: _ => if ty = 0 then checkP2pkWitness c t idx w else .err .unknownType

/-- The witness loop of `check_tx`, `src/uhs/transaction/validation.cpp:65-70`. -/
def checkWitnesses (c : Crypto) (t : FullTx) : List Bytes → Nat → Check TxError
  | [], _ => .pass
  | w :: ws, idx =>
    ((checkWitness c t idx w).mapErr fun code => .witness code idx).andThen
      (checkWitnesses c t ws (idx + 1))

/-- `check_tx`, `src/uhs/transaction/validation.cpp:36-73`. -/
def checkTx (c : Crypto) (t : FullTx) : Check TxError :=
  (checkTxStructure t).andThen <| (checkInputs t.inputs 0).andThen <|
    (checkOutputs t.outputs 0).andThen <| (checkInOutSet t).andThen <|
      checkWitnesses c t t.witness 0

/-- `get_p2pk_witness_commitment`, `src/uhs/transaction/validation.cpp:297-306`. -/
def p2pkCommitment (c : Crypto) (payee : PubKey) : Hash := c.sha (0 :: payee.val)

/-- `check_attestations`, `src/uhs/transaction/validation.cpp:407-421`. -/
def checkAttestations (c : Crypto) (t : CompactTx) (pubkeys : List PubKey) (threshold : Nat) :
    Bool :=
  if t.attestations.length < threshold then false
  else t.attestations.all fun att => pubkeys.contains att.1 && t.verify c att

end Verif.Tx
