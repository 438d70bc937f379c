import Verif.Tx.Lemmas

/-! Properties C03, C05-C10: transactions and their validation. -/
namespace Verif.Tx

open Verif.Serial

/-! #### Concrete data for the examples -/
section Examples

/-- All-equal bytes. -/
def fill (n : Nat) (b : UInt8) : { b : Bytes // b.length = n } :=
  ⟨List.replicate n b, List.length_replicate⟩

/-- A toy hash (the first 32 bytes) and a signature scheme that accepts a
signature made of the first byte of the key. -/
def toy : Crypto where
  sha b := ⟨(b ++ List.replicate 32 0).take 32, by simp⟩
  parse pk := pk.head? != some 9
  verify pk _ sig := sig == List.replicate 64 (pk.headD 0)

/-- A transaction with two inputs and two outputs. -/
def exTx : FullTx where
  inputs := [⟨⟨fill 32 1, 0⟩, ⟨toy.sha (0 :: (fill 32 5).val), 7⟩⟩,
    ⟨⟨fill 32 1, 1⟩, ⟨toy.sha (0 :: (fill 32 6).val), 5⟩⟩]
  outputs := [⟨fill 32 3, 10⟩, ⟨fill 32 4, 2⟩]
  witness := [0 :: ((fill 32 5).val ++ (fill 64 5).val), 0 :: ((fill 32 6).val ++ (fill 64 6).val)]

/-- A compact transaction with one attestation. -/
def exCtx : CompactTx := { CompactTx.ofFull toy exTx with attestations := [(fill 32 7, fill 64 7)] }

end Examples

/-- **C03.** A full transaction survives serialization. -/
theorem C03_full_tx_roundtrip (t : FullTx) (h : t.Fits) (rest : Bytes) :
    FullTx.decode (t.encode ++ rest) = some t := by
  simp only [FullTx.decode, FullTx.encode, fromBuffer, makeBuffer, roundtrip tFullTx t.wire (t.wire_wf h)]
  exact t.ofWire_wire

/-- C03. A compact transaction survives serialization. -/
theorem C03_compact_tx_roundtrip (t : CompactTx) (h : t.Fits) (rest : Bytes) :
    CompactTx.decode (t.encode ++ rest) = some t := by
  simp only [CompactTx.decode, CompactTx.encode, fromBuffer, makeBuffer,
    roundtrip tCompactTx t.wire (t.wire_wf h)]
  exact t.ofWire_wire

/-- C03. Different full transactions have different serializations. -/
theorem C03_full_tx_injective (a b : FullTx) (ha : a.Fits) (hb : b.Fits)
    (h : a.encode = b.encode) : a = b := by
  have h1 := C03_full_tx_roundtrip a ha []
  rw [h, C03_full_tx_roundtrip b hb []] at h1
  exact (Option.some.inj h1).symm

/-- C03. Different compact transactions have different serializations. -/
theorem C03_compact_tx_injective (a b : CompactTx) (ha : a.Fits) (hb : b.Fits)
    (h : a.encode = b.encode) : a = b := by
  have h1 := C03_compact_tx_roundtrip a ha []
  rw [h, C03_compact_tx_roundtrip b hb []] at h1
  exact (Option.some.inj h1).symm

example : exTx.Fits := by
  refine ⟨by decide, by decide, by decide, ?_⟩
  decide
example : exCtx.Fits := ⟨by decide, by decide, by decide, by decide⟩

/-- **C05.** Equal ids mean equal inputs and outputs, in order, unless SHA-256 collides
on these two transactions. -/
theorem C05_id_commits (c : Crypto) (a b : FullTx) (ha : a.Fits) (hb : b.Fits)
    (hnc : c.sha (txIdPreimage a) = c.sha (txIdPreimage b) → txIdPreimage a = txIdPreimage b)
    (h : txId c a = txId c b) : a.inputs = b.inputs ∧ a.outputs = b.outputs := by
  have hp := hnc h
  unfold txIdPreimage at hp
  obtain ⟨h1, h2⟩ := enc_inj _ _ _ (inputs_wf _ ha.1) (inputs_wf _ hb.1) hp
  have h3 : enc (.vec tOutput) (a.outputs.map Output.wire) ++ [] =
      enc (.vec tOutput) (b.outputs.map Output.wire) ++ [] := by simpa using h2
  obtain ⟨h4, _⟩ := enc_inj _ _ _ (outputs_wf _ ha.2.1) (outputs_wf _ hb.2.1) h3
  exact ⟨map_inj (fun _ _ => wire_input_inj) h1, map_inj (fun _ _ => wire_output_inj) h4⟩

/-- C05. The witnesses do not enter the id. -/
theorem C05_id_ignores_witness (c : Crypto) (t : FullTx) (w : List Bytes) :
    txId c { t with witness := w } = txId c t := rfl

/-- The no-collision hypothesis holds for two concrete transactions. -/
example : toy.sha (txIdPreimage exTx) = toy.sha (txIdPreimage { exTx with inputs := [] }) →
    txIdPreimage exTx = txIdPreimage { exTx with inputs := [] } := by
  intro h; exact absurd h (by decide)

/-- **C06.** The reference presented by the spender of output `i` is the UHS id recorded
when the output was created. -/
theorem C06_spend_matches_create (c : Crypto) (t : FullTx) (i : Nat) (inp : Input)
    (h : inputFromOutput c t i = some inp) :
    (CompactTx.ofFull c t).uhsOutputs[i]? = some (inp.hash c) := by
  simp only [inputFromOutput, inputFromOutputId] at h
  split at h
  · cases h
  · rename_i o ho
    cases h
    simp only [CompactTx.ofFull, List.getElem?_mapIdx, ho, Option.map_some]
    congr 1

/-- C06. Every created output can be referred to, and nothing else. -/
theorem C06_every_output_spendable (c : Crypto) (t : FullTx) (i : Nat) :
    (∃ inp, inputFromOutput c t i = some inp) ↔ i < (CompactTx.ofFull c t).uhsOutputs.length := by
  simp only [inputFromOutput, inputFromOutputId, CompactTx.ofFull, List.length_mapIdx]
  split
  · rename_i h
    simp at h
    simp; omega
  · rename_i o h
    have := (List.getElem?_eq_some_iff.mp h).1
    simp [this]

/-- C06. Outputs that differ in transaction, index, owner or value have different UHS
ids, unless SHA-256 collides on the two preimages. -/
theorem C06_uhs_id_unique (c : Crypto) (e e' : Hash) (i i' : UInt64) (o o' : Output)
    (hnc : c.sha (uhsIdPreimage e i o) = c.sha (uhsIdPreimage e' i' o') →
      uhsIdPreimage e i o = uhsIdPreimage e' i' o')
    (h : uhsIdFromOutput c e i o = uhsIdFromOutput c e' i' o') : e = e' ∧ i = i' ∧ o = o' := by
  have hp := hnc h
  have hw : enc tInput (Input.wire ⟨⟨e, i⟩, o⟩) ++ [] =
      enc tInput (Input.wire ⟨⟨e', i'⟩, o'⟩) ++ [] := by
    rw [List.append_nil, List.append_nil]
    exact hp
  obtain ⟨h1, _⟩ := enc_inj _ _ _ (Input.wire_wf _) (Input.wire_wf _) hw
  have := wire_input_inj h1
  simp only [Input.mk.injEq, OutPoint.mk.injEq] at this
  exact ⟨this.1.1, this.1.2, this.2⟩

example : ∃ inp, inputFromOutput toy exTx 1 = some inp := ⟨_, rfl⟩
example : toy.sha (uhsIdPreimage (fill 32 1) 0 ⟨fill 32 3, 10⟩) =
    toy.sha (uhsIdPreimage (fill 32 2) 0 ⟨fill 32 3, 10⟩) →
    uhsIdPreimage (fill 32 1) 0 ⟨fill 32 3, 10⟩ = uhsIdPreimage (fill 32 2) 0 ⟨fill 32 3, 10⟩ := by
  intro h; exact absurd h (by decide)

/-- **C08.** Validation accepts exactly the well-formed transactions. -/
theorem C08_accepts_iff (c : Crypto) (t : FullTx) : checkTx c t = .pass ↔ WellFormed c t := by
  simp only [checkTx, checkTxStructure, andThen_pass]
  constructor
  · rintro ⟨⟨h1, h2, h3, h4⟩, h5, h6, h7, h8⟩
    have h1 : t.inputs ≠ [] := by
      simp only [checkInputCount] at h1
      intro h
      simp [h] at h1
    have h2 : t.outputs ≠ [] := by
      simp only [checkOutputCount] at h2
      intro h
      simp [h] at h2
    have h3 : t.witness.length = t.inputs.length := by
      simp only [checkWitnessCount] at h3
      split at h3
      · cases h3
      · rename_i h; simp at h; exact h.symm
    have h4 := (checkInputSetLoop_pass _ _ _).mp h4
    have h5 := (checkInputs_pass _ _).mp h5
    have h6 := (checkOutputs_pass _ _).mp h6
    have s1 := sumLoop_spec (t.inputs.map (·.prevoutData.value)) 0
      (by intro v hv; obtain ⟨i, hi, rfl⟩ := List.mem_map.mp hv; exact h5 i hi)
    have s2 := sumLoop_spec (t.outputs.map (·.value)) 0
      (by intro v hv; obtain ⟨i, hi, rfl⟩ := List.mem_map.mp hv; exact h6 i hi)
    simp only [UInt64.toNat_zero, Nat.zero_add] at s1 s2
    have hsum : total (t.inputs.map (·.prevoutData.value)) < 2 ^ 64 ∧
        total (t.inputs.map (·.prevoutData.value)) = total (t.outputs.map (·.value)) := by
      simp only [checkInOutSet] at h7
      split at s1
      · rename_i hlt
        obtain ⟨a, ha, ha'⟩ := s1
        split at s2
        · obtain ⟨b, hb, hb'⟩ := s2
          simp only [ha, hb] at h7
          split at h7
          · cases h7
          · rename_i hab
            simp at hab
            exact ⟨hlt, by rw [← ha', ← hb', hab]⟩
        · simp only [ha, s2] at h7; cases h7
      · simp only [s1] at h7; cases h7
    refine ⟨h1, h2, h3, h4.1, h5, h6, hsum.1, hsum.2, ?_⟩
    intro i inp w hi hw
    have := (checkWitnesses_pass _ _ _ _).mp h8 i w hw
    rw [Nat.zero_add, checkWitness_pass] at this
    obtain ⟨inp', hi', ho⟩ := this
    rw [hi] at hi'
    cases hi'
    exact ho
  · intro h
    refine ⟨⟨?_, ?_, ?_, ?_⟩, ?_, ?_, ?_, ?_⟩
    · simp [checkInputCount, h.has_input]
    · simp [checkOutputCount, h.has_output]
    · simp [checkWitnessCount, h.one_witness_each]
    · exact (checkInputSetLoop_pass _ _ _).mpr ⟨h.no_outpoint_twice, by simp⟩
    · exact (checkInputs_pass _ _).mpr h.input_values
    · exact (checkOutputs_pass _ _).mpr h.output_values
    · have s1 := sumLoop_spec (t.inputs.map (·.prevoutData.value)) 0
        (by intro v hv; obtain ⟨i, hi, rfl⟩ := List.mem_map.mp hv; exact h.input_values i hi)
      have s2 := sumLoop_spec (t.outputs.map (·.value)) 0
        (by intro v hv; obtain ⟨i, hi, rfl⟩ := List.mem_map.mp hv; exact h.output_values i hi)
      simp only [UInt64.toNat_zero, Nat.zero_add] at s1 s2
      rw [if_pos h.fits] at s1
      rw [if_pos (h.balanced ▸ h.fits)] at s2
      obtain ⟨a, ha, ha'⟩ := s1
      obtain ⟨b, hb, hb'⟩ := s2
      have : a = b := UInt64.toNat_inj.mp (by rw [ha', hb', h.balanced])
      simp [checkInOutSet, ha, hb, this]
    · rw [checkWitnesses_pass]
      intro k w hw
      rw [Nat.zero_add, checkWitness_pass]
      have hk : k < t.inputs.length := by
        rw [← h.one_witness_each]; exact (List.getElem?_eq_some_iff.mp hw).1
      exact ⟨t.inputs[k], List.getElem?_eq_getElem hk,
        h.witnessed k _ w (List.getElem?_eq_getElem hk) hw⟩

/-- C08. Validation never reads out of bounds, whatever the transaction. -/
theorem C08_no_ub (c : Crypto) (t : FullTx) : checkTx c t ≠ .ub := by
  intro h
  simp only [checkTx, checkTxStructure, andThen_ub, andThen_pass] at h
  rcases h with (h | ⟨_, h | ⟨_, h | ⟨_, h⟩⟩⟩) | ⟨⟨_, _, h3, _⟩, h | ⟨_, h | ⟨_, h | ⟨_, h⟩⟩⟩⟩
  · simp only [checkInputCount] at h; split at h <;> cases h
  · simp only [checkOutputCount] at h; split at h <;> cases h
  · simp only [checkWitnessCount] at h; split at h <;> cases h
  · exact checkInputSetLoop_ne_ub _ _ _ h
  · exact checkInputs_ne_ub _ _ h
  · exact checkOutputs_ne_ub _ _ h
  · simp only [checkInOutSet] at h
    split at h
    · cases h
    · split at h
      · cases h
      · split at h <;> cases h
  · refine checkWitnesses_ne_ub c t t.witness 0 ?_ h
    simp only [checkWitnessCount] at h3
    split at h3
    · cases h3
    · rename_i hl; simp at hl; omega

/-- C08. A reported error is true of the transaction: the code and the index
identify a defect that is really there. -/
theorem C08_error_truthful (c : Crypto) (t : FullTx) (e : TxError) (h : checkTx c t = .err e) :
    Explains c t e := by
  simp only [checkTx, checkTxStructure, andThen_err, andThen_pass] at h
  rcases h with (h | ⟨_, h | ⟨_, h | ⟨_, h⟩⟩⟩) | ⟨⟨_, _, h3, _⟩, h | ⟨h5, h | ⟨h6, h | ⟨_, h⟩⟩⟩⟩
  · simp only [checkInputCount] at h
    split at h
    · rename_i hh; cases h; simpa [Explains] using hh
    · cases h
  · simp only [checkOutputCount] at h
    split at h
    · rename_i hh; cases h; simpa [Explains] using hh
    · cases h
  · simp only [checkWitnessCount] at h
    split at h
    · rename_i hh; cases h; exact fun h => hh h.symm
    · cases h
  · obtain ⟨k, i, h1, h2, h3⟩ := checkInputSetLoop_err _ _ _ _ h
    subst h1
    rcases h3 with h3 | ⟨j, i', h4, h5, h6⟩
    · cases h3
    · exact ⟨j, i', i, by omega, h5, by rw [Nat.zero_add]; exact h2, h6⟩
  · obtain ⟨k, i, h1, h2, h3⟩ := checkInputs_err _ _ _ h
    subst h1
    exact ⟨i, by rw [Nat.zero_add]; exact h2, h3⟩
  · obtain ⟨k, i, h1, h2, h3⟩ := checkOutputs_err _ _ _ h
    subst h1
    exact ⟨i, by rw [Nat.zero_add]; exact h2, h3⟩
  · have h5 := (checkInputs_pass _ _).mp h5
    have h6 := (checkOutputs_pass _ _).mp h6
    have s1 := sumLoop_spec (t.inputs.map (·.prevoutData.value)) 0
      (by intro v hv; obtain ⟨i, hi, rfl⟩ := List.mem_map.mp hv; exact h5 i hi)
    have s2 := sumLoop_spec (t.outputs.map (·.value)) 0
      (by intro v hv; obtain ⟨i, hi, rfl⟩ := List.mem_map.mp hv; exact h6 i hi)
    simp only [UInt64.toNat_zero, Nat.zero_add] at s1 s2
    simp only [checkInOutSet] at h
    split at s1
    · obtain ⟨a, ha, ha'⟩ := s1
      split at s2
      · obtain ⟨b, hb, hb'⟩ := s2
        simp only [ha, hb] at h
        split at h
        · rename_i hab
          cases h
          intro heq
          exact hab (UInt64.toNat_inj.mp (by rw [ha', hb', heq]))
        · cases h
      · rename_i hge
        simp only [ha, s2] at h
        cases h
        exact .inr (by omega)
    · rename_i hge
      simp only [s1] at h
      cases h
      exact .inl (by omega)
  · obtain ⟨k, w, code, h1, h2, h4⟩ := checkWitnesses_err _ _ _ _ _ h
    subst h1
    rw [Nat.zero_add] at h4 ⊢
    have hk : k < t.inputs.length := by
      simp only [checkWitnessCount] at h3
      split at h3
      · cases h3
      · rename_i hl
        simp at hl
        rw [hl]
        exact (List.getElem?_eq_some_iff.mp h2).1
    obtain ⟨inp, hi, hm⟩ := checkWitness_err c t k w code hk h4
    exact ⟨inp, w, hi, h2, by cases code <;> exact hm⟩

/-- The example transaction is well-formed. -/
example : WellFormed toy exTx := (C08_accepts_iff toy exTx).mp (by decide)
/-- Spending the same output twice is refused, pointing at the second input. -/
example : checkTx toy { exTx with inputs := [exTx.inputs[0], exTx.inputs[0]] } =
    .err (.inputDuplicate 1) := by decide
/-- Values that wrap around 64 bits are refused. -/
example : checkTx toy { exTx with outputs := [⟨fill 32 3, 18446744073709551615⟩, ⟨fill 32 4, 13⟩] } =
    .err .valueOverflow := by decide
/-- A signature by another key is refused. -/
example : checkTx toy { exTx with witness := exTx.witness.reverse } =
    .err (.witness .programMismatch 0) := by decide

/-- **C07.** An accepted transaction neither creates nor destroys value, in unbounded
arithmetic, and every amount in it is positive. -/
theorem C07_conservation (c : Crypto) (t : FullTx) (h : checkTx c t = .pass) :
    (t.inputs.map fun i => i.prevoutData.value.toNat).sum = (t.outputs.map fun o => o.value.toNat).sum ∧
    (∀ i ∈ t.inputs, 0 < i.prevoutData.value.toNat) ∧ ∀ o ∈ t.outputs, 0 < o.value.toNat := by
  have h := (C08_accepts_iff c t).mp h
  refine ⟨?_, h.input_values, h.output_values⟩
  have := h.balanced
  simpa [total, List.map_map, Function.comp_def] using this

example : checkTx toy exTx = .pass := by decide

/-- **C09.** Every input of an accepted transaction is signed for by a key whose hash is
the commitment of the spent output; the message is this transaction's id. -/
theorem C09_authorised (c : Crypto) (t : FullTx) (h : checkTx c t = .pass) (i : Nat)
    (hi : i < t.inputs.length) :
    ∃ (pk : PubKey) (sig : Sig), t.witness[i]? = some (0 :: (pk.val ++ sig.val)) ∧
      p2pkCommitment c pk = t.inputs[i].prevoutData.commitment ∧
      c.parse pk.val = true ∧ c.verify pk.val (txId c t).val sig.val = true := by
  have h := (C08_accepts_iff c t).mp h
  have hw : i < t.witness.length := by rw [h.one_witness_each]; exact hi
  obtain ⟨pk, sig, h1, h2, h3, h4⟩ := h.witnessed i _ _ (List.getElem?_eq_getElem hi)
    (List.getElem?_eq_getElem hw)
  exact ⟨pk, sig, by rw [List.getElem?_eq_getElem hw, h1], h2, h3, h4⟩

/-- **C10.** The attestation check passes exactly when at least `threshold` distinct keys
attest, every one of them is authorised, and every signature verifies over the
hash of this compact transaction. -/
theorem C10_threshold (c : Crypto) (t : CompactTx) (ht : t.Fits) (pubkeys : List PubKey)
    (threshold : Nat) :
    checkAttestations c t pubkeys threshold = true ↔
      (∃ ks : List PubKey, ks.Nodup ∧ threshold ≤ ks.length ∧
        ∀ k, k ∈ ks ↔ ∃ s, (k, s) ∈ t.attestations) ∧
      ∀ k s, (k, s) ∈ t.attestations → k ∈ pubkeys ∧ c.parse k.val = true ∧
        c.verify k.val (t.hash c).val s.val = true := by
  have hall : (t.attestations.all fun att => pubkeys.contains att.1 && t.verify c att) = true ↔
      ∀ k s, (k, s) ∈ t.attestations → k ∈ pubkeys ∧ c.parse k.val = true ∧
        c.verify k.val (t.hash c).val s.val = true := by
    simp only [List.all_eq_true, Bool.and_eq_true, List.contains_iff_mem, Prod.forall,
      CompactTx.verify]
    constructor
    · intro h k s hm
      obtain ⟨h1, h2⟩ := h k s hm
      split at h2
      · exact ⟨h1, by assumption, h2⟩
      · cases h2
    · intro h k s hm
      obtain ⟨h1, h2, h3⟩ := h k s hm
      exact ⟨h1, by simp [h2, h3]⟩
  simp only [checkAttestations]
  constructor
  · intro h
    split at h
    · cases h
    · rename_i hlt
      refine ⟨⟨t.attestations.map Prod.fst, ht.2.2.2, by simp; omega, ?_⟩, hall.mp h⟩
      intro k
      simp
  · rintro ⟨⟨ks, hn, hle, hks⟩, h⟩
    have hperm : ks.Perm (t.attestations.map Prod.fst) := by
      rw [List.perm_iff_count]
      intro a
      rw [List.Nodup.count hn, List.Nodup.count ht.2.2.2]
      congr 1
      rw [hks]
      simp
    have := hperm.length_eq
    rw [List.length_map] at this
    rw [if_neg (by omega)]
    exact hall.mpr h

/-- C10. The message that sentinels sign determines id, inputs and outputs of the compact
transaction, unless SHA-256 collides. -/
theorem C10_signed_message_commits (c : Crypto) (a b : CompactTx) (ha : a.Fits) (hb : b.Fits)
    (hnc : c.sha (enc tCompactTx ({ a with attestations := [] } : CompactTx).wire) =
        c.sha (enc tCompactTx ({ b with attestations := [] } : CompactTx).wire) →
      enc tCompactTx ({ a with attestations := [] } : CompactTx).wire =
        enc tCompactTx ({ b with attestations := [] } : CompactTx).wire)
    (h : a.hash c = b.hash c) : a.id = b.id ∧ a.inputs = b.inputs ∧ a.uhsOutputs = b.uhsOutputs := by
  have := C03_compact_tx_injective { a with attestations := [] } { b with attestations := [] }
    ⟨ha.1, ha.2.1, by simp, by simp⟩ ⟨hb.1, hb.2.1, by simp, by simp⟩ (hnc h)
  simp only [CompactTx.mk.injEq] at this
  exact ⟨this.1, this.2.1, this.2.2.1⟩

/-- C10. Collecting attestations does not change the signed message. -/
theorem C10_message_ignores_attestations (c : Crypto) (t : CompactTx) (as : List (PubKey × Sig)) :
    ({ t with attestations := as } : CompactTx).hash c = t.hash c := rfl

example : checkAttestations toy exCtx [fill 32 7, fill 32 8] 1 = true := by decide
example : checkAttestations toy exCtx [fill 32 7, fill 32 8] 2 = false := by decide
example : checkAttestations toy exCtx [fill 32 8] 1 = false := by decide

end Verif.Tx
