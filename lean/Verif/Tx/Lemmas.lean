import Verif.Tx.Spec
import Verif.Serial.Lemmas

/-! Helper lemmas about transactions. -/
namespace Verif.Tx

open Verif.Serial

theorem lt_of_len {a b c : Nat} (h : a = b) (h' : b < c) : a < c := h ▸ h'

theorem u64_lt (x : UInt64) : x.toNat < 256 ^ 8 := by
  rw [pow256_8]; exact x.toNat_lt

theorem OutPoint.wire_wf (o : OutPoint) : WF tOutPoint o.wire := ⟨o.txId.2, u64_lt o.index⟩
theorem Output.wire_wf (o : Output) : WF tOutput o.wire := ⟨o.commitment.2, u64_lt o.value⟩
theorem Input.wire_wf (i : Input) : WF tInput i.wire := ⟨i.prevout.wire_wf, i.prevoutData.wire_wf⟩

theorem inputs_wf (is : List Input) (h : is.length < 2 ^ 64) :
    WF (.vec tInput) (is.map Input.wire) := by
  refine ⟨lt_of_len (List.length_map _) h, ?_⟩
  intro v hv
  obtain ⟨i, _, rfl⟩ := List.mem_map.mp hv
  exact i.wire_wf

theorem outputs_wf (os : List Output) (h : os.length < 2 ^ 64) :
    WF (.vec tOutput) (os.map Output.wire) := by
  refine ⟨lt_of_len (List.length_map _) h, ?_⟩
  intro v hv
  obtain ⟨i, _, rfl⟩ := List.mem_map.mp hv
  exact i.wire_wf

theorem FullTx.wire_wf (t : FullTx) (h : t.Fits) : WF tFullTx t.wire := by
  obtain ⟨h1, h2, h3, h4⟩ := h
  refine ⟨inputs_wf _ h1, outputs_wf _ h2, ?_⟩
  refine ⟨lt_of_len (List.length_map _) h3, ?_⟩
  intro v hv
  obtain ⟨w, hw, rfl⟩ := List.mem_map.mp hv
  refine ⟨lt_of_len (List.length_map _) (h4 w hw), ?_⟩
  intro n hn
  obtain ⟨b, _, rfl⟩ := List.mem_map.mp hn
  exact b.toNat_lt

theorem hashes_wf (hs : List Hash) (h : hs.length < 2 ^ 64) :
    WF (.vec tHash) (hs.map Subtype.val) := by
  refine ⟨lt_of_len (List.length_map _) h, ?_⟩
  intro v hv
  obtain ⟨i, _, rfl⟩ := List.mem_map.mp hv
  exact i.2

theorem CompactTx.wire_wf (t : CompactTx) (h : t.Fits) : WF tCompactTx t.wire := by
  obtain ⟨h1, h2, h3, h4⟩ := h
  refine ⟨t.id.2, hashes_wf _ h1, hashes_wf _ h2, ?_⟩
  refine ⟨lt_of_len (List.length_map _) h3, ?_, ?_⟩
  · change ((t.attestations.map fun p => (p.1.val, p.2.val)).map Prod.fst).Nodup
    rw [List.map_map]
    have : (t.attestations.map (Prod.fst ∘ fun p => (p.1.val, p.2.val))) =
        (t.attestations.map Prod.fst).map Subtype.val := by
      rw [List.map_map]; rfl
    rw [this]
    rw [List.Nodup, List.pairwise_map]
    exact h4.imp fun hne heq => hne (Subtype.ext heq)
  · intro p hp
    obtain ⟨q, _, rfl⟩ := List.mem_map.mp hp
    exact ⟨q.1.2, q.2.2⟩

theorem toArr_val {n : Nat} (b : { b : Bytes // b.length = n }) : toArr n b.val = some b := by
  simp [toArr, b.2]

theorem mapM_inverse {α β : Type} (f : α → β) (g : β → Option α) (h : ∀ a, g (f a) = some a)
    (l : List α) : (l.map f).mapM g = some l := by
  induction l with
  | nil => rfl
  | cons a l ih => simp [List.mapM_cons, h, ih]

theorem OutPoint.ofWire_wire (o : OutPoint) : OutPoint.ofWire o.wire = some o := by
  obtain ⟨t, i⟩ := o
  simp [OutPoint.ofWire, OutPoint.wire, toArr_val]

theorem Output.ofWire_wire (o : Output) : Output.ofWire o.wire = some o := by
  obtain ⟨t, i⟩ := o
  simp [Output.ofWire, Output.wire, toArr_val]

theorem Input.ofWire_wire (i : Input) : Input.ofWire i.wire = some i := by
  obtain ⟨p, d⟩ := i
  have h1 := p.ofWire_wire
  have h2 := d.ofWire_wire
  simp only [Input.ofWire, Input.wire]
  rw [h1, h2]
  rfl

theorem FullTx.ofWire_wire (t : FullTx) : FullTx.ofWire t.wire = some t := by
  obtain ⟨i, o, w⟩ := t
  simp only [FullTx.ofWire, FullTx.wire]
  rw [mapM_inverse Input.wire Input.ofWire Input.ofWire_wire,
    mapM_inverse Output.wire Output.ofWire Output.ofWire_wire]
  have : (w.map witnessWire).map (fun l : List Nat => l.map UInt8.ofNat) = w := by
    rw [List.map_map]
    conv => rhs; rw [← List.map_id w]
    apply List.map_congr_left
    intro b _
    simp only [Function.comp, witnessWire]
    change List.map UInt8.ofNat (List.map UInt8.toNat b) = b
    rw [List.map_map]
    conv => rhs; rw [← List.map_id b]
    apply List.map_congr_left
    intro x _
    simp
  change some (FullTx.mk i o ((w.map witnessWire).map (fun l : List Nat => l.map UInt8.ofNat))) = _
  rw [this]

theorem CompactTx.ofWire_wire (t : CompactTx) : CompactTx.ofWire t.wire = some t := by
  obtain ⟨id, i, o, a⟩ := t
  simp only [CompactTx.ofWire, CompactTx.wire]
  rw [toArr_val, mapM_inverse _ (toArr 32) toArr_val, mapM_inverse _ (toArr 32) toArr_val,
    mapM_inverse _ _ (fun p : PubKey × Sig => by simp [toArr_val])]
  rfl

theorem wire_input_inj {a b : Input} (h : a.wire = b.wire) : a = b := by
  have := congrArg Input.ofWire h
  rw [Input.ofWire_wire, Input.ofWire_wire] at this
  exact Option.some.inj this

theorem wire_output_inj {a b : Output} (h : a.wire = b.wire) : a = b := by
  have := congrArg Output.ofWire h
  rw [Output.ofWire_wire, Output.ofWire_wire] at this
  exact Option.some.inj this

theorem map_inj {α β : Type} {f : α → β} (hf : ∀ a b, f a = f b → a = b) :
    ∀ {l m : List α}, l.map f = m.map f → l = m
  | [], [], _ => rfl
  | [], _ :: _, h => by simp at h
  | _ :: _, [], h => by simp at h
  | a :: l, b :: m, h => by
    simp only [List.map_cons, List.cons.injEq] at h
    rw [hf a b h.1, map_inj hf h.2]

theorem enc_inj (t : Ty) (v w : t.val) (hv : WF t v) (hw : WF t w) {r s : Bytes}
    (h : enc t v ++ r = enc t w ++ s) : v = w ∧ r = s := by
  have h1 := roundtrip t v hv r
  rw [h, roundtrip t w hw s] at h1
  injection h1 with h1 h2
  exact ⟨h1.symm, h2.symm⟩

/-! ### validation -/

theorem andThen_pass {ε : Type} {a b : Check ε} :
    a.andThen b = .pass ↔ a = .pass ∧ b = .pass := by
  cases a <;> simp [Check.andThen]

theorem andThen_err {ε : Type} {a b : Check ε} {e : ε} :
    a.andThen b = .err e ↔ a = .err e ∨ (a = .pass ∧ b = .err e) := by
  cases a <;> simp [Check.andThen]

theorem andThen_ub {ε : Type} {a b : Check ε} :
    a.andThen b = .ub ↔ a = .ub ∨ (a = .pass ∧ b = .ub) := by
  cases a <;> simp [Check.andThen]

theorem mapErr_pass {ε δ : Type} {f : ε → δ} {a : Check ε} : a.mapErr f = .pass ↔ a = .pass := by
  cases a <;> simp [Check.mapErr]

theorem mapErr_err {ε δ : Type} {f : ε → δ} {a : Check ε} {d : δ} :
    a.mapErr f = .err d ↔ ∃ e, a = .err e ∧ f e = d := by
  cases a <;> simp [Check.mapErr]

theorem mapErr_ub {ε δ : Type} {f : ε → δ} {a : Check ε} : a.mapErr f = .ub ↔ a = .ub := by
  cases a <;> simp [Check.mapErr]

theorem checkInputSetLoop_pass (is : List Input) (idx : Nat) (seen : List OutPoint) :
    checkInputSetLoop is idx seen = .pass ↔
      (is.map (·.prevout)).Nodup ∧ ∀ i ∈ is, i.prevout ∉ seen := by
  induction is generalizing idx seen with
  | nil => simp [checkInputSetLoop]
  | cons i is ih =>
    simp only [checkInputSetLoop]
    split
    · rename_i h
      simp [h]
    · rename_i h
      rw [ih]
      simp only [List.map_cons, List.nodup_cons, List.mem_cons, List.mem_map, not_or, not_exists,
        not_and, forall_eq_or_imp]
      constructor
      · rintro ⟨h1, h2⟩
        exact ⟨⟨fun x hx => (h2 x hx).1, h1⟩, h, fun a ha => (h2 a ha).2⟩
      · rintro ⟨⟨h1, h2⟩, _, h3⟩
        exact ⟨h2, fun a ha => ⟨h1 a ha, h3 a ha⟩⟩

theorem checkInputSetLoop_ne_ub (is : List Input) (idx : Nat) (seen : List OutPoint) :
    checkInputSetLoop is idx seen ≠ .ub := by
  induction is generalizing idx seen with
  | nil => simp [checkInputSetLoop]
  | cons i is ih =>
    simp only [checkInputSetLoop]
    split
    · simp
    · exact ih _ _

theorem checkInputSetLoop_err (is : List Input) (idx : Nat) (seen : List OutPoint) (e : TxError)
    (h : checkInputSetLoop is idx seen = .err e) :
    ∃ k i, e = .inputDuplicate (idx + k) ∧ is[k]? = some i ∧
      (i.prevout ∈ seen ∨ ∃ j i', j < k ∧ is[j]? = some i' ∧ i'.prevout = i.prevout) := by
  induction is generalizing idx seen with
  | nil => cases h
  | cons i is ih =>
    simp only [checkInputSetLoop] at h
    split at h
    · rename_i hm
      cases h
      exact ⟨0, i, rfl, rfl, .inl hm⟩
    · obtain ⟨k, x, h1, h2, h3⟩ := ih _ _ h
      refine ⟨k + 1, x, by rw [h1]; congr 1; omega, by simpa using h2, ?_⟩
      rcases h3 with h3 | ⟨j, i', h4, h5, h6⟩
      · rcases List.mem_cons.mp h3 with h3 | h3
        · exact .inr ⟨0, i, by omega, rfl, h3.symm⟩
        · exact .inl h3
      · exact .inr ⟨j + 1, i', by omega, by simpa using h5, h6⟩

theorem zeroValue_iff (o : Output) : zeroValue o = true ↔ o.value = 0 := by
  simp only [zeroValue, decide_eq_true_eq, UInt64.lt_iff_toNat_lt, ← UInt64.toNat_inj]
  simp

theorem ne_zero_iff (x : UInt64) : x ≠ 0 ↔ 1 ≤ x.toNat := by
  rw [Ne, ← UInt64.toNat_inj]
  simp
  omega

theorem checkInputs_pass (is : List Input) (idx : Nat) :
    checkInputs is idx = .pass ↔ ∀ i ∈ is, 1 ≤ i.prevoutData.value.toNat := by
  induction is generalizing idx with
  | nil => simp [checkInputs]
  | cons i is ih =>
    simp only [checkInputs, List.mem_cons, forall_eq_or_imp, ← ne_zero_iff, Ne, ← zeroValue_iff]
    split
    · rename_i h; simp [h]
    · rename_i h
      rw [ih]
      simp [h, ← ne_zero_iff, ← zeroValue_iff]

theorem checkOutputs_pass (is : List Output) (idx : Nat) :
    checkOutputs is idx = .pass ↔ ∀ o ∈ is, 1 ≤ o.value.toNat := by
  induction is generalizing idx with
  | nil => simp [checkOutputs]
  | cons i is ih =>
    simp only [checkOutputs, List.mem_cons, forall_eq_or_imp, ← ne_zero_iff, Ne, ← zeroValue_iff]
    split
    · rename_i h; simp [h]
    · rename_i h
      rw [ih]
      simp [h, ← ne_zero_iff, ← zeroValue_iff]

theorem checkInputs_ne_ub (is : List Input) (idx : Nat) : checkInputs is idx ≠ .ub := by
  induction is generalizing idx with
  | nil => simp [checkInputs]
  | cons i is ih =>
    simp only [checkInputs]
    split
    · simp
    · exact ih _

theorem checkOutputs_ne_ub (is : List Output) (idx : Nat) : checkOutputs is idx ≠ .ub := by
  induction is generalizing idx with
  | nil => simp [checkOutputs]
  | cons i is ih =>
    simp only [checkOutputs]
    split
    · simp
    · exact ih _

theorem checkInputs_err (is : List Input) (idx : Nat) (e : TxError)
    (h : checkInputs is idx = .err e) :
    ∃ k i, e = .inputZeroValue (idx + k) ∧ is[k]? = some i ∧ i.prevoutData.value = 0 := by
  induction is generalizing idx with
  | nil => cases h
  | cons i is ih =>
    simp only [checkInputs] at h
    split at h
    · rename_i hz
      cases h
      exact ⟨0, i, rfl, rfl, (zeroValue_iff _).mp hz⟩
    · obtain ⟨k, x, h1, h2, h3⟩ := ih _ h
      exact ⟨k + 1, x, by rw [h1]; congr 1; omega, by simpa using h2, h3⟩

theorem checkOutputs_err (is : List Output) (idx : Nat) (e : TxError)
    (h : checkOutputs is idx = .err e) :
    ∃ k i, e = .outputZeroValue (idx + k) ∧ is[k]? = some i ∧ i.value = 0 := by
  induction is generalizing idx with
  | nil => cases h
  | cons i is ih =>
    simp only [checkOutputs] at h
    split at h
    · rename_i hz
      cases h
      exact ⟨0, i, rfl, rfl, (zeroValue_iff _).mp hz⟩
    · obtain ⟨k, x, h1, h2, h3⟩ := ih _ h
      exact ⟨k + 1, x, by rw [h1]; congr 1; omega, by simpa using h2, h3⟩

/-- For positive values the loop computes the true total or reports overflow. -/
theorem sumLoop_spec (vs : List UInt64) (t : UInt64) (hpos : ∀ v ∈ vs, 1 ≤ v.toNat) :
    if t.toNat + total vs < 2 ^ 64 then
      ∃ s, sumLoop vs t = some s ∧ s.toNat = t.toNat + total vs
    else sumLoop vs t = none := by
  induction vs generalizing t with
  | nil =>
    have := t.toNat_lt
    simp [total, sumLoop, this]
  | cons v vs ih =>
    have hv := hpos v (by simp)
    have htot : total (v :: vs) = v.toNat + total vs := by simp [total]
    have hle : (t + v ≤ t) ↔ ¬ (t.toNat + v.toNat < 2 ^ 64) := by
      rw [UInt64.le_iff_toNat_le, UInt64.toNat_add]
      have h1 := t.toNat_lt
      have h2 := v.toNat_lt
      omega
    rw [htot]
    simp only [sumLoop, hle]
    by_cases hlt : t.toNat + v.toNat < 2 ^ 64
    · have hadd : (t + v).toNat = t.toNat + v.toNat := by
        rw [UInt64.toNat_add]; omega
      have := ih (t + v) (fun w hw => hpos w (by simp [hw]))
      rw [hadd] at this
      simp only [hlt, not_true_eq_false, if_false]
      rw [← Nat.add_assoc]
      exact this
    · simp only [hlt, not_false_eq_true, if_true]
      rw [if_neg (by omega)]
      trivial

theorem slice_all (a b c : Bytes) : slice (a ++ b ++ c) a.length b.length = some b := by
  simp [slice]

theorem sliceParts (w : Bytes) (h : w.length = 97) :
    slice w 0 33 = some (w.take 33) ∧ slice w 1 32 = some ((w.drop 1).take 32) ∧
      slice w 33 64 = some (w.drop 33) := by
  refine ⟨by simp [slice, h], by simp [slice, h], ?_⟩
  simp only [slice, h]
  rw [if_pos (by omega)]
  congr 1
  apply List.take_of_length_le
  simp [h]

theorem checkWitness_pass (c : Crypto) (t : FullTx) (idx : Nat) (w : Bytes) :
    checkWitness c t idx w = .pass ↔
      ∃ inp, t.inputs[idx]? = some inp ∧
        OwnerSigned c (txId c t) inp.prevoutData.commitment w := by
  constructor
  · intro h
    cases w with
    | nil => simp [checkWitness] at h
    | cons ty w =>
      simp only [checkWitness] at h
      split at h
      · rename_i hty
        subst hty
        simp only [checkP2pkWitness, andThen_pass] at h
        obtain ⟨h1, h2, h3⟩ := h
        simp only [checkP2pkLen] at h1
        split at h1
        · cases h1
        · rename_i hl
          have hl : (0 :: w).length = 97 := by simpa [witLen, progLen] using hl
          have hl' : w.length = 96 := by simpa using hl
          obtain ⟨s1, s2, s3⟩ := sliceParts _ hl
          simp only [checkP2pkCommitment, progLen, s1] at h2
          simp only [checkP2pkSignature, progLen, s2, s3] at h3
          cases hi : t.inputs[idx]? with
          | none => rw [hi] at h2; cases h2
          | some inp =>
            rw [hi] at h2
            refine ⟨inp, rfl, ⟨w.take 32, by simp; omega⟩, ⟨w.drop 32, by simp; omega⟩, ?_, ?_, ?_, ?_⟩
            · simp
            · simp only [ne_eq, ite_not] at h2
              split at h2
              · rename_i h; simpa using h
              · cases h2
            · split at h3
              · rename_i h; simpa using h
              · cases h3
            · split at h3
              · split at h3
                · rename_i h; simpa using h
                · cases h3
              · cases h3
      · cases h
  · rintro ⟨inp, hi, pk, sig, rfl, h1, h2, h3⟩
    have hl : (0 :: (pk.val ++ sig.val)).length = 97 := by simp [pk.2, sig.2]
    obtain ⟨s1, s2, s3⟩ := sliceParts _ hl
    have e1 : (pk.val ++ sig.val).take 32 = pk.val := List.take_left' pk.2
    have e2 : (pk.val ++ sig.val).drop 32 = sig.val := List.drop_left' pk.2
    simp only [checkWitness, if_true, checkP2pkWitness, andThen_pass]
    refine ⟨?_, ?_, ?_⟩
    · simp [checkP2pkLen, witLen, progLen, pk.2, sig.2]
    · simp only [checkP2pkCommitment, progLen, s1, hi]
      simp [e1, h1]
    · simp only [checkP2pkSignature, progLen, s2, s3]
      simp [e1, e2, h2, h3]

theorem checkWitness_ne_ub (c : Crypto) (t : FullTx) (idx : Nat) (w : Bytes)
    (h : idx < t.inputs.length) : checkWitness c t idx w ≠ .ub := by
  cases w with
  | nil => simp [checkWitness]
  | cons ty w =>
    simp only [checkWitness]
    split
    · intro hu
      simp only [checkP2pkWitness, andThen_ub] at hu
      simp only [checkP2pkLen] at hu
      split at hu
      · simp at hu
      · rename_i hl
        have hl : (ty :: w).length = 97 := by simpa [witLen, progLen] using hl
        obtain ⟨s1, s2, s3⟩ := sliceParts _ hl
        simp only [checkP2pkCommitment, progLen, s1, List.getElem?_eq_getElem h,
          checkP2pkSignature, s2, s3] at hu
        rcases hu with hu | ⟨_, hu | ⟨_, hu⟩⟩
        · cases hu
        · split at hu <;> cases hu
        · split at hu
          · split at hu <;> cases hu
          · cases hu
    · simp

theorem checkWitness_err (c : Crypto) (t : FullTx) (idx : Nat) (w : Bytes) (code : WitnessCode)
    (h : idx < t.inputs.length) (he : checkWitness c t idx w = .err code) :
    ∃ inp, t.inputs[idx]? = some inp ∧
      match code with
      | .missingType => w = []
      | .unknownType => ∃ ty rest, w = ty :: rest ∧ ty ≠ 0
      | .malformed => w.length ≠ 97
      | .programMismatch => c.sha (w.take 33) ≠ inp.prevoutData.commitment
      | .invalidPubkey => c.parse ((w.drop 1).take 32) = false
      | .invalidSignature => c.verify ((w.drop 1).take 32) (txId c t).val (w.drop 33) = false := by
  refine ⟨t.inputs[idx], List.getElem?_eq_getElem h, ?_⟩
  cases w with
  | nil => simp only [checkWitness] at he; cases he; rfl
  | cons ty w =>
    simp only [checkWitness] at he
    split at he
    · rename_i hty
      simp only [checkP2pkWitness, andThen_err] at he
      simp only [checkP2pkLen] at he
      split at he
      · rename_i hl
        rcases he with he | ⟨he, _⟩
        · cases he; simpa [witLen, progLen] using hl
        · cases he
      · rename_i hl
        have hl : (ty :: w).length = 97 := by simpa [witLen, progLen] using hl
        obtain ⟨s1, s2, s3⟩ := sliceParts _ hl
        simp only [checkP2pkCommitment, progLen, s1, List.getElem?_eq_getElem h,
          checkP2pkSignature, s2, s3] at he
        rcases he with he | ⟨_, he | ⟨_, he⟩⟩
        · cases he
        · split at he
          · rename_i hc; cases he; exact hc
          · cases he
        · split at he
          · split at he
            · cases he
            · rename_i hc; cases he; simpa using hc
          · rename_i hc; cases he; simpa using hc
    · rename_i hty
      cases he
      exact ⟨ty, w, rfl, hty⟩

theorem checkWitnesses_pass (c : Crypto) (t : FullTx) (ws : List Bytes) (idx : Nat) :
    checkWitnesses c t ws idx = .pass ↔
      ∀ k w, ws[k]? = some w → checkWitness c t (idx + k) w = .pass := by
  induction ws generalizing idx with
  | nil => simp [checkWitnesses]
  | cons w ws ih =>
    simp only [checkWitnesses, andThen_pass, mapErr_pass, ih]
    constructor
    · rintro ⟨h1, h2⟩ k x hk
      cases k with
      | zero => simp at hk; subst hk; simpa using h1
      | succ k =>
        have := h2 k x (by simpa using hk)
        rwa [Nat.add_assoc, Nat.add_comm 1 k] at this
    · intro h
      refine ⟨by simpa using h 0 w rfl, fun k x hk => ?_⟩
      have := h (k + 1) x (by simpa using hk)
      rwa [Nat.add_comm k 1, ← Nat.add_assoc] at this

theorem checkWitnesses_ne_ub (c : Crypto) (t : FullTx) (ws : List Bytes) (idx : Nat)
    (h : idx + ws.length ≤ t.inputs.length) : checkWitnesses c t ws idx ≠ .ub := by
  induction ws generalizing idx with
  | nil => simp [checkWitnesses]
  | cons w ws ih =>
    simp only [List.length_cons] at h
    intro hu
    simp only [checkWitnesses, andThen_ub, mapErr_ub] at hu
    rcases hu with hu | ⟨_, hu⟩
    · exact checkWitness_ne_ub c t idx w (by omega) hu
    · exact ih (idx + 1) (by omega) hu

theorem checkWitnesses_err (c : Crypto) (t : FullTx) (ws : List Bytes) (idx : Nat) (e : TxError)
    (he : checkWitnesses c t ws idx = .err e) :
    ∃ k w code, e = .witness code (idx + k) ∧ ws[k]? = some w ∧
      checkWitness c t (idx + k) w = .err code := by
  induction ws generalizing idx with
  | nil => cases he
  | cons w ws ih =>
    simp only [checkWitnesses, andThen_err, mapErr_err] at he
    rcases he with ⟨code, h1, h2⟩ | ⟨_, h2⟩
    · exact ⟨0, w, code, h2.symm, rfl, h1⟩
    · obtain ⟨k, x, code, h3, h4, h5⟩ := ih _ h2
      refine ⟨k + 1, x, code, ?_, by simpa using h4, ?_⟩
      · rw [h3]; congr 1; omega
      · rw [Nat.add_comm k 1, ← Nat.add_assoc]; exact h5

end Verif.Tx
