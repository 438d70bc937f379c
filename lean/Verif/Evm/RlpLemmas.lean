import Verif.Evm.Rlp
/-! # Lemmas about recursive length prefixes -/
namespace Verif.Evm

open Verif.Serial

theorem bytesNat_reverse (l : Bytes) : bytesNat l.reverse = leNat l := by
  induction l with
  | nil => rfl
  | cons b l ih =>
    rw [List.reverse_cons, bytesNat_append, ih, leNat]
    simp [bytesNat]
    omega

theorem leNat_reverse (l : Bytes) : leNat l.reverse = bytesNat l := by
  rw [← bytesNat_reverse, List.reverse_reverse]

theorem bytesNat_zero_cons (l : Bytes) : bytesNat (0 :: l) = bytesNat l := by
  rw [bytesNat_cons]; simp

theorem bytesNat_zeros (n : Nat) (l : Bytes) : bytesNat (List.replicate n 0 ++ l) = bytesNat l := by
  induction n with
  | zero => rfl
  | succ n ih => rw [List.replicate_succ, List.cons_append, bytesNat_zero_cons, ih]

theorem bytesNat_trim (l : Bytes) : bytesNat (l.dropWhile (· == 0)) = bytesNat l := by
  induction l with
  | nil => rfl
  | cons b l ih =>
    rw [List.dropWhile_cons]
    split
    · rename_i h
      rw [ih]
      have : b = 0 := by simpa using h
      rw [this, bytesNat_zero_cons]
    · rfl

theorem deserializeSize_eq (b : Bytes) : deserializeSize b = bytesNat b := by
  unfold deserializeSize
  rw [leNat_reverse, bytesNat_zeros]

theorem deserialize_serialize (n : Nat) (h : n < 2 ^ 64) : deserializeSize (serializeSize n) = n := by
  rw [deserializeSize_eq]
  unfold serializeSize
  rw [bytesNat_trim, bytesNat_reverse, leNat_encInt _ _ (by simpa using h)]

theorem serializeSize_length_le (n : Nat) : (serializeSize n).length ≤ 8 := by
  unfold serializeSize
  have := (List.dropWhile_sublist (p := (· == (0 : UInt8))) (l := (encInt 8 n).reverse)).length_le
  rw [List.length_reverse, encInt_length] at this
  exact this

theorem serializeSize_length_pos (n : Nat) (h : n < 2 ^ 64) (h0 : n ≠ 0) :
    0 < (serializeSize n).length := by
  rw [List.length_pos_iff]
  intro he
  have := deserialize_serialize n h
  rw [he] at this
  exact h0 (by rw [← this]; rfl)

theorem readLength_serialize (n : Nat) (h : n < 2 ^ 64) (rest : Bytes) :
    readLength (serializeSize n).length (serializeSize n ++ rest) = (n, rest, true) := by
  unfold readLength
  rw [if_pos (by rw [List.length_append]; omega), List.take_left, List.drop_left,
    deserialize_serialize n h]

theorem ofNat_toNat {n : Nat} (h : n < 256) : (UInt8.ofNat n).toNat = n := by
  rw [UInt8.toNat_ofNat']
  exact Nat.mod_eq_of_lt h

theorem readBuffer_ok (limit : Nat) (b rest : Bytes) (hl : b.length ≤ limit) :
    readBuffer limit b.length (b ++ rest) true = some (.buffer b, rest, true) := by
  unfold readBuffer
  rw [if_neg (by omega), if_pos (by rw [List.length_append]; omega), List.take_left, List.drop_left]

theorem serializeLength_length (len offset : Nat) : 1 ≤ (serializeLength len offset).length := by
  unfold serializeLength
  split <;> simp

/-- A buffer written with its length is read back. -/
theorem read_long (limit fuel : Nat) (b rest : Bytes) (hl : b.length ≤ limit) (h64 : b.length < 2 ^ 64) :
    readFrom limit (fuel + 1) (serializeLength b.length 0x80 ++ b ++ rest) =
      some (.buffer b, rest, true) := by
  unfold serializeLength
  split
  · rename_i h55
    rw [List.cons_append, List.cons_append, List.nil_append]
    unfold readFrom
    simp only
    rw [ofNat_toNat (by omega), if_neg (by omega), if_pos (by omega)]
    rw [show b.length + 128 - 128 = b.length by omega]
    exact readBuffer_ok limit b rest hl
  · rename_i h55
    have l8 := serializeSize_length_le b.length
    have l0 := serializeSize_length_pos b.length h64 (by omega)
    rw [List.cons_append, List.cons_append]
    unfold readFrom
    simp only
    rw [ofNat_toNat (by omega), if_neg (by omega), if_neg (by omega), if_pos (by omega)]
    rw [show (serializeSize b.length).length + 55 + 128 - 128 - 55 = (serializeSize b.length).length by
      omega, List.append_assoc, readLength_serialize _ h64]
    exact readBuffer_ok limit b rest hl

theorem writeBuffer_length_pos (b : Bytes) : 1 ≤ (writeBuffer b).length := by
  unfold writeBuffer
  split
  · split
    · simp
    · rw [List.length_append]; simp
  · rw [List.length_append]
    have := serializeLength_length b.length 0x80
    omega

theorem write_length_pos (v : Rlp) : 1 ≤ v.write.length := by
  cases v with
  | buffer b => rw [Rlp.write]; exact writeBuffer_length_pos b
  | array vs =>
    rw [Rlp.write, List.length_append]
    have := serializeLength_length (Rlp.writeAll vs).length 0xc0
    omega

theorem length_le_writeBuffer (b : Bytes) : b.length ≤ (writeBuffer b).length := by
  unfold writeBuffer
  split
  · split <;> simp
  · rw [List.length_append]; omega

theorem read_buffer (limit fuel : Nat) (b rest : Bytes) (hl : (writeBuffer b).length ≤ limit)
    (h64 : (writeBuffer b).length < 2 ^ 64) :
    readFrom limit (fuel + 1) (writeBuffer b ++ rest) = some (.buffer b, rest, true) := by
  have hb := length_le_writeBuffer b
  unfold writeBuffer
  split
  · rename_i x
    split
    · rename_i hx
      rw [List.cons_append, List.nil_append]
      unfold readFrom
      simp only
      rw [if_pos (by simpa [UInt8.lt_iff_toNat_lt] using hx)]
    · exact read_long limit fuel [x] rest (by simp at hb ⊢; omega) (by simp)
  · exact read_long limit fuel b rest (by omega) (by omega)

mutual
theorem read_write (limit : Nat) (v : Rlp) (fuel : Nat) (rest : Bytes)
    (hf : 2 * v.write.length ≤ fuel) (hl : v.write.length ≤ limit) (h64 : v.write.length < 2 ^ 64) :
    readFrom limit fuel (v.write ++ rest) = some (v, rest, true) := by
  cases v with
  | buffer b =>
    rw [Rlp.write] at hf hl h64 ⊢
    have := writeBuffer_length_pos b
    obtain ⟨f, rfl⟩ : ∃ f, fuel = f + 1 := ⟨fuel - 1, by omega⟩
    exact read_buffer limit f b rest hl h64
  | array vs =>
    rw [Rlp.write] at hf hl h64 ⊢
    rw [List.length_append] at hf hl h64
    have hp := serializeLength_length (Rlp.writeAll vs).length 0xc0
    obtain ⟨f, rfl⟩ : ∃ f, fuel = f + 1 := ⟨fuel - 1, by omega⟩
    have ih := readAll_write limit vs f (by omega) (by omega) (by omega)
    generalize hbuf : Rlp.writeAll vs = buf at hf hl h64 hp ih ⊢
    have hvs : buf.length = 0 → vs = [] := by
      intro h
      cases vs with
      | nil => rfl
      | cons v vs =>
        rw [Rlp.writeAll] at hbuf
        have := write_length_pos v
        rw [← hbuf, List.length_append] at h
        omega
    have fin : ∀ r : Bytes, r = buf ++ rest →
        (if buf.length = 0 then some (Rlp.array [], r, true)
         else if limit < buf.length then none
         else if buf.length ≤ r.length then
          (readAll limit f (r.take buf.length)).map fun vs => (.array vs, r.drop buf.length, true)
         else some (.array (List.replicate buf.length (.buffer [0])), r, false)) =
        some (Rlp.array vs, rest, true) := by
      intro r hr
      subst hr
      by_cases h0 : buf.length = 0
      · rw [if_pos h0, hvs h0, List.eq_nil_of_length_eq_zero h0]
        rfl
      · rw [if_neg h0, if_neg (by omega), if_pos (by rw [List.length_append]; omega), List.take_left,
          List.drop_left, ih]
        rfl
    by_cases h55 : buf.length ≤ 55
    · have e : serializeLength buf.length 0xc0 = [UInt8.ofNat (buf.length + 0xc0)] := by
        unfold serializeLength; rw [if_pos h55]
      rw [e, List.cons_append, List.cons_append, List.nil_append]
      unfold readFrom
      simp only
      have ha : arrayLength (buf.length + 192) (buf ++ rest) = (buf.length, buf ++ rest, true) := by
        unfold arrayLength
        rw [if_pos (by omega), show buf.length + 192 - 192 = buf.length by omega]
      rw [ofNat_toNat (by omega), if_neg (by omega), if_neg (by omega), if_neg (by omega), ha]
      exact fin _ rfl
    · have e : serializeLength buf.length 0xc0 =
          UInt8.ofNat ((serializeSize buf.length).length + 55 + 0xc0) :: serializeSize buf.length := by
        unfold serializeLength; rw [if_neg h55]
      have l8 := serializeSize_length_le buf.length
      have l0 := serializeSize_length_pos buf.length (by omega) (by omega)
      rw [e, List.cons_append, List.cons_append]
      unfold readFrom
      simp only
      have ha : arrayLength ((serializeSize buf.length).length + 55 + 192)
          (serializeSize buf.length ++ buf ++ rest) = (buf.length, buf ++ rest, true) := by
        unfold arrayLength
        rw [if_neg (by omega), show (serializeSize buf.length).length + 55 + 192 - 192 - 55 =
          (serializeSize buf.length).length by omega, List.append_assoc,
          readLength_serialize _ (by omega)]
      rw [ofNat_toNat (by omega), if_neg (by omega), if_neg (by omega), if_neg (by omega), ha]
      exact fin _ rfl
theorem readAll_write (limit : Nat) (vs : List Rlp) (fuel : Nat)
    (hf : 2 * (Rlp.writeAll vs).length + 1 ≤ fuel) (hl : (Rlp.writeAll vs).length ≤ limit)
    (h64 : (Rlp.writeAll vs).length < 2 ^ 64) :
    readAll limit fuel (Rlp.writeAll vs) = some vs := by
  obtain ⟨f, rfl⟩ : ∃ f, fuel = f + 1 := ⟨fuel - 1, by omega⟩
  cases vs with
  | nil => rfl
  | cons v vs =>
    rw [Rlp.writeAll] at hf hl h64 ⊢
    rw [List.length_append] at hf hl h64
    have hp := write_length_pos v
    have a := read_write limit v f (Rlp.writeAll vs) (by omega) (by omega) (by omega)
    have b := readAll_write limit vs f (by omega) (by omega) (by omega)
    generalize hb : v.write ++ Rlp.writeAll vs = bs at a
    cases bs with
    | nil =>
      have := congrArg List.length hb
      rw [List.length_append, List.length_nil] at this
      omega
    | cons x xs =>
      unfold readAll
      simp only [a, b]
      rfl
end

theorem deserializeSize_lt (b : Bytes) (h : b.length ≤ 8) : deserializeSize b < 2 ^ 64 := by
  rw [deserializeSize_eq]
  have := bytesNat_lt b
  have : 256 ^ b.length ≤ 256 ^ 8 := Nat.pow_le_pow_right (by decide) h
  omega

theorem readLength_spec (k : Nat) (bs : Bytes) (hk : k ≤ 8) :
    (readLength k bs).1 < 2 ^ 64 ∧ (readLength k bs).2.1.length ≤ bs.length := by
  unfold readLength
  split
  · refine ⟨deserializeSize_lt _ ?_, ?_⟩
    · rw [List.length_take]; omega
    · simp only [List.length_drop]; omega
  · exact ⟨Nat.pow_pos (by decide), Nat.le_refl _⟩

/-- Reading consumes something and throws only for want of memory. -/
theorem read_total (limit : Nat) (hl : 2 ^ 64 ≤ limit) (fuel : Nat) :
    (∀ bs : Bytes, 2 * bs.length ≤ fuel → 1 ≤ fuel →
      ∃ v left valid, readFrom limit fuel bs = some (v, left, valid) ∧
        (bs ≠ [] → left.length < bs.length)) ∧
    (∀ bs : Bytes, 2 * bs.length + 1 ≤ fuel → ∃ vs, readAll limit fuel bs = some vs) := by
  induction fuel with
  | zero =>
    constructor
    · intro bs h1 h2; omega
    · intro bs h; omega
  | succ fuel ih =>
    have rb : ∀ size (bs : Bytes) v, size < 2 ^ 64 →
        ∃ x left valid, readBuffer limit size bs v = some (x, left, valid) ∧ left.length ≤ bs.length := by
      intro size bs v hs
      unfold readBuffer
      rw [if_neg (by omega)]
      split
      · exact ⟨_, _, _, rfl, by rw [List.length_drop]; omega⟩
      · exact ⟨_, _, _, rfl, Nat.le_refl _⟩
    constructor
    · intro bs hbs _
      unfold readFrom
      cases bs with
      | nil => exact ⟨_, _, _, rfl, fun h => absurd rfl h⟩
      | cons b rest =>
        rw [List.length_cons] at hbs
        have hb := UInt8.toNat_lt b
        simp only
        split
        · exact ⟨_, _, _, rfl, fun _ => by simp⟩
        split
        · obtain ⟨x, l, v, h1, h2⟩ := rb (b.toNat - 0x80) rest true (by omega)
          exact ⟨x, l, v, h1, fun _ => by rw [List.length_cons]; omega⟩
        split
        · have hr := readLength_spec (b.toNat - 128 - 55) rest (by omega)
          obtain ⟨x, l, v, h1, h2⟩ := rb (readLength (b.toNat - 128 - 55) rest).1
            (readLength (b.toNat - 128 - 55) rest).2.1 (readLength (b.toNat - 128 - 55) rest).2.2 hr.1
          exact ⟨x, l, v, h1, fun _ => by rw [List.length_cons]; omega⟩
        · have hr : (arrayLength b.toNat rest).1 < 2 ^ 64 ∧
              (arrayLength b.toNat rest).2.1.length ≤ rest.length := by
            unfold arrayLength
            split
            · exact ⟨by show b.toNat - 192 < 2 ^ 64; omega, Nat.le_refl _⟩
            · exact readLength_spec _ rest (by omega)
          generalize arrayLength b.toNat rest = l at hr
          split
          · exact ⟨_, _, _, rfl, fun _ => by rw [List.length_cons]; omega⟩
          rw [if_neg (by omega)]
          split
          · have len : (l.2.1.take l.1).length ≤ rest.length := by rw [List.length_take]; omega
            obtain ⟨vs, hvs⟩ := ih.2 (l.2.1.take l.1) (by omega)
            rw [hvs]
            refine ⟨_, _, _, rfl, fun _ => ?_⟩
            rw [List.length_cons, List.length_drop]; omega
          · exact ⟨_, _, _, rfl, fun _ => by rw [List.length_cons]; omega⟩
    · intro bs hbs
      unfold readAll
      cases bs with
      | nil => exact ⟨[], rfl⟩
      | cons b rest =>
        rw [List.length_cons] at hbs
        obtain ⟨v, left, valid, h1, h2⟩ := ih.1 (b :: rest) (by rw [List.length_cons]; omega) (by omega)
        have h2 := h2 (by simp)
        rw [List.length_cons] at h2
        obtain ⟨vs, hvs⟩ := ih.2 left (by omega)
        simp only [h1, hvs]
        exact ⟨_, rfl⟩

/-- More fuel than `rlpDecode` gives makes no difference. -/
theorem read_fuel (limit : Nat) (fuel : Nat) :
    (∀ bs : Bytes, 2 * bs.length ≤ fuel → 1 ≤ fuel →
      readFrom limit (fuel + 1) bs = readFrom limit fuel bs ∧
      ∀ v left valid, readFrom limit fuel bs = some (v, left, valid) →
        (bs ≠ [] → left.length < bs.length)) ∧
    (∀ bs : Bytes, 2 * bs.length + 1 ≤ fuel →
      readAll limit (fuel + 1) bs = readAll limit fuel bs) := by
  induction fuel with
  | zero =>
    constructor
    · intro bs h1 h2; omega
    · intro bs h; omega
  | succ fuel ih =>
    have rb : ∀ size (bs : Bytes) v x left valid,
        readBuffer limit size bs v = some (x, left, valid) → left.length ≤ bs.length := by
      intro size bs v x left valid h
      unfold readBuffer at h
      split at h
      · exact absurd h (by simp)
      split at h
      · injection h with h
        injection h with h1 h2
        injection h2 with h2 h3
        rw [← h2, List.length_drop]; omega
      · injection h with h
        injection h with h1 h2
        injection h2 with h2 h3
        rw [← h2]; exact Nat.le_refl _
    constructor
    · intro bs hbs _
      cases bs with
      | nil =>
        rw [readFrom, readFrom]
        exact ⟨rfl, fun _ _ _ _ h => absurd rfl h⟩
      | cons b rest =>
        rw [List.length_cons] at hbs
        have hb := UInt8.toNat_lt b
        rw [readFrom, readFrom]
        simp only
        split
        · refine ⟨rfl, ?_⟩
          intro v left valid h _
          injection h with h
          injection h with h1 h2
          injection h2 with h2 h3
          rw [← h2]; simp
        split
        · refine ⟨rfl, ?_⟩
          intro v left valid h _
          have := rb _ _ _ _ _ _ h
          rw [List.length_cons]; omega
        split
        · refine ⟨rfl, ?_⟩
          intro v left valid h _
          have hr := readLength_spec (b.toNat - 128 - 55) rest (by omega)
          have := rb _ _ _ _ _ _ h
          rw [List.length_cons]; omega
        · have hr : (arrayLength b.toNat rest).2.1.length ≤ rest.length := by
            unfold arrayLength
            split
            · exact Nat.le_refl _
            · exact (readLength_spec _ rest (by omega)).2
          generalize arrayLength b.toNat rest = l at hr
          split
          · refine ⟨rfl, ?_⟩
            intro v left valid h _
            injection h with h
            injection h with h1 h2
            injection h2 with h2 h3
            rw [← h2, List.length_cons]; omega
          split
          · exact ⟨rfl, fun _ _ _ h => absurd h (by simp)⟩
          split
          · have len : (l.2.1.take l.1).length ≤ rest.length := by rw [List.length_take]; omega
            rw [ih.2 (l.2.1.take l.1) (by omega)]
            refine ⟨rfl, ?_⟩
            intro v left valid h _
            rw [Option.map_eq_some_iff] at h
            obtain ⟨vs, _, h⟩ := h
            injection h with h1 h2
            injection h2 with h2 h3
            rw [← h2, List.length_cons, List.length_drop]; omega
          · refine ⟨rfl, ?_⟩
            intro v left valid h _
            injection h with h
            injection h with h1 h2
            injection h2 with h2 h3
            rw [← h2, List.length_cons]; omega
    · intro bs hbs
      cases bs with
      | nil => rw [readAll, readAll]
      | cons b rest =>
        rw [List.length_cons] at hbs
        have h1 := ih.1 (b :: rest) (by rw [List.length_cons]; omega) (by omega)
        rw [readAll, readAll]
        simp only [h1.1]
        cases h : readFrom limit fuel (b :: rest) with
        | none => rfl
        | some t =>
          obtain ⟨v, left, valid⟩ := t
          have h2 := h1.2 v left valid h (by simp)
          rw [List.length_cons] at h2
          simp only
          rw [ih.2 left (by omega)]

end Verif.Evm
