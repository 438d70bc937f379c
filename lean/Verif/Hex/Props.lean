import Verif.Hex.Model
import Verif.Evm.MathProps
/-!
# C37, C74: hex text
-/
namespace Verif.Hex

open Verif.Serial Verif.Evm

/-! ### Specification -/

/-- The hex digits, in both cases. -/
def hexChars : Text := "0123456789abcdefABCDEF".toUTF8.toList

/-- A text made of hex digits. -/
def IsHex (s : Text) : Prop := ∀ c ∈ s, c ∈ hexChars

/-- The lower-case hex digits, in the order of their values. -/
def lowerChars : Text := "0123456789abcdef".toUTF8.toList

/-- The value of a digit: its position in the list above; upper case like lower
case. -/
def digitVal (c : UInt8) : Nat :=
  if c < 97 ∧ 65 ≤ c then lowerChars.idxOf (c + 32) else lowerChars.idxOf c

/-- The number a text of hex digits stands for. -/
def hexNat (s : Text) : Nat := s.foldl (fun n c => n * 16 + digitVal c) 0

/-! ### Digits -/

theorem hexChars_eq : hexChars = [48, 49, 50, 51, 52, 53, 54, 55, 56, 57, 97, 98, 99,
    100, 101, 102, 65, 66, 67, 68, 69, 70] := by decide +kernel

theorem lowerChars_eq : lowerChars = [48, 49, 50, 51, 52, 53, 54, 55, 56, 57, 97, 98,
    99, 100, 101, 102] := by decide +kernel

theorem digit_hex {c : UInt8} (h : c ∈ hexChars) :
    digit c = some (digitVal c) ∧ digitVal c < 16 ∧ isSpace c = false ∧
      c ≠ 43 ∧ c ≠ 45 ∧ c ≠ 120 ∧ c ≠ 88 := by
  revert c
  unfold digitVal
  rw [lowerChars_eq, hexChars_eq]
  decide

/-- Only hex digits are digits. -/
theorem hex_of_digit {c : UInt8} {d : Nat} (h : digit c = some d) : c ∈ hexChars := by
  have key : ∀ n : Fin 256, (digit (UInt8.ofNat n)).isSome →
      UInt8.ofNat n ∈ [48, 49, 50, 51, 52, 53, 54, 55, 56, 57, 97, 98, 99,
        100, 101, 102, 65, 66, 67, 68, 69, (70 : UInt8)] := by decide +kernel
  rw [hexChars_eq]
  have := key ⟨c.toNat, c.toNat_lt⟩
  simp only [UInt8.ofNat_toNat] at this
  exact this (by rw [h]; rfl)

theorem digitChar_spec (d : Nat) (h : d < 16) :
    digitChar d ∈ hexChars ∧ digitVal (digitChar d) = d ∧
      digitChar d ∈ lowerChars := by
  have key : ∀ d : Fin 16, digitChar d ∈ [48, 49, 50, 51, 52, 53, 54, 55, 56, 57, 97,
        98, 99, 100, 101, 102, 65, 66, 67, 68, 69, (70 : UInt8)] ∧
      (if digitChar d < 97 ∧ 65 ≤ digitChar d then
        [48, 49, 50, 51, 52, 53, 54, 55, 56, 57, 97, 98, 99, 100, 101,
          (102 : UInt8)].idxOf (digitChar d + 32)
       else [48, 49, 50, 51, 52, 53, 54, 55, 56, 57, 97, 98, 99, 100, 101,
          (102 : UInt8)].idxOf (digitChar d)) = d ∧
      digitChar d ∈ [48, 49, 50, 51, 52, 53, 54, 55, 56, 57, 97, 98, 99, 100, 101,
          (102 : UInt8)] := by decide
  unfold digitVal
  rw [hexChars_eq, lowerChars_eq]
  exact key ⟨d, h⟩

theorem digitChar_val {c : UInt8} (h : c ∈ lowerChars) :
    digitChar (digitVal c) = c := by
  revert c
  unfold digitVal
  rw [lowerChars_eq]
  decide

theorem lower_hex {c : UInt8} (h : c ∈ lowerChars) : c ∈ hexChars := by
  revert c
  rw [lowerChars_eq, hexChars_eq]
  decide

theorem unsignedPart_eq (s : Text) (h : ∀ a b rest, s = a :: b :: rest →
    b ≠ 120 ∧ b ≠ 88) : unsignedPart s = digits s 0 false := by
  unfold unsignedPart
  split
  · next rest => exact absurd rfl (h _ _ _ rfl).1
  · next rest => exact absurd rfl (h _ _ _ rfl).2
  · rfl

theorem scan_unsigned (a : UInt8) (rest : Text) (h1 : isSpace a = false) (h2 : a ≠ 43)
    (h3 : a ≠ 45) : scan (a :: rest) = unsignedPart (a :: rest) := by
  unfold scan
  rw [List.dropWhile_cons, h1]
  simp only [Bool.false_eq_true, if_false]
  split
  · next h => exact absurd (List.cons.inj h).1 h2
  · next h => exact absurd (List.cons.inj h).1 h3
  · rfl

/-- Two hex digits are read as the byte they stand for. -/
theorem scan_hex {a b : UInt8} (ha : a ∈ hexChars) (hb : b ∈ hexChars) :
    scan [a, b] = some (digitVal a * 16 + digitVal b) := by
  obtain ⟨a1, a2, a3, a4, a5, a6, a7⟩ := digit_hex ha
  obtain ⟨b1, b2, b3, b4, b5, b6, b7⟩ := digit_hex hb
  rw [scan_unsigned a _ a3 a4 a5, unsignedPart_eq]
  · simp [digits, a1, b1]
  · intro x y r h
    simp only [List.cons.injEq] at h
    obtain ⟨rfl, rfl, _⟩ := h
    exact ⟨b6, b7⟩

/-- The bytes that pairs of digits stand for. -/
def pairVals : Text → Bytes
  | a :: b :: rest => (digitVal a * 16 + digitVal b).toUInt8 :: pairVals rest
  | _ => []

theorem fromPairs_hex : ∀ (s : Text), IsHex s → fromPairs s = some (pairVals s)
  | [], _ => rfl
  | [_], _ => rfl
  | a :: b :: rest, h => by
    have ih := fromPairs_hex rest fun c hc => h c (by simp [hc])
    simp only [fromPairs, pairVals]
    rw [scan_hex (h a (by simp)) (h b (by simp)), ih]
    rfl

theorem toHex_cons (b : UInt8) (l : Bytes) :
    toHex (b :: l) =
      digitChar (b.toNat / 16) :: digitChar (b.toNat % 16) :: toHex l := rfl

theorem toHex_length (l : Bytes) : (toHex l).length = 2 * l.length := by
  induction l with
  | nil => rfl
  | cons b l ih => rw [toHex_cons]; simp only [List.length_cons, ih]; omega

theorem toHex_lower (l : Bytes) : ∀ c ∈ toHex l, c ∈ lowerChars := by
  induction l with
  | nil => intro c hc; cases hc
  | cons b l ih =>
    have hb := b.toNat_lt
    intro c hc
    rw [toHex_cons] at hc
    simp only [List.mem_cons] at hc
    rcases hc with rfl | rfl | hc
    · exact (digitChar_spec _ (by omega)).2.2
    · exact (digitChar_spec _ (by omega)).2.2
    · exact ih c hc

theorem toHex_hex (l : Bytes) : IsHex (toHex l) := fun c hc =>
  lower_hex (toHex_lower l c hc)

theorem pairVals_toHex (l : Bytes) : pairVals (toHex l) = l := by
  induction l with
  | nil => rfl
  | cons b l ih =>
    have hb := b.toNat_lt
    rw [toHex_cons, pairVals, ih, (digitChar_spec _ (by omega)).2.1,
      (digitChar_spec _ (by omega)).2.1]
    have : b.toNat / 16 * 16 + b.toNat % 16 = b.toNat := by omega
    rw [this]
    simp

theorem pairVals_length : ∀ (s : Text), s.length % 2 = 0 →
    (pairVals s).length * 2 = s.length
  | [], _ => rfl
  | [_], h => by simp at h
  | a :: b :: rest, h => by
    have ih := pairVals_length rest (by simp at h; omega)
    simp only [pairVals, List.length_cons]
    omega

/-! ### C37 -/

/-- **C37.** Bytes survive the conversion to hex and back, up to the largest size
that the decoder accepts. -/
theorem C37_round_trip (b : Bytes) (h0 : b ≠ []) (h1 : b.length ≤ 51200) :
    fromHex (toHex b) = some b := by
  unfold fromHex
  have hl := toHex_length b
  have hpos : 0 < b.length := List.length_pos_iff.mpr h0
  rw [if_neg]
  · rw [fromPairs_hex _ (toHex_hex b), pairVals_toHex]
  · simp only [Bool.or_eq_true, bne_iff_ne, decide_eq_true_eq, List.isEmpty_iff]
    rintro ((h | h) | h)
    · rw [h] at hl; simp at hl; omega
    · omega
    · omega

/-- **C37.** The text has two lower-case digits per byte, and different bytes give
different texts. -/
theorem C37_text (b : Bytes) :
    (toHex b).length = 2 * b.length ∧ (∀ c ∈ toHex b, c ∈ lowerChars) ∧
      ∀ b', toHex b' = toHex b → b' = b :=
  ⟨toHex_length b, toHex_lower b, fun b' h => by
    rw [← pairVals_toHex b', h, pairVals_toHex]⟩

/-- **C37.** With a prefix. -/
theorem C37_prefixed (b : Bytes) (pre : Text) (h0 : b ≠ [])
    (h1 : b.length ≤ 51200) :
    fromHexPrefixed (toHexPrefixed b pre) pre = some b := by
  unfold fromHexPrefixed toHexPrefixed
  have hp : pre.isPrefixOf (pre ++ toHex b) = true := by
    rw [List.isPrefixOf_iff_prefix]; exact List.prefix_append _ _
  simp only [hp, if_true, List.drop_left]
  rw [if_neg (by rw [toHex_length]; simp)]
  exact C37_round_trip b h0 h1

/-- **C37.** Empty text, text of odd length and over-long text are refused. -/
theorem C37_reject (s : Text) (h : s = [] ∨ s.length % 2 = 1 ∨ 102400 < s.length) :
    fromHex s = none := by
  unfold fromHex
  rw [if_pos]
  simp only [Bool.or_eq_true, bne_iff_ne, decide_eq_true_eq, List.isEmpty_iff]
  rcases h with h | h | h
  · exact .inl (.inl h)
  · exact .inl (.inr (by omega))
  · exact .inr h

/-- **C37.** Text of hex digits, of even length and not too long, is decoded to
the bytes it stands for. -/
theorem C37_decode (s : Text) (h : IsHex s) (h0 : s ≠ []) (he : s.length % 2 = 0)
    (hl : s.length ≤ 102400) :
    ∃ b, fromHex s = some b ∧ b.length * 2 = s.length ∧ bytesNat b = hexNat s := by
  refine ⟨pairVals s, ?_, pairVals_length s he, ?_⟩
  · unfold fromHex
    rw [if_neg, fromPairs_hex s h]
    simp only [Bool.or_eq_true, bne_iff_ne, decide_eq_true_eq, List.isEmpty_iff]
    rintro ((h | h) | h)
    · exact h0 h
    · exact h he
    · omega
  · have key : ∀ (s : Text) (n : Nat), IsHex s → s.length % 2 = 0 →
        (pairVals s).foldl (fun n b => n * 256 + b.toNat) n =
          s.foldl (fun n c => n * 16 + digitVal c) n := by
      intro s
      induction s using pairVals.induct with
      | case1 a b rest ih =>
        intro n h he
        obtain ⟨_, a2, _⟩ := digit_hex (h a (by simp))
        obtain ⟨_, b2, _⟩ := digit_hex (h b (by simp))
        simp only [pairVals, List.foldl_cons]
        rw [ih _ (fun c hc => h c (by simp [hc])) (by simp at he; omega)]
        congr 1
        have : (digitVal a * 16 + digitVal b).toUInt8.toNat =
            digitVal a * 16 + digitVal b := by
          show (_ % 256) = _
          omega
        rw [this]
        omega
      | case2 s hs =>
        intro n _ he
        match s with
        | [] => rfl
        | [_] => simp at he
        | a :: b :: r => exact absurd rfl (hs a b r)
    exact key s 0 h he

/-- **C37.** Lower-case text that is accepted is the text of the result. -/
theorem C37_canonical (s : Text) (b : Bytes) (h : ∀ c ∈ s, c ∈ lowerChars)
    (hd : fromHex s = some b) : toHex b = s := by
  have he : s.length % 2 = 0 := by
    apply Decidable.byContradiction
    intro hn
    rw [C37_reject s (.inr (.inl (by omega)))] at hd
    cases hd
  unfold fromHex at hd
  split at hd
  · cases hd
  · next hneg =>
    clear hneg
    rw [fromPairs_hex s fun c hc => lower_hex (h c hc)] at hd
    have hd' := Option.some.inj hd
    clear hd
    subst hd'
    induction s using pairVals.induct with
    | case1 a b rest ih =>
      obtain ⟨_, a2, _⟩ := digit_hex (lower_hex (h a (by simp)))
      obtain ⟨_, b2, _⟩ := digit_hex (lower_hex (h b (by simp)))
      rw [pairVals, toHex_cons, ih (fun c hc => h c (by simp [hc]))
        (by simp at he; omega)]
      have e : (digitVal a * 16 + digitVal b).toUInt8.toNat =
          digitVal a * 16 + digitVal b := by
        show (_ % 256) = _
        omega
      have e1 : (digitVal a * 16 + digitVal b) / 16 = digitVal a := by omega
      have e2 : (digitVal a * 16 + digitVal b) % 16 = digitVal b := by omega
      rw [e, e1, e2, digitChar_val (h a (by simp)), digitChar_val (h b (by simp))]
    | case2 s hs =>
      match s with
      | [] => rfl
      | [_] => simp at he
      | a :: b :: r => exact absurd rfl (hs a b r)

theorem digits_none (a : UInt8) (rest : Text) (h : a ∉ hexChars) :
    digits (a :: rest) 0 false = none := by
  simp only [digits]
  cases hd : digit a with
  | none => rfl
  | some d => exact absurd (hex_of_digit hd) h

/-- The characters that may stand in front of a digit: white space and signs. -/
def frontChars : Text := [9, 10, 11, 12, 13, 32, 43, 45]

theorem isSpace_front {a : UInt8} (h : isSpace a = true) : a ∈ frontChars := by
  have key : ∀ n : Fin 256, isSpace (UInt8.ofNat n) = true →
      UInt8.ofNat n ∈ frontChars := by decide +kernel
  have := key ⟨a.toNat, a.toNat_lt⟩
  simp only [UInt8.ofNat_toNat] at this
  exact this h

theorem unsigned_one (a : UInt8) (h : a ∉ hexChars) : unsignedPart [a] = none := by
  rw [unsignedPart_eq]
  · exact digits_none a [] h
  · intro x y r he; simp at he

theorem scan_shape (a b : UInt8)
    (h : ¬ (a ∈ hexChars ∨ (a ∈ frontChars ∧ b ∈ hexChars))) :
    scan [a, b] = none := by
  have ha : a ∉ hexChars := fun x => h (.inl x)
  by_cases hs : isSpace a = true
  · have hb : b ∉ hexChars := fun x => h (.inr ⟨isSpace_front hs, x⟩)
    unfold scan
    rw [List.dropWhile_cons, if_pos hs]
    by_cases hbs : isSpace b = true
    · rw [List.dropWhile_cons, if_pos hbs]
      rfl
    · rw [List.dropWhile_cons, if_neg hbs]
      split
      · next e => cases (List.cons.inj e).2; rfl
      · next e => cases (List.cons.inj e).2; rfl
      · exact unsigned_one b hb
  · unfold scan
    rw [List.dropWhile_cons, if_neg hs]
    split
    · next e =>
      obtain ⟨e1, e2⟩ := List.cons.inj e
      subst e1 e2
      exact unsigned_one b fun x => h (.inr ⟨by decide, x⟩)
    · next e =>
      obtain ⟨e1, e2⟩ := List.cons.inj e
      subst e1 e2
      rw [unsigned_one b fun x => h (.inr ⟨by decide, x⟩)]
      rfl
    · have hz : a ≠ 48 := fun e => ha (by rw [e, hexChars_eq]; decide)
      have : unsignedPart [a, b] = digits [a, b] 0 false := by
        unfold unsignedPart
        split
        · next e => exact absurd (List.cons.inj e).1 hz
        · next e => exact absurd (List.cons.inj e).1 hz
        · rfl
      rw [this]
      exact digits_none a [b] ha

/-- **C37, in part.** Text is refused if some pair of characters neither starts
with a hex digit nor is a blank or sign followed by one.  Missing: text with
other characters in second place, or with blanks and signs, is accepted (see
`C37_nonhex_violated`). -/
theorem C37_reject_partial (s : Text) (i : Nat) (a b : UInt8)
    (ha : s[2 * i]? = some a) (hb : s[2 * i + 1]? = some b)
    (h : ¬ (a ∈ hexChars ∨ (a ∈ frontChars ∧ b ∈ hexChars))) : fromHex s = none := by
  unfold fromHex
  split
  · rfl
  · next hneg =>
    clear hneg
    induction s using pairVals.induct generalizing i with
    | case1 x y rest ih =>
      cases i with
      | zero =>
        simp at ha hb
        subst ha hb
        simp only [fromPairs, scan_shape _ _ h]
      | succ i =>
        have e1 : 2 * (i + 1) = 2 * i + 1 + 1 := by omega
        rw [e1] at ha hb
        simp only [List.getElem?_cons_succ] at ha hb
        have := ih i ha hb
        simp only [fromPairs]
        split
        · rfl
        · rw [this]; rfl
    | case2 s hs =>
      match s with
      | [] => simp at ha
      | [_] =>
        simp at hb
      | a :: b :: r => exact absurd rfl (hs a b r)

/-- **C37, counterexample.** Text with other characters than hex digits is
accepted: a second character that is not a digit is ignored, blanks and signs
are accepted, and a minus sign negates. -/
theorem C37_nonhex_violated :
    fromHex [49, 103] = some [1] ∧      -- "1g"
    fromHex [32, 49] = some [1] ∧       -- " 1"
    fromHex [43, 49] = some [1] ∧       -- "+1"
    fromHex [45, 49] = some [255] ∧     -- "-1"
    fromHex [49, 103] = fromHex [48, 49] ∧ ¬ IsHex [49, 103] := by
  refine ⟨by decide, by decide, by decide, by decide, by decide, ?_⟩
  unfold IsHex
  rw [hexChars_eq]
  decide

/-- **C37, counterexample.** No bytes become empty text, which is refused. -/
theorem C37_empty_violated : fromHex (toHex []) = none := by decide

/-! ### Hashes -/

theorem hashLoop_toHex (l : Bytes) : ∀ (i : Nat) (acc : List (Option UInt8)),
    acc.length = 32 → i + l.length ≤ 32 →
    hashLoop (toHex l) i acc = .ok (acc.take i ++ l.map some ++
      acc.drop (i + l.length)) := by
  induction l with
  | nil =>
    intro i acc _ _
    simp [toHex, hashLoop]
  | cons b l ih =>
    intro i acc hacc hi
    have hb := b.toNat_lt
    simp only [List.length_cons] at hi
    rw [toHex_cons]
    simp only [hashLoop]
    rw [if_pos (by omega), scan_hex (digitChar_spec _ (by omega)).1
      (digitChar_spec _ (by omega)).1, (digitChar_spec _ (by omega)).2.1,
      (digitChar_spec _ (by omega)).2.1]
    have : b.toNat / 16 * 16 + b.toNat % 16 = b.toNat := by omega
    rw [this, ih _ _ (by simp [hacc]) (by omega)]
    simp only [Option.getD_some]
    have hbb : b.toNat.toUInt8 = b := by simp
    rw [hbb]
    congr 1
    have h1 : (acc.set i (some b)).take (i + 1) = acc.take i ++ [some b] := by
      rw [List.take_add_one]
      simp [hacc, List.take_set_of_le, show i < 32 by omega]
    have h2 : (acc.set i (some b)).drop (i + 1 + l.length) =
        acc.drop (i + (l.length + 1)) := by
      rw [List.drop_set_of_lt (by omega)]
      congr 1
      omega
    rw [h1, h2]
    simp

/-- **C37.** A hash survives the conversion to text and back. -/
theorem C37_hash (h : Bytes) (hl : h.length = 32) :
    hashFromHex (toHex h) = .ok (h.map some) := by
  unfold hashFromHex
  rw [hashLoop_toHex h 0 _ (by simp) (by omega)]
  simp [hl]

/-- The number of bytes that text of `n` characters is written to. -/
theorem hashLoop_overflow : ∀ (s : Text) (i : Nat) (acc : List (Option UInt8)),
    i ≤ 32 → (hashLoop s i acc = .overflow ↔ 32 < i + (s.length + 1) / 2)
  | [], i, acc, hi => by
    simp only [hashLoop, List.length_nil]
    constructor
    · intro h; cases h
    · intro h; omega
  | [a], i, acc, hi => by
    simp only [hashLoop, List.length_cons, List.length_nil]
    split
    · constructor
      · intro h; cases h
      · intro h; omega
    · simp; omega
  | a :: b :: rest, i, acc, hi => by
    simp only [hashLoop, List.length_cons]
    split
    · rw [hashLoop_overflow rest (i + 1) _ (by omega)]
      omega
    · simp; omega

/-- **C37, counterexample.** `hash_from_hex` writes outside the hash exactly if
the text has more than 64 characters; nothing checks that.  Shorter text leaves
bytes of the hash uninitialised. -/
theorem C37_hash_violated :
    (∀ s : Text, hashFromHex s = .overflow ↔ 64 < s.length) ∧
    hashFromHex [48, 49] = .ok (some 1 :: List.replicate 31 none) := by
  refine ⟨fun s => ?_, by decide⟩
  unfold hashFromHex
  rw [hashLoop_overflow s 0 _ (by omega)]
  omega

/-! ### C74: numbers -/

theorem padWord_nat (b : Bytes) (h : b.length ≤ 32) :
    (padWord b h).nat = bytesNat b := by
  show bytesNat (List.replicate (32 - b.length) 0 ++ b) = _
  rw [bytesNat_append]
  have : ∀ n, bytesNat (List.replicate n 0) = 0 := by
    intro n
    induction n with
    | zero => rfl
    | succ n ih => rw [List.replicate_succ, bytesNat_cons, ih]; simp
  rw [this]
  simp

theorem hexNat_cons (c : UInt8) (s : Text) :
    hexNat (c :: s) = digitVal c * 16 ^ s.length + hexNat s := by
  unfold hexNat
  have key : ∀ (m : Text) (a : Nat),
      m.foldl (fun n c => n * 16 + digitVal c) a =
        a * 16 ^ m.length + m.foldl (fun n c => n * 16 + digitVal c) 0 := by
    intro m
    induction m with
    | nil => intro a; simp
    | cons b m ih =>
      intro a
      simp only [List.foldl_cons, List.length_cons]
      rw [ih, ih (0 * 16 + digitVal b), Nat.pow_succ']
      rw [Nat.add_mul, Nat.zero_mul, Nat.zero_add, Nat.mul_assoc, Nat.add_assoc]
  rw [List.foldl_cons, key]
  simp

theorem digitVal_zero : digitVal 48 = 0 := by
  unfold digitVal; rw [lowerChars_eq]; decide

theorem zero_hex : (48 : UInt8) ∈ hexChars := by rw [hexChars_eq]; decide

theorem fromHexPrefixed_num (s : Text) (h : IsHex s) (h0 : s ≠ [])
    (hl : s.length < 102400) :
    ∃ b, fromHexPrefixed (zeroX ++ s) zeroX = some b ∧ b.length * 2 = s.length + s.length % 2 ∧
      bytesNat b = hexNat s := by
  unfold fromHexPrefixed
  have hp : zeroX.isPrefixOf (zeroX ++ s) = true := by
    rw [List.isPrefixOf_iff_prefix]; exact List.prefix_append _ _
  simp only [hp, if_true, List.drop_left]
  by_cases he : s.length % 2 = 0
  · rw [if_neg (by simp [he])]
    obtain ⟨b, h1, h2, h3⟩ := C37_decode s h h0 he (by omega)
    exact ⟨b, h1, by omega, h3⟩
  · rw [if_pos (by simpa using he)]
    obtain ⟨b, h1, h2, h3⟩ := C37_decode (48 :: s)
      (fun c hc => by
        simp only [List.mem_cons] at hc
        rcases hc with rfl | hc
        · exact zero_hex
        · exact h c hc) (by simp)
      (by simp only [List.length_cons]; omega)
      (by simp only [List.length_cons]; omega)
    refine ⟨b, h1, by simp only [List.length_cons] at h2; omega, ?_⟩
    rw [h3, hexNat_cons, digitVal_zero]
    simp

/-- **C74.** A number of 1 to 64 hex digits after `0x` is read as that number by
`uint256be_from_hex`. -/
theorem C74_number (s : Text) (h : IsHex s) (h0 : s ≠ []) (hl : s.length ≤ 64) :
    ∃ w, uint256beFromHex (zeroX ++ s) = some w ∧ w.nat = hexNat s := by
  obtain ⟨b, h1, h2, h3⟩ := fromHexPrefixed_num s h h0 (by omega)
  have h2 : b.length ≤ 32 := by omega
  unfold uint256beFromHex
  rw [h1]
  simp only [h2, dite_true]
  exact ⟨_, rfl, by rw [padWord_nat, h3]⟩

/-- **C74.** A number of more than 64 digits is refused. -/
theorem C74_too_long (s : Text) (h : IsHex s) (hl : 64 < s.length) (hl2 : s.length < 102400) :
    uint256beFromHex (zeroX ++ s) = none := by
  obtain ⟨b, h1, h2, _⟩ := fromHexPrefixed_num s h (by intro e; subst e; simp at hl) hl2
  unfold uint256beFromHex
  rw [h1]
  have : ¬ b.length ≤ 32 := by omega
  simp only [this, dite_false]

/-- **C74.** An address, a hash or another text for `size` bytes is read as given, and
refused if it has another number of digits.  One leading zero can be left out. -/
theorem C74_sized (size : Nat) (s : Text) (h : IsHex s) (h0 : s ≠ []) (hl : s.length < 102400) :
    if s.length + s.length % 2 = 2 * size then
      ∃ b, fromHexSized size (zeroX ++ s) = some b ∧ b.length = size ∧ bytesNat b = hexNat s
    else fromHexSized size (zeroX ++ s) = none := by
  obtain ⟨b, h1, h2, h3⟩ := fromHexPrefixed_num s h h0 hl
  unfold fromHexSized
  rw [h1]
  split
  · have : b.length = size := by omega
    exact ⟨b, by simp [this], this, h3⟩
  · have : b.length ≠ size := by omega
    simp [this]

/-- A text of three digits is read for two bytes and refused for three. -/
example : fromHexSized 2 (zeroX ++ [49, 50, 102]) = some [1, 0x2f] ∧
    fromHexSized 3 (zeroX ++ [49, 50, 102]) = none := by decide +kernel

theorem bytesNat_toHex (l : Bytes) : hexNat (toHex l) = bytesNat l := by
  by_cases h0 : l = []
  · subst h0; rfl
  · -- the general statement, without the bound on the length
    clear h0
    induction l with
    | nil => rfl
    | cons b l ih =>
      have hb := b.toNat_lt
      rw [toHex_cons, hexNat_cons, hexNat_cons, bytesNat_cons, ih,
        (digitChar_spec _ (by omega)).2.1, (digitChar_spec _ (by omega)).2.1]
      simp only [List.length_cons, toHex_length]
      rw [Nat.pow_succ, Nat.pow_mul]
      have e : (16 : Nat) ^ 2 = 256 := by decide
      rw [e]
      generalize (256 : Nat) ^ l.length = P
      have hd : b.toNat / 16 * 16 + b.toNat % 16 = b.toNat := by omega
      have : b.toNat * P = b.toNat / 16 * (P * 16) + b.toNat % 16 * P := by
        rw [Nat.mul_comm P 16, ← Nat.mul_assoc, ← Nat.add_mul, hd]
      omega

theorem dropWhile_nat (l : Bytes) : bytesNat (l.dropWhile (· == 0)) = bytesNat l := by
  induction l with
  | nil => rfl
  | cons b l ih =>
    rw [List.dropWhile_cons]
    split
    · next h =>
      rw [ih, bytesNat_cons]
      have : b = 0 := by simpa using h
      rw [this]
      simp
    · rfl

/-- The digits written by `to_hex_trimmed`. -/
theorem trimmed (w : Word) (pre : Text) : ∃ s, toHexTrimmed w pre = pre ++ s ∧
    IsHex s ∧ s ≠ [] ∧ s.length ≤ 64 ∧ hexNat s = w.nat := by
  unfold toHexTrimmed
  have hn := dropWhile_nat w.val
  have hlen : (w.val.dropWhile (· == 0)).length ≤ 32 := by
    have := (List.dropWhile_sublist (l := w.val) (· == 0)).length_le
    rw [w.2] at this
    exact this
  split
  · next h =>
    rw [h] at hn
    refine ⟨[48], rfl, ?_, by simp, by simp, ?_⟩
    · intro c hc
      simp only [List.mem_singleton] at hc
      subst hc
      exact zero_hex
    · rw [hexNat_cons, digitVal_zero]
      simp only [Nat.zero_mul, Nat.zero_add]
      exact hn
  · next rest hne =>
    simp only
    generalize hd : w.val.dropWhile (· == 0) = d at *
    have hd0 : d ≠ [] := fun e => hne e
    split
    · next ht =>
      obtain ⟨b, l, rfl⟩ := List.exists_cons_of_ne_nil hd0
      refine ⟨_, rfl, ?_, ?_, ?_, ?_⟩
      · intro c hc
        exact toHex_hex (b :: l) c (List.mem_of_mem_drop hc)
      · rw [toHex_cons]; simp
      · rw [List.length_drop, toHex_length]; omega
      · rw [toHex_cons] at ht ⊢
        simp only [List.take_succ_cons, List.take_zero, List.cons.injEq,
          and_true] at ht
        have := bytesNat_toHex (b :: l)
        rw [toHex_cons, hexNat_cons, ht, digitVal_zero] at this
        simp only [Nat.zero_mul, Nat.zero_add] at this
        simp only [List.drop_succ_cons, List.drop_zero]
        rw [this]
        exact hn
    · refine ⟨_, rfl, toHex_hex d, ?_, ?_, ?_⟩
      · intro e
        have := toHex_length d
        rw [e] at this
        have hp : 0 < d.length := List.length_pos_iff.mpr hd0
        simp at this
        omega
      · rw [toHex_length]; omega
      · rw [bytesNat_toHex]; exact hn

/-- **C74.** A number written with `to_hex_trimmed` is read back. -/
theorem C74_round_trip (w : Word) :
    uint256beFromHex (toHexTrimmed w zeroX) = some w := by
  obtain ⟨s, h1, h2, h3, h4, h5⟩ := trimmed w zeroX
  obtain ⟨w', h6, h7⟩ := C74_number s h2 h3 h4
  rw [h1, h6]
  congr 1
  exact Word.nat_inj (h7.trans h5)

/-- **C74, in part.** The numbers of a JSON transaction are read as given if they
have exactly 64 digits.  Missing: see `C74_quantity_violated`. -/
theorem C74_quantity_partial (s : Text) (h : IsHex s) (hl : s.length = 64) :
    (quantity (zeroX ++ s)).nat = hexNat s := by
  obtain ⟨b, h1, h2, h3⟩ := C37_decode s h
    (by intro e; rw [e] at hl; simp at hl) (by omega) (by omega)
  have hb : b.length = 32 := by omega
  have hj : bufferFromJson (zeroX ++ s) = some b := by
    unfold bufferFromJson
    rw [if_pos (by simp [zeroX]; omega)]
    exact h1
  unfold quantity uint256beFromJson
  rw [hj]
  simp only [hb, Nat.le_refl, dite_true, Option.getD_some]
  show bytesNat (b.take 32) = _
  rw [List.take_of_length_le (by omega), h3]

/-- **C74, counterexample.** Any number with fewer digits, such as the `0x10` that
every client sends, is silently read as 0. -/
theorem C74_quantity_violated :
    (∀ s : Text, s.length < 64 → (quantity (zeroX ++ s)).nat = 0) ∧
    hexNat [49, 48] = 16 := by
  constructor
  · intro s hs
    unfold quantity uint256beFromJson bufferFromJson
    split
    · exact nat_zero
    · next b hb =>
      split at hb
      · have hlen : b.length * 2 ≤ s.length := by
          have key : ∀ (s : Text) (b : Bytes), fromPairs s = some b →
              b.length * 2 ≤ s.length := by
            intro s
            induction s using pairVals.induct with
            | case1 x y rest ih =>
              intro b hb
              simp only [fromPairs] at hb
              split at hb
              · cases hb
              · simp only [Option.map_eq_some_iff] at hb
                obtain ⟨l, hl, rfl⟩ := hb
                have := ih l hl
                simp only [List.length_cons]
                omega
            | case2 s hs =>
              intro b hb
              match s with
              | [] => simp [fromPairs] at hb; subst hb; simp
              | [_] => simp [fromPairs] at hb; subst hb; simp
              | a :: c :: r => exact absurd rfl (hs a c r)
          have e : (zeroX ++ s).drop 2 = s := rfl
          rw [e] at hb
          unfold fromHex at hb
          split at hb
          · cases hb
          · exact key s b hb
        rw [dif_neg (by omega)]
        exact nat_zero
      · cases hb
  · unfold hexNat digitVal
    rw [lowerChars_eq]
    decide

/-- **C74, in part.** A text argument of at least two characters does not stop the
server. -/
theorem C74_argument_partial (s : Text) (h : 2 ≤ s.length) :
    argBytes s = .val (fromHex (s.drop 2)) := by
  unfold argBytes
  rw [if_neg (by omega)]

/-- **C74, counterexample.** Empty text in place of an address stops the process,
and the first two characters are not looked at. -/
theorem C74_argument_violated :
    argBytes [] = .crash ∧ argBytes [48] = .crash ∧
    ∀ a b s, argBytes (a :: b :: s) = argBytes (48 :: 120 :: s) :=
  ⟨rfl, rfl, fun _ _ _ => by simp [argBytes]⟩

/-! ### Examples -/

example : toHex [0, 255, 16] = [48, 48, 102, 102, 49, 48] := by decide
example : fromHex [102, 70, 48, 97] = some [255, 10] := by decide
example : uint256beFromHex [48, 120, 49, 50, 51] = some (.ofU64 0x123) := by
  decide +kernel
example : toHexTrimmed (.ofU64 0x123) zeroX = [48, 120, 49, 50, 51] := by
  decide +kernel

end Verif.Hex
