import Verif.Bech32.Lemmas
import Verif.Bech32.Distance
/-!
# Bech32 and addresses: properties (C38, C76)

`decode` is `bech32::Decode`, `encode` is `bech32::Encode`, `addressDecode` is
`address::decode` and `newAddress` is what the `newaddress` command prints.
-/
namespace Verif.Bech32

/-! ## Specification -/

/-- A prefix which may be given to `Encode`. -/
def Prefix (hrp : Text) : Prop := hrp ≠ [] ∧ ∀ c ∈ hrp, 33 ≤ c ∧ c ≤ 126 ∧ ¬ (65 ≤ c ∧ c ≤ 90)

/-- A text without capital letters. -/
def NoCapitals (s : Text) : Prop := ∀ c ∈ s, ¬ (65 ≤ c ∧ c ≤ 90)

/-- In how many places two texts differ by more than the case of the letter. -/
def typos (s t : Text) : Nat := (s.zip t).countP fun p => lowerCase p.1 != lowerCase p.2

/-- 32 bytes. -/
def Key (k : List Nat) : Prop := k.length = 32 ∧ ∀ b ∈ k, b < 256

/-! ## Helper lemmas -/

theorem lowerCase_of {c : Nat} (h : ¬ (65 ≤ c ∧ c ≤ 90)) : lowerCase c = c := by
  unfold lowerCase; rw [if_neg h]

theorem lower_map {s : Text} (h : NoCapitals s) : s.map lowerCase = s := by
  conv => rhs; rw [← List.map_id s]
  exact List.map_congr_left fun c hc => lowerCase_of (h c hc)

theorem symbol_none {c : Nat} (h : 128 ≤ c) : symbol c = none := by
  unfold symbol
  rw [List.getElem?_eq_none (by simp only [charsetRev, List.length_cons, List.length_nil]; omega)]
  rfl

theorem symbol_lower (c : Nat) : symbol (lowerCase c) = symbol c := by
  by_cases h : c < 128
  · have : ∀ c : Fin 128, symbol (lowerCase c.val) = symbol c.val := by decide
    exact this ⟨c, h⟩
  · rw [lowerCase_of (by omega)]

theorem expand_lt {hrp : Text} (h : ∀ c ∈ hrp, c ≤ 126) : ∀ v ∈ expandHrp hrp, v < 2 ^ 30 := by
  intro v hv
  unfold expandHrp at hv
  simp only [List.mem_append, List.mem_map, List.mem_singleton] at hv
  rcases hv with (⟨c, hc, rfl⟩ | rfl) | ⟨c, hc, rfl⟩
  · have := h c hc
    rw [Nat.shiftRight_eq_div_pow]; omega
  · decide
  · exact Nat.lt_of_lt_of_le (Nat.and_lt_two_pow c (n := 5) (by decide)) (by decide)

theorem checksum_ok (hrp : Text) (values : List Nat) (hh : ∀ c ∈ hrp, c ≤ 126)
    (hv : ∀ v ∈ values, v < 32) :
    polymod (expandHrp hrp ++ (values ++ createChecksum hrp values)) = 1 := by
  have := checksum_valid (expandHrp hrp ++ values) (by
    intro v h
    rcases List.mem_append.mp h with h | h
    · exact expand_lt hh v h
    · exact Nat.lt_of_lt_of_le (hv v h) (by decide))
  rw [← List.append_assoc]
  exact this

theorem checksum_lt (hrp : Text) (values : List Nat) : ∀ v ∈ createChecksum hrp values, v < 32 := by
  intro v hv
  unfold createChecksum at hv
  have l : ∀ x, x &&& 31 < 32 := fun x => Nat.and_lt_two_pow x (n := 5) (by decide)
  simp only [List.mem_cons, List.not_mem_nil, or_false] at hv
  rcases hv with h | h | h | h | h | h <;> rw [h] <;> exact l _

theorem checksum_length (hrp : Text) (values : List Nat) : (createChecksum hrp values).length = 6 := rfl

/-- The characters of symbols. -/
theorem chars_exist (values : List Nat) (hv : ∀ v ∈ values, v < 32) :
    ∃ cs : Text, values.map (charset[·]?) = cs.map some ∧ cs.map symbol = values.map some ∧
      cs.length = values.length ∧ ∀ c ∈ cs, 33 ≤ c ∧ c ≤ 126 ∧ ¬ (65 ≤ c ∧ c ≤ 90) := by
  induction values with
  | nil => exact ⟨[], rfl, rfl, rfl, by simp⟩
  | cons v vs ih =>
    obtain ⟨cs, h1, h2, h3, h4⟩ := ih (fun x hx => hv x (List.mem_cons_of_mem _ hx))
    obtain ⟨c, a1, a2, a3, a4, a5, _⟩ := charset_lower ⟨v, hv v (List.mem_cons_self ..)⟩
    refine ⟨c :: cs, by simp only [List.map_cons, h1]; rw [a1], by
      simp only [List.map_cons, h2]; rw [a2], by simp [h3], ?_⟩
    intro x hx
    rcases List.mem_cons.mp hx with hx | hx
    · rw [hx]; exact ⟨a3, a4, a5⟩
    · exact h4 x hx

theorem encode_eq {hrp : Text} {values : List Nat} {cs : Text}
    (h : (values ++ createChecksum hrp values).map (charset[·]?) = cs.map some) :
    encode hrp values = some (hrp ++ [49] ++ cs) := by
  unfold encode
  rw [(mapM_eq_some _ _ _).mpr h]
  rfl

theorem wellFormed_of (s : Text) (h : ∀ c ∈ s, 33 ≤ c ∧ c ≤ 126 ∧ ¬ (65 ≤ c ∧ c ≤ 90)) :
    wellFormed s = true := by
  unfold wellFormed
  rw [Bool.and_eq_true]
  constructor
  · rw [List.all_eq_true]
    intro c hc
    have := h c hc
    simp; omega
  · have : s.any (fun c => decide (65 ≤ c ∧ c ≤ 90)) = false := by
      rw [List.any_eq_false]
      intro c hc
      simpa using (h c hc).2.2
    rw [this, Bool.and_false]; rfl

theorem values_lt {post : Text} {values : List Nat} (h : post.map symbol = values.map some) :
    ∀ v ∈ values, v < 32 := by
  intro v hv
  have : some v ∈ values.map some := List.mem_map_of_mem hv
  rw [← h] at this
  obtain ⟨c, _, hc⟩ := List.mem_map.mp this
  exact symbol_lt hc

/-- Symbols differ where the characters do. -/
theorem weight_typos (p q : Text) (vs ws : List Nat) (hp : p.map symbol = vs.map some)
    (hq : q.map symbol = ws.map some) :
    weight (List.zipWith (· ^^^ ·) vs ws) = typos p q := by
  induction p generalizing q vs ws with
  | nil =>
    cases vs with
    | nil => rfl
    | cons => simp at hp
  | cons c p ih =>
    cases vs with
    | nil => simp at hp
    | cons v vs =>
      cases q with
      | nil =>
        cases ws with
        | nil => rfl
        | cons => simp at hq
      | cons d q =>
        cases ws with
        | nil => simp at hq
        | cons w ws =>
          simp only [List.map_cons, List.cons.injEq] at hp hq
          have := ih q vs ws hp.2 hq.2
          unfold weight typos at this ⊢
          rw [List.zipWith_cons_cons, List.zip_cons_cons, List.countP_cons, List.countP_cons, this]
          congr 1
          have e : (v ^^^ w = 0) ↔ lowerCase c = lowerCase d := by
            constructor
            · intro h
              have := xor_eq_zero h
              subst this
              exact symbol_eq hp.1 hq.1
            · intro h
              have a := symbol_lower c
              rw [h, symbol_lower d, hq.1, hp.1] at a
              rw [Option.some.inj a, Nat.xor_self]
          by_cases h : lowerCase c = lowerCase d
          · have := e.mpr h
            simp [h, this]
          · have : v ^^^ w ≠ 0 := fun z => h (e.mp z)
            simp [h, this]

theorem typos_append (a b c d : Text) (h : a.length = b.length) :
    typos (a ++ c) (b ++ d) = typos a b + typos c d := by
  unfold typos
  rw [List.zip_append h, List.countP_append]

theorem typos_zero (a b : Text) (h : a.map lowerCase = b.map lowerCase) : typos a b = 0 := by
  induction a generalizing b with
  | nil => rfl
  | cons x a ih =>
    cases b with
    | nil => rfl
    | cons y b =>
      simp only [List.map_cons, List.cons.injEq] at h
      have := ih b h.2
      unfold typos at this ⊢
      rw [List.zip_cons_cons, List.countP_cons, this]
      simp [h.1]

/-- The code distance, on texts. -/
theorem distance {s t hrp : Text} {d d' : List Nat} (hs : decode s = some (hrp, d))
    (ht : decode t = some (hrp, d')) (hl : s.length = t.length) (h1 : typos s t ≠ 0) :
    4 < typos s t := by
  obtain ⟨_, hl90, pre, post, vs, rfl, hpre, h6, hv, rfl, hc, _⟩ := (decode_iff _ _ _).mp hs
  obtain ⟨_, _, pre', post', vs', rfl, _, _, hv', hh, hc', _⟩ := (decode_iff _ _ _).mp ht
  have lp : pre.length = pre'.length := by
    have := congrArg List.length hh
    simpa using this
  have lq : post.length = post'.length := by
    simp only [List.length_append, List.length_cons] at hl
    omega
  have lv : vs.length = post.length := by
    have := congrArg List.length hv
    simpa using this.symm
  have lv' : vs'.length = post'.length := by
    have := congrArg List.length hv'
    simpa using this.symm
  have ht1 : typos (pre ++ 49 :: post) (pre' ++ 49 :: post') = typos post post' := by
    rw [typos_append _ _ _ _ lp, typos_zero _ _ hh, Nat.zero_add]
    unfold typos
    rw [List.zip_cons_cons, List.countP_cons]
    simp
  rw [ht1, ← weight_typos post post' vs vs' hv hv'] at h1 ⊢
  refine Decidable.byContradiction fun hn => ?_
  have hz : err (List.zipWith (· ^^^ ·) vs vs') = 0 := by
    have := foldl_xor vs vs' (polymod (expandHrp (pre.map lowerCase)))
      (polymod (expandHrp (pre.map lowerCase))) (by omega)
    rw [Nat.xor_self] at this
    unfold err
    rw [← this]
    unfold polymod at hc hc' ⊢
    rw [List.foldl_append] at hc hc'
    rw [hc, hc', Nat.xor_self]
  refine err_ne_zero _ ?_ ?_ h1 (by omega) hz
  · intro v hm
    obtain ⟨i, hi, rfl⟩ := List.getElem_of_mem hm
    rw [List.getElem_zipWith]
    simp only [List.length_zipWith] at hi
    exact Nat.xor_lt_two_pow (n := 5) (values_lt hv _ (List.getElem_mem ..))
      (values_lt hv' _ (List.getElem_mem ..))
  · have : 0 < pre.length := List.length_pos_iff.mpr hpre
    simp only [List.length_append, List.length_cons] at hl90
    rw [List.length_zipWith]
    omega

theorem addressDecode_prefix {s : Text} (h : addressDecode s ≠ .invalid) :
    ∃ d, decode s = some (usd, d) := by
  unfold addressDecode at h
  split at h
  · exact absurd rfl h
  · rename_i hrp enc hd
    split at h
    · exact absurd rfl h
    · rename_i hne
      exact ⟨enc, by rw [hd, Decidable.not_not.mp hne]⟩

theorem decode_data {s hrp : Text} {d : List Nat} (h : decode s = some (hrp, d)) :
    ∀ v ∈ d, v < 32 := by
  obtain ⟨_, _, pre, post, vs, _, _, _, hv, _, _, rfl⟩ := (decode_iff _ _ _).mp h
  intro v hm
  exact values_lt hv v (List.mem_of_mem_take hm)

/-- What `address::decode` makes of the data. -/
theorem addressDecode_key {s : Text} {k : List Nat} (h : addressDecode s = .key k) :
    ∃ d, decode s = some (usd, d) ∧ (convertBits 5 8 false d).1 = 0 :: k ∧ k.length = 32 := by
  unfold addressDecode at h
  split at h
  · cases h
  · rename_i hrp enc hd
    split at h
    · cases h
    · rename_i hne
      split at h
      · cases h
      · rename_i d0 data hc
        split at h
        · cases h
        · rename_i hg
          injection h with h
          subst h
          refine ⟨enc, by rw [hd, Decidable.not_not.mp hne], ?_, ?_⟩
          · rw [hc, show d0 = 0 from Decidable.byContradiction fun x => hg (.inl x)]
          · have : (d0 :: data).length = 33 := Decidable.byContradiction fun x => hg (.inr x)
            simpa using this

/-- Six symbols are 0 when their checksum is. -/
theorem six_zero (a b c d e f : Nat) (ha : a < 32) (hb : b < 32) (hc : c < 32) (hd : d < 32)
    (he : e < 32) (hf : f < 32) (h : [a, b, c, d, e, f].foldl polymodStep 0 = 0) :
    a = 0 ∧ b = 0 ∧ c = 0 ∧ d = 0 ∧ e = 0 ∧ f = 0 := by
  have st : ∀ {n x v : Nat}, x < 2 ^ n → n ≤ 20 → v < 32 → polymodStep x v < 2 ^ (n + 5) ∧
      (polymodStep x v = 0 → x = 0 ∧ v = 0) := by
    intro n x v hx hn hv
    have hx' : x < 2 ^ 25 := Nat.lt_of_lt_of_le hx (Nat.pow_le_pow_right (by decide) (by omega))
    rw [polymodStep_eq, lin_small hx', Nat.shiftLeft_eq]
    constructor
    · have h5 : 2 ^ 5 ≤ 2 ^ (n + 5) := Nat.pow_le_pow_right (by decide) (by omega)
      refine Nat.xor_lt_two_pow ?_ (Nat.lt_of_lt_of_le hv h5)
      rw [Nat.pow_add]
      omega
    · intro h
      have := xor_eq_zero h
      omega
  have st' : ∀ {x v : Nat}, x < 2 ^ 25 → v < 32 → polymodStep x v = 0 → x = 0 ∧ v = 0 := by
    intro x v hx hv h
    rw [polymodStep_eq, lin_small hx, Nat.shiftLeft_eq] at h
    have := xor_eq_zero h
    omega
  simp only [List.foldl_cons, List.foldl_nil] at h
  have s1 := st (n := 0) (x := 0) (v := a) (by decide) (by decide) ha
  have s2 := st (n := 5) (v := b) s1.1 (by decide) hb
  have s3 := st (n := 10) (v := c) s2.1 (by decide) hc
  have s4 := st (n := 15) (v := d) s3.1 (by decide) hd
  have s5 := st (n := 20) (v := e) s4.1 (by decide) he
  have r6 := st' s5.1 hf h
  have r5 := s5.2 r6.1
  have r4 := s4.2 r5.1
  have r3 := s3.2 r4.1
  have r2 := s2.2 r3.1
  have r1 := s1.2 r2.1
  exact ⟨r1.2, r2.2, r3.2, r4.2, r5.2, r6.2⟩

/-- Only one checksum fits. -/
theorem checksum_unique {hrp : Text} {d cs : List Nat} (hh : ∀ c ∈ hrp, c ≤ 126)
    (hd : ∀ v ∈ d, v < 32) (hcs : ∀ v ∈ cs, v < 32) (hl : cs.length = 6)
    (h : polymod (expandHrp hrp ++ (d ++ cs)) = 1) : cs = createChecksum hrp d := by
  have h' := checksum_ok hrp d hh hd
  have hl' := checksum_length hrp d
  have hc' := checksum_lt hrp d
  generalize createChecksum hrp d = ks at h' hl' hc'
  rw [← List.append_assoc] at h h'
  unfold polymod at h h'
  rw [List.foldl_append] at h h'
  have := foldl_xor cs ks ((expandHrp hrp ++ d).foldl polymodStep 1)
    ((expandHrp hrp ++ d).foldl polymodStep 1) (hl.trans hl'.symm)
  rw [h, h', Nat.xor_self, Nat.xor_self] at this
  match cs, ks, hl, hl' with
  | [a1, a2, a3, a4, a5, a6], [b1, b2, b3, b4, b5, b6], _, _ =>
    simp only [List.zipWith_cons_cons, List.zipWith_nil_left] at this
    simp only [List.mem_cons, List.not_mem_nil, or_false, forall_eq_or_imp, forall_eq] at hcs hc'
    have l : ∀ {x y : Nat}, x < 32 → y < 32 → x ^^^ y < 32 :=
      fun hx hy => Nat.xor_lt_two_pow (n := 5) hx hy
    obtain ⟨p1, p2, p3, p4, p5, p6⟩ := hcs
    obtain ⟨q1, q2, q3, q4, q5, q6⟩ := hc'
    have z := six_zero _ _ _ _ _ _ (l p1 q1) (l p2 q2) (l p3 q3) (l p4 q4) (l p5 q5) (l p6 q6) this.symm
    obtain ⟨z1, z2, z3, z4, z5, z6⟩ := z
    rw [xor_eq_zero z1, xor_eq_zero z2, xor_eq_zero z3, xor_eq_zero z4, xor_eq_zero z5, xor_eq_zero z6]

/-- What is accepted is, up to the case, what `Encode` writes. -/
theorem decode_encode {s hrp : Text} {d : List Nat} (h : decode s = some (hrp, d)) :
    encode hrp d = some (s.map lowerCase) := by
  have hd := decode_data h
  obtain ⟨hw, hl90, pre, post, vs, rfl, hpre, h6, hv, rfl, hc, hdd⟩ := (decode_iff _ _ _).mp h
  have lv : vs.length = post.length := by
    have := congrArg List.length hv
    simpa using this.symm
  have hsplit : vs = d ++ vs.drop (vs.length - 6) := by rw [hdd, List.take_append_drop]
  have hw1 : ∀ c ∈ pre ++ 49 :: post, c ≤ 126 := by
    unfold wellFormed at hw
    rw [Bool.and_eq_true, List.all_eq_true] at hw
    intro c hc
    have := hw.1 c hc
    simp at this
    omega
  have hhrp : ∀ c ∈ pre.map lowerCase, c ≤ 126 := by
    intro c hc
    obtain ⟨x, hx, rfl⟩ := List.mem_map.mp hc
    have := hw1 x (List.mem_append_left _ hx)
    unfold lowerCase
    split <;> omega
  have hcs : vs.drop (vs.length - 6) = createChecksum (pre.map lowerCase) d := by
    refine checksum_unique hhrp hd ?_ ?_ ?_
    · intro v hm
      exact values_lt hv v (List.mem_of_mem_drop hm)
    · rw [List.length_drop]; omega
    · rw [← hsplit]; exact hc
  have e : (d ++ createChecksum (pre.map lowerCase) d).map (charset[·]?) =
      (post.map lowerCase).map some := by
    rw [← hcs, ← hsplit]
    clear hc hdd hsplit hcs lv h6 hd h hw hl90 hw1 hhrp
    induction post generalizing vs with
    | nil => cases vs with
      | nil => rfl
      | cons => simp at hv
    | cons c post ih =>
      cases vs with
      | nil => simp at hv
      | cons v vs =>
        simp only [List.map_cons, List.cons.injEq] at hv ⊢
        exact ⟨symbol_inv hv.1, ih vs hv.2⟩
  rw [encode_eq e, List.map_append, List.map_cons]
  simp [lowerCase]

/-! ## C38 -/

/-- C38: encoding data under a prefix and decoding returns both. -/
theorem C38_round_trip (hrp : Text) (values : List Nat) (hp : Prefix hrp)
    (hv : ∀ v ∈ values, v < 32) (hl : hrp.length + values.length + 7 ≤ 90) :
    ∃ s, encode hrp values = some s ∧ decode s = some (hrp, values) := by
  have hall : ∀ v ∈ values ++ createChecksum hrp values, v < 32 := by
    intro v h
    rcases List.mem_append.mp h with h | h
    · exact hv v h
    · exact checksum_lt hrp values v h
  obtain ⟨cs, h1, h2, h3, h4⟩ := chars_exist _ hall
  refine ⟨_, encode_eq h1, (decode_iff _ _ _).mpr ⟨?_, ?_, hrp, cs, _, ?_, hp.1, ?_, h2, ?_, ?_, ?_⟩⟩
  · refine wellFormed_of _ fun c hc => ?_
    simp only [List.mem_append, List.mem_singleton] at hc
    rcases hc with (hc | hc) | hc
    · exact hp.2 c hc
    · subst hc; decide
    · exact h4 c hc
  · simp only [List.length_append, List.length_singleton, h3, checksum_length]
    omega
  · simp
  · rw [h3, List.length_append, checksum_length]; omega
  · exact (lower_map fun c hc => (hp.2 c hc).2.2).symm
  · exact checksum_ok hrp values (fun c hc => (hp.2 c hc).2.1) hv
  · rw [List.length_append, checksum_length]
    simp

/-- C38: the address printed for a key decodes to this key. -/
theorem C38_address_round_trip (k : List Nat) (hk : Key k) :
    ∃ s, newAddress k = some s ∧ addressDecode s = .key k := by
  have hb : ∀ v ∈ 0 :: k, v < 2 ^ 8 := by
    intro v hv
    rcases List.mem_cons.mp hv with hv | hv
    · subst hv; decide
    · exact hk.2 v hv
  have hlen : (0 :: k).length = 33 := by rw [List.length_cons, hk.1]
  have c := convert_pad 8 5 (0 :: k) (by decide) hb (by rw [hlen]; decide)
  rw [hlen] at c
  obtain ⟨c1, c2, c3⟩ := c
  simp only [Nat.reduceMul, Nat.reduceDiv, Nat.reduceMod, Nat.reduceAdd, Nat.reduceSub] at c2 c3
  obtain ⟨s, e1, e2⟩ := C38_round_trip usd _ ⟨by decide, by decide⟩ c1 (by rw [c2]; decide)
  refine ⟨s, e1, ?_⟩
  unfold addressDecode
  rw [e2]
  simp only [ne_eq, not_true_eq_false, if_false]
  have n := convert_no_pad 5 8 (convertBits 8 5 true (0 :: k)).1 (by decide) c1
  rw [c2] at n
  obtain ⟨n1, n2, n3⟩ := n
  simp only [Nat.reduceMul, Nat.reduceDiv, Nat.reduceMod] at n2 n3
  have : (convertBits 5 8 false (convertBits 8 5 true (0 :: k)).1).1 = 0 :: k := by
    refine val_inj 8 _ _ (n2.trans hlen.symm) n1 hb ?_
    rw [n3, c3]
    omega
  rw [this]
  simp [hk.1]

/-- C38: whatever is accepted was, up to the case of the letters, written by
`Encode`; so prefix and data determine the text. -/
theorem C38_decode_encode (s hrp : Text) (d : List Nat) (h : decode s = some (hrp, d)) :
    encode hrp d = some (s.map lowerCase) := decode_encode h

/-- C38: two texts without capital letters never decode to the same prefix and data. -/
theorem C38_decode_injective (s t : Text) (hs : NoCapitals s) (ht : NoCapitals t)
    (p : Text × List Nat) (h : decode s = some p) (h' : decode t = some p) : s = t := by
  have a := decode_encode (hrp := p.1) (d := p.2) h
  rw [decode_encode (hrp := p.1) (d := p.2) h', lower_map hs, lower_map ht] at a
  exact (Option.some.inj a).symm

/-- C38: an accepted address with one character replaced by any other is refused. -/
theorem C38_mistyped (s : Text) (h : addressDecode s ≠ .invalid) (i c : Nat) (hi : i < s.length)
    (hc : s[i] ≠ c) : addressDecode (s.set i c) = .invalid := by
  refine Decidable.byContradiction fun hn => ?_
  obtain ⟨d, hd⟩ := addressDecode_prefix h
  obtain ⟨d', hd'⟩ := addressDecode_prefix hn
  have lset : s.length = (s.set i c).length := by simp
  have ht : typos s (s.set i c) ≤ 1 := by
    clear h hn hd hd' lset hc
    induction s generalizing i with
    | nil => simp at hi
    | cons x s ih =>
      cases i with
      | zero =>
        have : typos s s = 0 := typos_zero _ _ rfl
        unfold typos at this ⊢
        rw [List.set_cons_zero, List.zip_cons_cons, List.countP_cons, this]
        split <;> omega
      | succ i =>
        have := ih i (by simpa using hi)
        unfold typos at this ⊢
        rw [List.set_cons_succ, List.zip_cons_cons, List.countP_cons]
        simpa using this
  by_cases h0 : typos s (s.set i c) = 0
  · -- only the case of a letter was changed
    have el : lowerCase s[i] = lowerCase c := by
      clear h hn hd hd' lset hc ht
      induction s generalizing i with
      | nil => simp at hi
      | cons x s ih =>
        unfold typos at h0
        cases i with
        | zero =>
          rw [List.set_cons_zero, List.zip_cons_cons, List.countP_cons] at h0
          have := Nat.eq_zero_of_add_eq_zero_left h0
          simpa using this
        | succ i =>
          rw [List.set_cons_succ, List.zip_cons_cons, List.countP_cons] at h0
          simp only [List.getElem_cons_succ]
          exact ih i (by simpa using hi) (by unfold typos; omega)
    -- another letter of the prefix
    obtain ⟨w, _, pre, post, vs, hs, _, _, _, hu, _, _⟩ := (decode_iff _ _ _).mp hd
    obtain ⟨w', _, _⟩ := (decode_iff _ _ _).mp hd'
    have lp : pre.length = 3 := by
      have := congrArg List.length hu
      simpa [usd] using this.symm
    obtain ⟨j, hj3, hji⟩ : ∃ j, j < 3 ∧ j ≠ i := by
      by_cases e : i = 0
      · exact ⟨1, by decide, by omega⟩
      · exact ⟨0, by decide, by omega⟩
    have hjs : j < s.length := by rw [hs, List.length_append]; omega
    have ej : lowerCase s[j] = usd[j]'hj3 := by
      have a : s[j] = pre[j] := by
        simp only [hs]
        rw [List.getElem_append_left]
      rw [a]
      simp only [hu, List.getElem_map]
    have lj : 97 ≤ usd[j]'hj3 ∧ usd[j]'hj3 ≤ 122 := by
      have : ∀ j : Fin 3, 97 ≤ usd[j.val]'j.isLt ∧ usd[j.val]'j.isLt ≤ 122 := by decide
      exact this ⟨j, hj3⟩
    have mi : s[i] ∈ s := List.getElem_mem _
    have mj : s[j] ∈ s := List.getElem_mem _
    have mc : c ∈ s.set i c := by
      have : (s.set i c)[i]'(by rw [← lset]; exact hi) ∈ s.set i c := List.getElem_mem _
      simpa using this
    have mj' : s[j] ∈ s.set i c := by
      have : (s.set i c)[j]'(by rw [← lset]; exact hjs) ∈ s.set i c := List.getElem_mem _
      rwa [List.getElem_set_ne (by omega)] at this
    have cases' : ∀ {t : Text} {x y : Nat}, wellFormed t = true → x ∈ t → y ∈ t →
        (97 ≤ x ∧ x ≤ 122) → (65 ≤ y ∧ y ≤ 90) → False := by
      intro t x y hw hx hy h1 h2
      unfold wellFormed at hw
      rw [Bool.and_eq_true] at hw
      have a : t.any (fun c => decide (97 ≤ c ∧ c ≤ 122)) = true :=
        List.any_eq_true.mpr ⟨x, hx, by simpa using h1⟩
      have b : t.any (fun c => decide (65 ≤ c ∧ c ≤ 90)) = true :=
        List.any_eq_true.mpr ⟨y, hy, by simpa using h2⟩
      rw [a, b] at hw
      exact absurd hw.2 (by decide)
    rw [← ej] at lj
    generalize s[j] = x at lj mj mj'
    generalize s[i] = y at hc el mi
    unfold lowerCase at el lj
    split at lj
    · -- capital prefix
      rename_i hx
      split at el
      · rename_i hy
        split at el
        · omega
        · exact cases' w' mc mj' (by omega) hx
      · rename_i hy
        split at el
        · exact cases' w mi mj (by omega) hx
        · exact hc el
    · rename_i hx
      split at el
      · rename_i hy
        exact cases' w mj mi lj hy
      · split at el
        · rename_i hcc
          exact cases' w' mj' mc lj hcc
        · exact hc el
  · have := distance hd hd' lset h0
    omega

/-- C38: exactly the addresses with fewer than two symbols of data make
`address::decode` read the first byte of an empty vector. -/
theorem C38_undefined (s : Text) :
    addressDecode s = .undefined ↔ ∃ d, decode s = some (usd, d) ∧ d.length < 2 := by
  constructor
  · intro h
    obtain ⟨d, hd⟩ := addressDecode_prefix (by rw [h]; decide)
    refine ⟨d, hd, ?_⟩
    unfold addressDecode at h
    rw [hd] at h
    simp only [ne_eq, not_true_eq_false, if_false] at h
    have n := (convert_no_pad 5 8 d (by decide) (decode_data hd)).2.1
    split at h
    · rename_i he
      rw [he, List.length_nil] at n
      omega
    · split at h <;> cases h
  · rintro ⟨d, hd, hl⟩
    unfold addressDecode
    rw [hd]
    simp only [ne_eq, not_true_eq_false, if_false]
    have n := (convert_no_pad 5 8 d (by decide) (decode_data hd)).2.1
    have : (convertBits 5 8 false d).1 = [] := by
      apply List.eq_nil_of_length_eq_zero
      omega
    rw [this]

/-- C38, violated: the address "usd1" followed by the right checksum has no data, and
decoding it is undefined. -/
theorem C38_empty_violated : ∃ s, addressDecode s = .undefined := by
  obtain ⟨s, _, h⟩ := C38_round_trip usd [] ⟨by decide, by decide⟩ (by simp) (by decide)
  exact ⟨s, (C38_undefined s).mpr ⟨[], h, by decide⟩⟩

/-- C38, violated: keys have several addresses, because the result of `ConvertBits`
is ignored: these two, without capital letters, are of the same key. -/
theorem C38_two_addresses_violated :
    ∃ s t k, NoCapitals s ∧ NoCapitals t ∧ s ≠ t ∧ addressDecode s = .key k ∧
      addressDecode t = .key k := by
  refine ⟨"usd1qqqqzqsrqszsvpcgpy9qkrqdpc83qygjzv2p29shrqv35xcur50p7ga3u6a".toList.map Char.toNat,
    (encode usd (((convertBits 8 5 true (0 :: List.range 32)).1) ++ [3])).getD [], List.range 32,
    ?_, ?_, ?_, ?_, ?_⟩
  · unfold NoCapitals; decide +kernel
  · unfold NoCapitals; decide +kernel
  · decide +kernel
  · decide +kernel
  · decide +kernel

/-- C38, what holds of accepted addresses: they have the checksum of their data, which
has 53 or 54 symbols, whose first 264 bits are the byte 0 and the key. -/
theorem C38_accepted_partial (s : Text) (k : List Nat) (h : addressDecode s = .key k) :
    Key k ∧ ∃ d, encode usd d = some (s.map lowerCase) ∧ (∀ v ∈ d, v < 32) ∧
      (d.length = 53 ∨ d.length = 54) ∧ val 8 (0 :: k) = val 5 d / 2 ^ (5 * d.length - 264) := by
  obtain ⟨d, hd, hc, hk⟩ := addressDecode_key h
  have n := convert_no_pad 5 8 d (by decide) (decode_data hd)
  rw [hc] at n
  obtain ⟨n1, n2, n3⟩ := n
  rw [List.length_cons, hk] at n2
  refine ⟨⟨hk, fun b hb => n1 b (List.mem_cons_of_mem _ hb)⟩, d, decode_encode hd, decode_data hd,
    by omega, ?_⟩
  rw [n3, show 5 * d.length % 8 = 5 * d.length - 264 by omega]

/-- C38, what holds of the uniqueness: among the texts without capital letters of 63
characters whose last bit of data is 0 (those the `newaddress` command prints), only
one is accepted for a key.  Missing: the others are accepted too. -/
theorem C38_unique_partial (s : Text) (k : List Nat) (hs : NoCapitals s) (h : addressDecode s = .key k)
    (d : List Nat) (hd : decode s = some (usd, d)) (hl : s.length = 63) (h0 : val 5 d % 2 = 0) :
    newAddress k = some s := by
  obtain ⟨d', hd', hc, hk⟩ := addressDecode_key h
  rw [hd] at hd'
  have e : d = d' := by simpa using hd'
  subst e
  have n := convert_no_pad 5 8 d (by decide) (decode_data hd)
  rw [hc] at n
  obtain ⟨n1, n2, n3⟩ := n
  have en := decode_encode hd
  have dl : d.length = 53 := by
    obtain ⟨_, _, pre, post, vs, rfl, _, _, hv, hu, _, hdd⟩ := (decode_iff _ _ _).mp hd
    have lv : vs.length = post.length := by
      have := congrArg List.length hv
      simpa using this.symm
    have lp : pre.length = 3 := by
      have := congrArg List.length hu
      simpa [usd] using this.symm
    rw [hdd, List.length_take]
    simp only [List.length_append, List.length_cons] at hl
    omega
  have hlen : (0 :: k).length = 33 := by rw [List.length_cons, hk]
  have c := convert_pad 8 5 (0 :: k) (by decide) n1 (by rw [hlen]; decide)
  rw [hlen] at c
  obtain ⟨c1, c2, c3⟩ := c
  simp only [Nat.reduceMul, Nat.reduceDiv, Nat.reduceMod, Nat.reduceAdd, Nat.reduceSub] at c2 c3
  have : (convertBits 8 5 true (0 :: k)).1 = d := by
    refine val_inj 5 _ _ (by omega) c1 (decode_data hd) ?_
    rw [c3, n3, dl]
    simp only [Nat.reduceMul, Nat.reduceMod, Nat.pow_one]
    omega
  unfold newAddress
  rw [this, en, lower_map hs]

/-! ## C76 -/

/-- C76: texts accepted under the same prefix, of the same length, which are not the
same up to the case of the letters, differ in at least five characters. -/
theorem C76_distance (s t hrp : Text) (d d' : List Nat) (hs : decode s = some (hrp, d))
    (ht : decode t = some (hrp, d')) (hl : s.length = t.length) : typos s t = 0 ∨ 5 ≤ typos s t := by
  by_cases h : typos s t = 0
  · exact .inl h
  · exact .inr (distance hs ht hl h)

/-- C76: an accepted address with one to four characters replaced by others is refused. -/
theorem C76_mistyped (s t : Text) (h : addressDecode s ≠ .invalid) (hl : s.length = t.length)
    (h1 : 1 ≤ typos s t) (h4 : typos s t ≤ 4) : addressDecode t = .invalid := by
  refine Decidable.byContradiction fun hn => ?_
  obtain ⟨d, hd⟩ := addressDecode_prefix h
  obtain ⟨d', hd'⟩ := addressDecode_prefix hn
  have := distance hd hd' hl (by omega)
  omega

/-! ## Examples -/

/-- The address of a key. -/
def sample : Text :=
  "usd1qqqqzqsrqszsvpcgpy9qkrqdpc83qygjzv2p29shrqv35xcur50p7ga3u6a".toList.map Char.toNat

example : Key (List.range 32) := ⟨rfl, by decide⟩
example : newAddress (List.range 32) = some sample := by decide +kernel
example : addressDecode sample = .key (List.range 32) := by decide +kernel
example : decode sample = some (usd, (convertBits 8 5 true (0 :: List.range 32)).1) := by decide +kernel
example : val 5 (convertBits 8 5 true (0 :: List.range 32)).1 % 2 = 0 := by decide +kernel
example : NoCapitals sample := by unfold NoCapitals; decide +kernel
example : Prefix [98, 99] := ⟨by decide, by decide⟩
/-- Four mistyped characters. -/
example : typos sample ((((sample.set 5 112).set 0 97).set 20 113).set 3 50) = 4 := by decide +kernel

end Verif.Bech32
