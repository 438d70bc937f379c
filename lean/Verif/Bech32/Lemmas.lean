import Verif.Bech32.Algebra
/-! # Lemmas about the text and bit conversions -/
namespace Verif.Bech32

/-! ## Text -/

theorem mapM_eq_some {α β : Type} (f : α → Option β) (l : List α) (r : List β) :
    l.mapM f = some r ↔ l.map f = r.map some := by
  induction l generalizing r with
  | nil => cases r <;> simp
  | cons a l ih =>
    rw [List.mapM_cons]
    cases hf : f a with
    | none =>
      constructor
      · intro h; simp at h
      · intro h; cases r <;> simp [hf] at h
    | some b =>
      cases r with
      | nil =>
        constructor
        · intro h
          cases hm : l.mapM f <;> simp [hm] at h
        · intro h; simp at h
      | cons b' r =>
        have := ih r
        constructor
        · intro h
          cases hm : l.mapM f with
          | none => simp [hm] at h
          | some r' =>
            simp [hm] at h
            obtain ⟨rfl, rfl⟩ := h
            simp [hf, (ih r').mp hm]
        · intro h
          simp [hf] at h
          obtain ⟨rfl, h⟩ := h
          simp [(ih r).mpr h]

/-- The symbol of a character. -/
def symbol (c : Nat) : Option Nat := (charsetRev[c]?).join

theorem charset_lower : ∀ v : Fin 32, ∃ c : Nat, charset[v.val]? = some c ∧ symbol c = some v.val ∧
    33 ≤ c ∧ c ≤ 126 ∧ ¬ (65 ≤ c ∧ c ≤ 90) ∧ c ≠ 49 := by decide

theorem symbol_lt {c v : Nat} (h : symbol c = some v) : v < 32 := by
  have hc : c < 128 := by
    refine Decidable.byContradiction fun hn => ?_
    unfold symbol at h
    rw [List.getElem?_eq_none (by simp only [charsetRev, List.length_cons, List.length_nil]; omega)] at h
    simp at h
  have : ∀ c : Fin 128, ∀ v, symbol c.val = some v → v < 32 := by
    have t : ∀ c : Fin 128, (symbol c.val).all (· < 32) = true := by decide
    intro c v h
    have := t c
    rw [h] at this
    simpa using this
  exact this ⟨c, hc⟩ v h

theorem symbol_inv {c v : Nat} (h : symbol c = some v) : charset[v]? = some (lowerCase c) := by
  have hc : c < 128 := by
    refine Decidable.byContradiction fun hn => ?_
    unfold symbol at h
    rw [List.getElem?_eq_none (by simp only [charsetRev, List.length_cons, List.length_nil]; omega)] at h
    simp at h
  have t : ∀ c : Fin 128, ((symbol c.val).all fun v => charset[v]? == some (lowerCase c.val)) = true := by
    decide
  have := t ⟨c, hc⟩
  simp only [h, Option.all_some, beq_iff_eq] at this
  exact this

theorem symbol_ne_49 {c v : Nat} (h : symbol c = some v) : c ≠ 49 := by
  rintro rfl
  have : symbol 49 = none := by decide
  rw [this] at h
  cases h

theorem symbol_eq {c d v : Nat} (h : symbol c = some v) (h' : symbol d = some v) :
    lowerCase c = lowerCase d := by
  have a := symbol_inv h
  rw [symbol_inv h'] at a
  exact (Option.some.inj a).symm

theorem splitLast1_some {s a b : Text} (h : splitLast1 s = some (a, b)) :
    s = a ++ 49 :: b ∧ 49 ∉ b := by
  induction s generalizing a b with
  | nil => simp [splitLast1] at h
  | cons c s ih =>
    unfold splitLast1 at h
    cases hs : splitLast1 s with
    | some p =>
      obtain ⟨a', b'⟩ := p
      rw [hs] at h
      simp at h
      obtain ⟨rfl, rfl⟩ := h
      have := ih hs
      exact ⟨by rw [this.1]; rfl, this.2⟩
    | none =>
      rw [hs] at h
      simp only at h
      split at h
      · rename_i hc
        simp at h
        obtain ⟨rfl, rfl⟩ := h
        subst hc
        refine ⟨rfl, ?_⟩
        clear ih
        intro hm
        have : ∀ t : Text, 49 ∈ t → splitLast1 t ≠ none := by
          intro t
          induction t with
          | nil => intro h; cases h
          | cons x t iht =>
            intro h
            unfold splitLast1
            cases ht : splitLast1 t with
            | some p => simp
            | none =>
              simp only
              rcases List.mem_cons.mp h with h | h
              · simp [← h]
              · exact absurd ht (iht h)
        exact this s hm hs
      · simp at h

theorem splitLast1_append (a b : Text) (h : 49 ∉ b) : splitLast1 (a ++ 49 :: b) = some (a, b) := by
  have hb : splitLast1 b = none := by
    cases hs : splitLast1 b with
    | none => rfl
    | some p =>
      obtain ⟨x, y⟩ := p
      refine absurd ?_ h
      rw [(splitLast1_some hs).1]
      simp
  induction a with
  | nil => simp [splitLast1, hb]
  | cons c a ih => simp [splitLast1, ih]

/-- What `decode` accepts. -/
theorem decode_iff (s hrp : Text) (d : List Nat) :
    decode s = some (hrp, d) ↔
      wellFormed s = true ∧ s.length ≤ 90 ∧
        ∃ pre post values, s = pre ++ 49 :: post ∧ pre ≠ [] ∧ 6 ≤ post.length ∧
          post.map symbol = values.map some ∧ hrp = pre.map lowerCase ∧
          polymod (expandHrp hrp ++ values) = 1 ∧ d = values.take (values.length - 6) := by
  constructor
  · intro h
    unfold decode at h
    split at h
    · rename_i hw
      split at h
      · simp at h
      · rename_i pre post hs
        split at h
        · simp at h
        · rename_i hg
          split at h
          · simp at h
          · rename_i values hv
            simp only at h
            split at h
            · rename_i hc
              simp at h
              have := splitLast1_some hs
              have hv' := (mapM_eq_some _ _ _).mp hv
              refine ⟨hw, by omega, pre, post, values, this.1, fun e => hg (.inr (.inl e)), by omega,
                hv', h.1.symm, ?_, h.2.symm⟩
              rw [← h.1]
              simpa [verifyChecksum] using hc
            · simp at h
    · simp at h
  · rintro ⟨hw, hl, pre, post, values, rfl, hp, h6, hv, rfl, hc, rfl⟩
    unfold decode
    have h49 : 49 ∉ post := by
      intro hm
      have : symbol 49 ∈ post.map symbol := List.mem_map_of_mem hm
      rw [hv] at this
      have e : symbol 49 = none := by decide
      rw [e] at this
      simp at this
    have hm : post.mapM (fun c => (charsetRev[c]?).join) = some values :=
      (mapM_eq_some _ _ _).mpr hv
    rw [if_pos hw, splitLast1_append _ _ h49]
    simp only
    rw [if_neg (by
      rintro (h | h | h)
      · omega
      · exact hp h
      · omega)]
    rw [hm]
    simp only [verifyChecksum, hc, beq_self_eq_true, if_true]

/-! ## Numbers and digits -/

/-- The number whose digits in base 2^w are `vs`. -/
def val (w : Nat) : List Nat → Nat
  | [] => 0
  | v :: vs => v * 2 ^ (w * vs.length) + val w vs

theorem val_lt (w : Nat) (vs : List Nat) (h : ∀ v ∈ vs, v < 2 ^ w) : val w vs < 2 ^ (w * vs.length) := by
  induction vs with
  | nil => simp [val]
  | cons v vs ih =>
    have a := ih (fun x hx => h x (List.mem_cons_of_mem _ hx))
    have b := h v (List.mem_cons_self ..)
    rw [val, List.length_cons, Nat.mul_succ, Nat.pow_add]
    have : (v + 1) * 2 ^ (w * vs.length) ≤ 2 ^ w * 2 ^ (w * vs.length) := Nat.mul_le_mul_right _ b
    rw [Nat.add_mul, Nat.one_mul] at this
    rw [Nat.mul_comm (2 ^ (w * vs.length))]
    omega

theorem val_append (w : Nat) (xs ys : List Nat) :
    val w (xs ++ ys) = val w xs * 2 ^ (w * ys.length) + val w ys := by
  induction xs with
  | nil => simp [val]
  | cons x xs ih =>
    rw [List.cons_append, val, ih, val, List.length_append, Nat.mul_add, Nat.pow_add, Nat.add_mul,
      Nat.mul_assoc, Nat.add_assoc]

theorem val_inj (w : Nat) (xs ys : List Nat) (hl : xs.length = ys.length)
    (hx : ∀ v ∈ xs, v < 2 ^ w) (hy : ∀ v ∈ ys, v < 2 ^ w) (h : val w xs = val w ys) : xs = ys := by
  induction xs generalizing ys with
  | nil => cases ys with
    | nil => rfl
    | cons => simp at hl
  | cons x xs ih =>
    cases ys with
    | nil => simp at hl
    | cons y ys =>
      have hl' : xs.length = ys.length := by simpa using hl
      have a := val_lt w xs (fun v hv => hx v (List.mem_cons_of_mem _ hv))
      have b := val_lt w ys (fun v hv => hy v (List.mem_cons_of_mem _ hv))
      rw [val, val, ← hl'] at h
      rw [← hl'] at b
      have e : x = y := by
        have := congrArg (· / 2 ^ (w * xs.length)) h
        rw [Nat.mul_comm x, Nat.mul_comm y, Nat.mul_add_div (Nat.pow_pos (by decide)),
          Nat.mul_add_div (Nat.pow_pos (by decide)), Nat.div_eq_of_lt a, Nat.div_eq_of_lt b] at this
        simpa using this
      subst e
      have : val w xs = val w ys := by omega
      rw [ih ys hl' (fun v hv => hx v (List.mem_cons_of_mem _ hv))
        (fun v hv => hy v (List.mem_cons_of_mem _ hv)) this]

theorem mask (x n : Nat) : x &&& (2 ^ n - 1) = x % 2 ^ n := Nat.and_two_pow_sub_one_eq_mod x n

theorem emit_spec (to acc fuel bits : Nat) (ht : 0 < to) (hf : bits ≤ fuel) :
    (∀ v ∈ (emit to acc fuel bits).1, v < 2 ^ to) ∧ (emit to acc fuel bits).2 < to ∧
      bits = to * (emit to acc fuel bits).1.length + (emit to acc fuel bits).2 ∧
      acc % 2 ^ bits = val to (emit to acc fuel bits).1 * 2 ^ (emit to acc fuel bits).2 +
        acc % 2 ^ (emit to acc fuel bits).2 := by
  induction fuel generalizing bits with
  | zero =>
    have : bits = 0 := by omega
    subst this
    simp [emit, val, ht]
  | succ fuel ih =>
    unfold emit
    by_cases hb : to ≤ bits
    · rw [if_pos hb]
      have := ih (bits - to) (by omega)
      simp only
      generalize hr : emit to acc fuel (bits - to) = r at this
      obtain ⟨h1, h2, h3, h4⟩ := this
      refine ⟨?_, h2, ?_, ?_⟩
      · intro v hv
        rcases List.mem_cons.mp hv with hv | hv
        · rw [hv, mask]
          exact Nat.mod_lt _ (Nat.pow_pos (by decide))
        · exact h1 v hv
      · rw [List.length_cons, Nat.mul_succ]; omega
      · rw [val, mask, Nat.shiftRight_eq_div_pow]
        have e : bits = (bits - to) + to := by omega
        rw [e, Nat.pow_add, Nat.mod_mul, ← e, h4, Nat.add_mul, Nat.mul_assoc, ← Nat.pow_add, ← h3,
          Nat.mul_comm (2 ^ (bits - to))]
        omega
    · rw [if_neg hb]
      simp [val]
      omega

theorem convertLoop_spec (frm to : Nat) (vs : List Nat) (acc bits : Nat) (ht : 0 < to)
    (hb : bits < to) (hv : ∀ v ∈ vs, v < 2 ^ frm) :
    (∀ v ∈ (convertLoop frm to vs acc bits).1, v < 2 ^ to) ∧
      (convertLoop frm to vs acc bits).2.2 < to ∧
      bits + frm * vs.length = to * (convertLoop frm to vs acc bits).1.length +
        (convertLoop frm to vs acc bits).2.2 ∧
      (acc % 2 ^ bits) * 2 ^ (frm * vs.length) + val frm vs =
        val to (convertLoop frm to vs acc bits).1 * 2 ^ (convertLoop frm to vs acc bits).2.2 +
          (convertLoop frm to vs acc bits).2.1 % 2 ^ (convertLoop frm to vs acc bits).2.2 := by
  induction vs generalizing acc bits with
  | nil => simp [convertLoop, val, hb]
  | cons v vs ih =>
    have hv0 := hv v (List.mem_cons_self ..)
    unfold convertLoop
    simp only
    generalize ha : ((acc <<< frm) ||| v) &&& (2 ^ (frm + to - 1) - 1) = acc'
    have e1 : acc' % 2 ^ (bits + frm) = (acc % 2 ^ bits) * 2 ^ frm + v := by
      rw [← ha, mask, ← Nat.shiftLeft_add_eq_or_of_lt hv0, Nat.shiftLeft_eq,
        Nat.mod_mod_of_dvd _ (Nat.pow_dvd_pow 2 (by omega)), Nat.add_comm bits frm, Nat.pow_add,
        Nat.mod_mul, Nat.mul_comm acc, Nat.mul_add_mod, Nat.mod_eq_of_lt hv0,
        Nat.mul_add_div (Nat.pow_pos (by decide)), Nat.div_eq_of_lt hv0, Nat.add_zero,
        Nat.mul_comm (2 ^ frm)]
      omega
    have he := emit_spec to acc' (bits + frm) (bits + frm) ht (Nat.le_refl _)
    generalize hr : emit to acc' (bits + frm) (bits + frm) = e at he
    obtain ⟨x1, x2, x3, x4⟩ := he
    have hi := ih acc' e.2 x2 (fun x hx => hv x (List.mem_cons_of_mem _ hx))
    generalize convertLoop frm to vs acc' e.2 = r at hi
    obtain ⟨y1, y2, y3, y4⟩ := hi
    refine ⟨?_, y2, ?_, ?_⟩
    · intro x hx
      rcases List.mem_append.mp hx with hx | hx
      · exact x1 x hx
      · exact y1 x hx
    · rw [List.length_append, List.length_cons, Nat.mul_succ, Nat.mul_add to]
      omega
    · rw [val_append, List.length_cons, Nat.mul_succ, val]
      rw [e1] at x4
      have c1 : (acc % 2 ^ bits) * 2 ^ (frm * vs.length + frm) + (v * 2 ^ (frm * vs.length) + val frm vs)
          = ((acc % 2 ^ bits) * 2 ^ frm + v) * 2 ^ (frm * vs.length) + val frm vs := by
        rw [Nat.add_mul, Nat.mul_assoc, ← Nat.pow_add, Nat.add_comm frm, Nat.add_assoc]
      rw [c1, x4, Nat.add_mul, Nat.add_assoc, y4, Nat.mul_assoc, ← Nat.pow_add, y3, Nat.pow_add,
        Nat.add_mul, Nat.mul_assoc]
      omega

/-- `ConvertBits` without padding. -/
theorem convert_no_pad (frm to : Nat) (vs : List Nat) (ht : 0 < to) (hv : ∀ v ∈ vs, v < 2 ^ frm) :
    (∀ v ∈ (convertBits frm to false vs).1, v < 2 ^ to) ∧
      (convertBits frm to false vs).1.length = frm * vs.length / to ∧
      val to (convertBits frm to false vs).1 = val frm vs / 2 ^ (frm * vs.length % to) := by
  have h := convertLoop_spec frm to vs 0 0 ht ht hv
  unfold convertBits
  simp only [Bool.false_eq_true, if_false]
  generalize convertLoop frm to vs 0 0 = r at h
  obtain ⟨h1, h2, h3, h4⟩ := h
  simp only [Nat.zero_mod, Nat.zero_mul, Nat.zero_add] at h3 h4
  have e1 : frm * vs.length / to = r.1.length := by
    rw [h3, Nat.mul_add_div ht, Nat.div_eq_of_lt h2, Nat.add_zero]
  have e2 : frm * vs.length % to = r.2.2 := by
    rw [h3, Nat.mul_add_mod, Nat.mod_eq_of_lt h2]
  refine ⟨h1, e1.symm, ?_⟩
  rw [e2, h4, Nat.mul_comm, Nat.mul_add_div (Nat.pow_pos (by decide)),
    Nat.div_eq_of_lt (Nat.mod_lt _ (Nat.pow_pos (by decide))), Nat.add_zero]

/-- `ConvertBits` with padding, when the padding is not empty. -/
theorem convert_pad (frm to : Nat) (vs : List Nat) (ht : 0 < to) (hv : ∀ v ∈ vs, v < 2 ^ frm)
    (hr : frm * vs.length % to ≠ 0) :
    (∀ v ∈ (convertBits frm to true vs).1, v < 2 ^ to) ∧
      (convertBits frm to true vs).1.length = frm * vs.length / to + 1 ∧
      val to (convertBits frm to true vs).1 = val frm vs * 2 ^ (to - frm * vs.length % to) := by
  have h := convertLoop_spec frm to vs 0 0 ht ht hv
  unfold convertBits
  simp only [if_true]
  generalize convertLoop frm to vs 0 0 = r at h
  obtain ⟨h1, h2, h3, h4⟩ := h
  simp only [Nat.zero_mod, Nat.zero_mul, Nat.zero_add] at h3 h4
  have e1 : frm * vs.length / to = r.1.length := by
    rw [h3, Nat.mul_add_div ht, Nat.div_eq_of_lt h2, Nat.add_zero]
  have e2 : frm * vs.length % to = r.2.2 := by
    rw [h3, Nat.mul_add_mod, Nat.mod_eq_of_lt h2]
  rw [e2] at hr ⊢
  rw [if_neg hr]
  refine ⟨?_, ?_, ?_⟩
  · intro v hv
    rcases List.mem_append.mp hv with hv | hv
    · exact h1 v hv
    · rw [List.mem_singleton] at hv
      rw [hv, mask]
      exact Nat.mod_lt _ (Nat.pow_pos (by decide))
  · rw [List.length_append, e1]; rfl
  · rw [val_append, h4, mask, Nat.shiftLeft_eq]
    simp only [val, List.length_cons, List.length_nil, Nat.mul_zero, Nat.pow_zero, Nat.mul_one,
      Nat.add_zero, Nat.zero_add]
    have e : to = r.2.2 + (to - r.2.2) := by omega
    have : r.2.1 * 2 ^ (to - r.2.2) % 2 ^ to = (r.2.1 % 2 ^ r.2.2) * 2 ^ (to - r.2.2) := by
      conv => lhs; rw [e, Nat.pow_add]
      rw [show r.2.2 + (to - r.2.2) - r.2.2 = to - r.2.2 by omega]
      rw [Nat.mul_mod_mul_right]
    rw [this, Nat.add_mul, Nat.mul_assoc, ← Nat.pow_add, ← e]

end Verif.Bech32
