import Verif.Bech32.Table
/-! # No word with one to four symbols has checksum 0 -/
namespace Verif.Bech32

/-! ## Reading the table -/

theorem rowsFrom_get {r : List Nat} {rs : List (List Nat)} (h : rowsFrom r rs = true) (c : Nat)
    (row : List Nat) (hc : rs[c]? = some row) : row = r.map (linPow (c + 1)) := by
  induction rs generalizing r c row with
  | nil => simp at hc
  | cons r' rs ih =>
    simp only [rowsFrom, Bool.and_eq_true, beq_iff_eq] at h
    cases c with
    | zero =>
      simp at hc
      rw [← hc, ← h.1]
      rfl
    | succ c =>
      rw [List.getElem?_cons_succ] at hc
      rw [ih h.2 c row hc, ← h.1, List.map_map]
      rfl

theorem row_get {c : Nat} (h1 : 1 ≤ c) (h87 : c ≤ 87) :
    rows[c - 1]? = some ((List.range' 1 31).map (linPow c)) := by
  have hl : c - 1 < rows.length := by rw [rows_length]; omega
  have e := rowsFrom_get rows_ok (c - 1) rows[c - 1] (List.getElem?_eq_getElem hl)
  rw [List.getElem?_eq_getElem hl, e, show c - 1 + 1 = c by omega]

theorem mem_row {c d : Nat} (hd0 : d ≠ 0) (hd : d < 32) :
    linPow c d ∈ (List.range' 1 31).map (linPow c) := by
  refine List.mem_map_of_mem ?_
  rw [List.mem_range'_1]
  omega

theorem entry {c d : Nat} (h1 : 1 ≤ c) (h87 : c ≤ 87) (hd0 : d ≠ 0) (hd : d < 32) :
    32 ≤ linPow c d ∧ listed (linPow c d >>> 5) = true := by
  have h := List.all_eq_true.mp rows_member _ (List.mem_of_getElem? (row_get h1 h87))
  have := List.all_eq_true.mp h _ (mem_row hd0 hd)
  rw [Bool.and_eq_true] at this
  exact ⟨Nat.le_of_ble_eq_true this.1, this.2⟩

theorem apart_get {rs : List (List Nat)} (h : apart rs = true) (b a y x : Nat) (r r' : List Nat)
    (hb : rs[b]? = some r) (ha : rs[a]? = some (x :: r')) (hlt : b < a) (hy : y ∈ r) :
    32 ≤ x ^^^ y ∧ listed ((x ^^^ y) >>> 5) = false := by
  induction rs generalizing b a with
  | nil => simp at hb
  | cons r0 rs ih =>
    unfold apart at h
    rw [Bool.and_eq_true] at h
    obtain ⟨a, rfl⟩ : ∃ a', a = a' + 1 := ⟨a - 1, by omega⟩
    rw [List.getElem?_cons_succ] at ha
    cases b with
    | zero =>
      simp at hb
      subst hb
      have := List.all_eq_true.mp (List.all_eq_true.mp h.1 y hy) _ (List.mem_of_getElem? ha)
      simp only [Bool.and_eq_true, Bool.not_eq_true'] at this
      exact ⟨Nat.le_of_ble_eq_true this.1, this.2⟩
    | succ b =>
      rw [List.getElem?_cons_succ] at hb
      exact ih h.2 b a hb ha (by omega)

theorem two_terms {a : Nat} (h1 : 1 ≤ a) (ha : a ≤ 87) : 32 ≤ linPow a 1 :=
  (entry h1 ha (by decide) (by decide)).1

theorem pair {a b d : Nat} (h1 : 1 ≤ b) (hab : b < a) (ha : a ≤ 87) (hd0 : d ≠ 0) (hd : d < 32) :
    32 ≤ linPow a 1 ^^^ linPow b d ∧ listed ((linPow a 1 ^^^ linPow b d) >>> 5) = false := by
  refine apart_get rows_apart (b - 1) (a - 1) _ _ _ ((List.range' 2 30).map (linPow a))
    (row_get h1 (by omega)) ?_ (by omega) (mem_row hd0 hd)
  rw [row_get (by omega) ha]
  rfl

theorem three_terms {a b d : Nat} (h1 : 1 ≤ b) (hab : b < a) (ha : a ≤ 87) (hd0 : d ≠ 0)
    (hd : d < 32) : 32 ≤ linPow a 1 ^^^ linPow b d := (pair h1 hab ha hd0 hd).1

theorem shift_of_lt {x : Nat} (h : x < 32) : x >>> 5 = 0 := by
  rw [Nat.shiftRight_eq_div_pow]; omega

theorem four_terms {a b c d e : Nat} (hc1 : 1 ≤ c) (hbc : c < b) (hab : b < a) (ha : a ≤ 87)
    (hd0 : d ≠ 0) (hd : d < 32) (he0 : e ≠ 0) (he : e < 32) :
    32 ≤ (linPow a 1 ^^^ linPow b d) ^^^ linPow c e := by
  refine Decidable.byContradiction fun hn => ?_
  have h0 := shift_of_lt (Nat.lt_of_not_le hn)
  rw [Nat.shiftRight_xor_distrib] at h0
  have := xor_eq_zero h0
  have p := (pair (by omega) hab ha hd0 hd).2
  rw [this, (entry hc1 (by omega) he0 he).2] at p
  cases p

/-! ## Multiplying every symbol -/

/-- Every symbol of a 30-bit number times {2}. -/
def dbl (x : Nat) : Nat :=
  ((x &&& 0x1ef7bdef) <<< 1) ^^^ (sel 4 0x9 x ^^^ (sel 9 0x120 x ^^^ (sel 14 0x2400 x ^^^
    (sel 19 0x48000 x ^^^ (sel 24 0x900000 x ^^^ sel 29 0x12000000 x)))))

theorem dbl_xor (a b : Nat) : dbl (a ^^^ b) = dbl a ^^^ dbl b := by
  simp only [dbl, sel_xor, Nat.and_xor_distrib_right, Nat.shiftLeft_xor_distrib]
  ac_rfl

/-- Additive functions which agree on the powers of two agree. -/
theorem additive_ext (F G : Nat → Nat) (hF : ∀ a b, F (a ^^^ b) = F a ^^^ F b)
    (hG : ∀ a b, G (a ^^^ b) = G a ^^^ G b) (n : Nat) (h : ∀ i < n, F (2 ^ i) = G (2 ^ i)) (x : Nat)
    (hx : x < 2 ^ n) : F x = G x := by
  have z : ∀ H : Nat → Nat, (∀ a b, H (a ^^^ b) = H a ^^^ H b) → H 0 = 0 := by
    intro H hH
    have := hH 0 0
    rwa [Nat.xor_self, Nat.xor_self] at this
  induction n generalizing x with
  | zero =>
    have : x = 0 := by omega
    rw [this, z F hF, z G hG]
  | succ n ih =>
    by_cases hn : x < 2 ^ n
    · exact ih (fun i hi => h i (by omega)) x hn
    · have e : x = 2 ^ n ^^^ (x ^^^ 2 ^ n) := by
        rw [Nat.xor_comm x, ← Nat.xor_assoc, Nat.xor_self, Nat.zero_xor]
      have hy : x ^^^ 2 ^ n < 2 ^ n := by
        apply Nat.lt_pow_two_of_testBit
        intro i hi
        rw [Nat.testBit_xor, Nat.testBit_two_pow]
        by_cases hin : n = i
        · subst hin
          have : x.testBit n = true := by
            refine Decidable.byContradiction fun hf => hn ?_
            apply Nat.lt_pow_two_of_testBit
            intro j hj
            by_cases hjn : j = n
            · subst hjn; simpa using hf
            · exact Nat.testBit_lt_two_pow (Nat.lt_of_lt_of_le hx
                (Nat.pow_le_pow_right (by decide) (by omega)))
          simp [this]
        · have : x.testBit i = false := Nat.testBit_lt_two_pow (Nat.lt_of_lt_of_le hx
            (Nat.pow_le_pow_right (by decide) (by omega)))
          simp [this, hin]
      rw [e, hF, hG, h n (by omega), ih (fun i hi => h i (by omega)) _ hy]

theorem dbl_lin {x : Nat} (h : x < 2 ^ 30) : lin (dbl x) = dbl (lin x) := by
  refine additive_ext (fun x => lin (dbl x)) (fun x => dbl (lin x)) ?_ ?_ 30 ?_ x h
  · intro a b; simp only [dbl_xor, lin_xor]
  · intro a b; simp only [dbl_xor, lin_xor]
  · have : ∀ i : Fin 30, lin (dbl (2 ^ i.val)) = dbl (lin (2 ^ i.val)) := by decide
    intro i hi
    exact this ⟨i, hi⟩

def dblPow : Nat → Nat → Nat
  | 0, x => x
  | n + 1, x => dblPow n (dbl x)

theorem dbl_symbol : ∀ v : Fin 32, dbl v.val < 32 ∧ (dbl v.val = 0 ↔ v.val = 0) := by decide

theorem dblPow_symbol (n : Nat) {v : Nat} (h : v < 32) :
    dblPow n v < 32 ∧ (dblPow n v = 0 ↔ v = 0) := by
  induction n generalizing v with
  | zero => exact ⟨h, Iff.rfl⟩
  | succ n ih =>
    have a := dbl_symbol ⟨v, h⟩
    have b := ih a.1
    exact ⟨b.1, b.2.trans a.2⟩

theorem dblPow_one : ∀ v : Fin 32, v.val ≠ 0 → ∃ n : Fin 31, dblPow n.val v.val = 1 := by decide +kernel

theorem polymodStep_dbl {c v : Nat} (hc : c < 2 ^ 30) :
    polymodStep (dbl c) (dbl v) = dbl (polymodStep c v) := by
  rw [polymodStep_eq, polymodStep_eq, dbl_xor, dbl_lin hc]

/-- The checksum of the differences. -/
def err (e : List Nat) : Nat := e.foldl polymodStep 0

theorem err_dbl (e : List Nat) (he : ∀ v ∈ e, v < 32) : err (e.map dbl) = dbl (err e) := by
  have : ∀ c, c < 2 ^ 30 → (e.map dbl).foldl polymodStep (dbl c) = dbl (e.foldl polymodStep c) := by
    induction e with
    | nil => intro c _; rfl
    | cons v e ih =>
      intro c hc
      rw [List.map_cons, List.foldl_cons, List.foldl_cons, polymodStep_dbl hc]
      refine ih (fun x hx => he x (List.mem_cons_of_mem _ hx)) _ ?_
      rw [polymodStep_eq]
      exact Nat.xor_lt_two_pow (lin_lt c)
        (Nat.lt_of_lt_of_le (he v (List.mem_cons_self ..)) (by decide))
  exact this 0 (by decide)

theorem err_dblPow (n : Nat) (e : List Nat) (he : ∀ v ∈ e, v < 32) :
    err (e.map (dblPow n)) = dblPow n (err e) := by
  induction n generalizing e with
  | zero => rw [show dblPow 0 = id from rfl, List.map_id]; rfl
  | succ n ih =>
    have : e.map (dblPow (n + 1)) = (e.map dbl).map (dblPow n) := by rw [List.map_map]; rfl
    rw [this, ih, err_dbl e he]
    · rfl
    · intro v hv
      obtain ⟨w, hw, rfl⟩ := List.mem_map.mp hv
      exact (dbl_symbol ⟨w, he w hw⟩).1

/-! ## Words with few symbols -/

theorem err_cons (v : Nat) (e : List Nat) : err (v :: e) = linPow e.length v ^^^ err e := by
  have := foldl_xor (List.replicate e.length 0) e v 0 (by simp)
  unfold err
  rw [← foldl_zeros, this, Nat.xor_zero, List.foldl_cons, polymodStep_eq, lin_zero, Nat.zero_xor]
  congr 1
  clear this
  induction e with
  | nil => rfl
  | cons a e ih => rw [List.length_cons, List.replicate_succ, List.zipWith_cons_cons, Nat.zero_xor, ← ih]

/-- Number of symbols of a word which are not 0. -/
def weight (e : List Nat) : Nat := e.countP (· != 0)

theorem err_weight_zero (e : List Nat) (h : weight e = 0) : err e = 0 := by
  induction e with
  | nil => rfl
  | cons v e ih =>
    unfold weight at h
    rw [List.countP_cons] at h
    have hv : v = 0 := by
      refine Decidable.byContradiction fun hn => ?_
      simp [hn] at h
    subst hv
    rw [err_cons, linPow_zero, Nat.zero_xor]
    exact ih (by unfold weight; simpa using h)

/-- The first symbol which is not 0. -/
theorem err_first (e : List Nat) (he : ∀ v ∈ e, v < 32) (n : Nat) (h : weight e = n + 1) :
    ∃ d e', d ≠ 0 ∧ d < 32 ∧ (∀ v ∈ e', v < 32) ∧ weight e' = n ∧ e'.length < e.length ∧
      err e = linPow e'.length d ^^^ err e' := by
  induction e with
  | nil => simp [weight] at h
  | cons v e ih =>
    unfold weight at h
    rw [List.countP_cons] at h
    have he' : ∀ v ∈ e, v < 32 := fun x hx => he x (List.mem_cons_of_mem _ hx)
    by_cases hv : v = 0
    · subst hv
      obtain ⟨d, e', h1, h2, h3, h4, h5, h6⟩ := ih he' (by unfold weight; simpa using h)
      refine ⟨d, e', h1, h2, h3, h4, by rw [List.length_cons]; omega, ?_⟩
      rw [err_cons, linPow_zero, Nat.zero_xor, h6]
    · refine ⟨v, e, hv, he v (List.mem_cons_self ..), he', ?_, by simp, err_cons v e⟩
      unfold weight
      simpa [hv] using h

theorem symbol_small {d : Nat} (h : d < 32) : d < 2 ^ 30 := Nat.lt_of_lt_of_le h (by decide)

theorem small_xor {a b : Nat} (h : a ^^^ b = 0) (hb : b < 32) : a < 32 := by
  rw [xor_eq_zero h]; exact hb

/-- Words whose first symbol is 1. -/
theorem err_ne_zero_one (a : Nat) (e : List Nat) (he : ∀ v ∈ e, v < 32) (ha : a ≤ 87)
    (hl : e.length = a) (hw : weight e ≤ 3) : linPow a 1 ^^^ err e ≠ 0 := by
  intro h
  have fac : ∀ {k x y : Nat}, x < 2 ^ 30 → y < 2 ^ 30 → linPow k x ^^^ linPow k y = 0 → x ^^^ y = 0 := by
    intro k x y hx hy hk
    rw [← linPow_xor] at hk
    exact linPow_eq_zero (Nat.xor_lt_two_pow hx hy) hk
  have one : (1 : Nat) < 2 ^ 30 := by decide
  rcases hn : weight e with _ | n
  · rw [err_weight_zero e hn, Nat.xor_zero] at h
    exact absurd (linPow_eq_zero one h) (by decide)
  obtain ⟨d2, e2, d20, d2l, e2l, e2w, e2n, e2e⟩ := err_first e he n hn
  rw [e2e] at h
  rcases n with _ | n
  · rw [err_weight_zero e2 e2w, Nat.xor_zero] at h
    rw [show a = e2.length + (a - e2.length) by omega, linPow_add] at h
    have := small_xor (fac (linPow_lt one) (symbol_small d2l) h) d2l
    exact absurd (two_terms (a := a - e2.length) (by omega) (by omega)) (by omega)
  obtain ⟨d3, e3, d30, d3l, e3l, e3w, e3n, e3e⟩ := err_first e2 e2l n e2w
  rw [e3e] at h
  rcases n with _ | n
  · rw [err_weight_zero e3 e3w, Nat.xor_zero] at h
    rw [show a = e3.length + (a - e3.length) by omega, linPow_add,
      show e2.length = e3.length + (e2.length - e3.length) by omega, linPow_add, ← Nat.xor_assoc,
      ← linPow_xor] at h
    have := small_xor (fac (Nat.xor_lt_two_pow (linPow_lt one) (linPow_lt (symbol_small d2l)))
      (symbol_small d3l) h) d3l
    exact absurd (three_terms (a := a - e3.length) (b := e2.length - e3.length) (by omega) (by omega)
      (by omega) d20 d2l) (by omega)
  obtain ⟨d4, e4, d40, d4l, e4l, e4w, e4n, e4e⟩ := err_first e3 e3l n e3w
  have hn0 : n = 0 := by omega
  subst hn0
  rw [e4e, err_weight_zero e4 e4w, Nat.xor_zero] at h
  rw [show a = e4.length + (a - e4.length) by omega, linPow_add,
    show e2.length = e4.length + (e2.length - e4.length) by omega, linPow_add,
    show e3.length = e4.length + (e3.length - e4.length) by omega, linPow_add,
    ← Nat.xor_assoc, ← Nat.xor_assoc, ← linPow_xor, ← linPow_xor] at h
  have := small_xor (fac (Nat.xor_lt_two_pow (Nat.xor_lt_two_pow (linPow_lt one)
    (linPow_lt (symbol_small d2l))) (linPow_lt (symbol_small d3l))) (symbol_small d4l) h) d4l
  exact absurd (four_terms (a := a - e4.length) (b := e2.length - e4.length)
    (c := e3.length - e4.length) (by omega) (by omega) (by omega) (by omega) d20 d2l d30 d3l) (by omega)

theorem weight_map (n : Nat) (e : List Nat) (he : ∀ v ∈ e, v < 32) :
    weight (e.map (dblPow n)) = weight e := by
  unfold weight
  rw [List.countP_map]
  refine List.countP_congr fun v hv => ?_
  have := (dblPow_symbol n (he v hv)).2
  simp [this]

/-- A word of at most 88 symbols of which one to four are not 0 has no checksum 0. -/
theorem err_ne_zero (e : List Nat) (he : ∀ v ∈ e, v < 32) (hl : e.length ≤ 88) (h1 : weight e ≠ 0)
    (h4 : weight e ≤ 4) : err e ≠ 0 := by
  obtain ⟨n, hn⟩ : ∃ n, weight e = n + 1 := ⟨weight e - 1, by omega⟩
  obtain ⟨d, e', d0, dl, e'l, e'w, e'n, e'e⟩ := err_first e he n hn
  obtain ⟨j, hj⟩ := dblPow_one ⟨d, dl⟩ d0
  intro h
  rw [e'e, ← err_cons] at h
  have all : ∀ v ∈ d :: e', v < 32 := by
    intro v hv
    rcases List.mem_cons.mp hv with hv | hv
    · rw [hv]; exact dl
    · exact e'l v hv
  have k := err_dblPow j.val (d :: e') all
  have z : dblPow j.val 0 = 0 := (dblPow_symbol j.val (by decide : 0 < 32)).2.mpr rfl
  rw [h, z, List.map_cons, hj, err_cons] at k
  refine err_ne_zero_one _ _ ?_ ?_ rfl ?_ k
  · intro v hv
    obtain ⟨w, hw, rfl⟩ := List.mem_map.mp hv
    exact (dblPow_symbol j.val (e'l w hw)).1
  · rw [List.length_map]; omega
  · rw [weight_map _ _ e'l]; omega

end Verif.Bech32
