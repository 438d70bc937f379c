import Verif.Evm.Math
/-!
# 256-bit arithmetic is arithmetic modulo 2^256 (C51)
-/
namespace Verif.Evm

open Verif.Serial Verif.Tx

/-! ### Positions -/

/-- Sum of the bytes from position `k` on, weighted: the number formed by the last
`32 - k` bytes. -/
def low (w : Word) : Nat → Nat
  | 0 => 0
  | n + 1 => low w n + (w.at (31 - n)).toNat * 256 ^ n

theorem bytesNat_append (l m : Bytes) :
    bytesNat (l ++ m) = bytesNat l * 256 ^ m.length + bytesNat m := by
  unfold bytesNat
  rw [List.foldl_append]
  have key : ∀ (m : Bytes) (a : Nat),
      m.foldl (fun n b => n * 256 + b.toNat) a =
        a * 256 ^ m.length + m.foldl (fun n b => n * 256 + b.toNat) 0 := by
    intro m
    induction m with
    | nil => intro a; simp
    | cons b m ih =>
      intro a
      simp only [List.foldl_cons, List.length_cons]
      rw [ih, ih (0 * 256 + b.toNat), Nat.pow_succ']
      rw [Nat.add_mul, Nat.zero_mul, Nat.zero_add, Nat.mul_assoc, Nat.add_assoc]
  exact key m _

theorem bytesNat_cons (b : UInt8) (m : Bytes) :
    bytesNat (b :: m) = b.toNat * 256 ^ m.length + bytesNat m := by
  have := bytesNat_append [b] m
  simpa [bytesNat] using this

theorem bytesNat_lt (l : Bytes) : bytesNat l < 256 ^ l.length := by
  induction l with
  | nil => simp [bytesNat]
  | cons b l ih =>
    rw [bytesNat_cons, List.length_cons, Nat.pow_succ']
    have := b.toNat_lt
    have h2 : b.toNat * 256 ^ l.length ≤ 255 * 256 ^ l.length :=
      Nat.mul_le_mul_right _ (by omega)
    omega

theorem low_drop (w : Word) (n : Nat) (hn : n ≤ 32) :
    low w n = bytesNat (w.val.drop (32 - n)) := by
  induction n with
  | zero =>
    rw [List.drop_eq_nil_of_le (by rw [w.2]; omega)]
    rfl
  | succ n ih =>
    have hlt : 31 - n < w.val.length := by rw [w.2]; omega
    have hd : w.val.drop (32 - (n + 1)) =
        w.at (31 - n) :: w.val.drop (32 - n) := by
      have e : 32 - (n + 1) = 31 - n := by omega
      rw [e, List.drop_eq_getElem_cons hlt]
      have e2 : 31 - n + 1 = 32 - n := by omega
      rw [e2]
      unfold Word.at
      rw [List.getElem?_eq_getElem hlt]
      rfl
    rw [low, ih (by omega), hd, bytesNat_cons]
    have hl : (w.val.drop (32 - n)).length = n := by
      rw [List.length_drop, w.2]; omega
    rw [hl]
    omega

theorem nat_low (w : Word) : w.nat = low w 32 := by
  rw [low_drop w 32 (by omega)]; rfl

theorem low_lt (w : Word) (n : Nat) (hn : n ≤ 32) : low w n < 256 ^ n := by
  rw [low_drop w n hn]
  have := bytesNat_lt (w.val.drop (32 - n))
  have hl : (w.val.drop (32 - n)).length = n := by
    rw [List.length_drop, w.2]; omega
  rwa [hl] at this

theorem pow256 : (256 : Nat) ^ 32 = 2 ^ 256 := by decide

theorem Word.nat_lt (w : Word) : w.nat < 2 ^ 256 := by
  rw [nat_low, ← pow256]; exact low_lt w 32 (by omega)

theorem at_of (f : Nat → UInt8) (i : Nat) (hi : i < 32) : (Word.of f).at i = f i := by
  simp [Word.at, Word.of, hi]

theorem at_set (w : Word) (i j : Nat) (b : UInt8) (hi : i < 32) :
    (w.set i b).at j = if j = i then b else w.at j := by
  unfold Word.at Word.set
  simp only [List.getElem?_set]
  by_cases h : i = j
  · subst h
    simp [w.2, hi]
  · simp [h, Ne.symm h]

/-- Two words with the same bytes stand for the same number. -/
theorem low_congr {v w : Word} {n : Nat} (hn : n ≤ 32)
    (h : ∀ i, 32 - n ≤ i → i < 32 → v.at i = w.at i) : low v n = low w n := by
  induction n with
  | zero => rfl
  | succ n ih =>
    rw [low, low, ih (by omega) (fun i h1 h2 => h i (by omega) h2),
      h (31 - n) (by omega) (by omega)]

/-- Numbers determine words. -/
theorem Word.nat_inj {v w : Word} (h : v.nat = w.nat) : v = w := by
  have key : ∀ (l m : Bytes), l.length = m.length → bytesNat l = bytesNat m →
      l = m := by
    intro l
    induction l with
    | nil => intro m hl _; exact (List.length_eq_zero_iff.mp hl.symm).symm
    | cons a l ih =>
      intro m hl he
      cases m with
      | nil => cases hl
      | cons b m =>
        simp only [List.length_cons, Nat.add_right_cancel_iff] at hl
        rw [bytesNat_cons, bytesNat_cons, hl] at he
        have h1 := bytesNat_lt l
        have h2 := bytesNat_lt m
        rw [hl] at h1
        have hab : a.toNat = b.toNat := by
          have e1 : (a.toNat * 256 ^ m.length + bytesNat l) / 256 ^ m.length =
              a.toNat := by
            rw [Nat.mul_comm, Nat.mul_add_div (Nat.pow_pos (by decide)),
              Nat.div_eq_of_lt h1, Nat.add_zero]
          have e2 : (b.toNat * 256 ^ m.length + bytesNat m) / 256 ^ m.length =
              b.toNat := by
            rw [Nat.mul_comm, Nat.mul_add_div (Nat.pow_pos (by decide)),
              Nat.div_eq_of_lt h2, Nat.add_zero]
          rw [← e1, ← e2, he]
        rw [hab] at he
        rw [UInt8.toNat_inj.mp hab, ih m hl (by omega)]
  exact Subtype.ext (key _ _ (by rw [v.2, w.2]) h)

/-! ### Addition and subtraction -/

theorem low_set (w : Word) (n : Nat) (b : UInt8) (hn : n < 32) :
    low (w.set n b) (31 - n + 1) = low w (31 - n) + b.toNat * 256 ^ (31 - n) := by
  rw [low, low_congr (v := w.set n b) (w := w) (by omega)]
  · have e : 31 - (31 - n) = n := by omega
    rw [e, at_set _ _ _ _ hn, if_pos rfl]
  · intro i h1 h2
    rw [at_set _ _ _ _ hn, if_neg (by omega)]

theorem addLoop_spec (a b : Word) (n : Nat) (hn : n ≤ 32) (carry : UInt8)
    (ret : Word)
    (h : low ret (32 - n) + carry.toNat * 256 ^ (32 - n) =
      low a (32 - n) + low b (32 - n)) (hc : carry.toNat ≤ 1) :
    ∃ c, (addLoop a b n carry ret).nat + c * 2 ^ 256 = a.nat + b.nat := by
  induction n generalizing carry ret with
  | zero =>
    refine ⟨carry.toNat, ?_⟩
    rw [nat_low, nat_low, nat_low, ← pow256]
    exact h
  | succ n ih =>
    simp only [addLoop]
    have e : 32 - (n + 1) = 31 - n := by omega
    rw [e] at h
    have e2 : 32 - n = 31 - n + 1 := by omega
    have e3 : 31 - (31 - n) = n := by omega
    apply ih (by omega)
    · rw [e2, low_set _ _ _ (by omega), low, low, e3, Nat.pow_succ]
      generalize (256 : Nat) ^ (31 - n) = P at h ⊢
      have ha := (a.at n).toNat_lt
      have hb := (b.at n).toNat_lt
      generalize (a.at n).toNat = x at ha ⊢
      generalize (b.at n).toNat = y at hb ⊢
      generalize carry.toNat = z at h hc ⊢
      have hbyte : ((x + y + z) % 256).toUInt8.toNat = (x + y + z) % 256 := by
        show (x + y + z) % 256 % 256 = _
        omega
      rw [hbyte]
      have hcar : (if x + y + z > 255 then (1 : UInt8) else 0).toNat =
          (x + y + z) / 256 := by
        split
        · show 1 = _; omega
        · show 0 = _; omega
      rw [hcar]
      have hd := Nat.div_add_mod (x + y + z) 256
      have : (x + y + z) * P = 256 * ((x + y + z) / 256) * P +
          (x + y + z) % 256 * P := by
        rw [← Nat.add_mul, hd]
      have h4 : (x + y + z) / 256 * (P * 256) =
          256 * ((x + y + z) / 256) * P := by
        rw [Nat.mul_comm 256, Nat.mul_assoc, Nat.mul_comm P]
      rw [h4]
      have h5 : (x + y + z) * P = x * P + y * P + z * P := by
        rw [Nat.add_mul, Nat.add_mul]
      omega
    · split
      · decide
      · decide

theorem subLoop_spec (a b : Word) (n : Nat) (hn : n ≤ 32) (borrow : UInt8)
    (ret : Word)
    (h : low ret (32 - n) + low b (32 - n) =
      low a (32 - n) + borrow.toNat * 256 ^ (32 - n)) (hc : borrow.toNat ≤ 1) :
    ∃ c, c ≤ 1 ∧
      (subLoop a b n borrow ret).nat + b.nat = a.nat + c * 2 ^ 256 := by
  induction n generalizing borrow ret with
  | zero =>
    refine ⟨borrow.toNat, hc, ?_⟩
    rw [nat_low, nat_low, nat_low, ← pow256]
    exact h
  | succ n ih =>
    simp only [subLoop]
    have e : 32 - (n + 1) = 31 - n := by omega
    rw [e] at h
    have e2 : 32 - n = 31 - n + 1 := by omega
    have e3 : 31 - (31 - n) = n := by omega
    apply ih (by omega)
    · rw [e2, low_set _ _ _ (by omega), low, low, e3, Nat.pow_succ]
      generalize (256 : Nat) ^ (31 - n) = P at h ⊢
      have ha := (a.at n).toNat_lt
      have hb := (b.at n).toNat_lt
      generalize (a.at n).toNat = x at ha ⊢
      generalize (b.at n).toNat = y at hb ⊢
      generalize borrow.toNat = z at h hc ⊢
      have hbyte : ((x + 256 - (y + z)) % 256).toUInt8.toNat =
          (x + 256 - (y + z)) % 256 := by
        show (x + 256 - (y + z)) % 256 % 256 = _
        omega
      rw [hbyte]
      have hcar : (if x + 256 - (y + z) ≤ 255 then (1 : UInt8) else 0).toNat =
          1 - (x + 256 - (y + z)) / 256 := by
        split
        · show 1 = _; omega
        · show 0 = _; omega
      rw [hcar]
      generalize hr : (x + 256 - (y + z)) % 256 = r
      generalize hq : 1 - (x + 256 - (y + z)) / 256 = q
      have hrel : r + y + z = x + 256 * q := by omega
      have h1 : (r + y + z) * P = (x + 256 * q) * P := by rw [hrel]
      have h5 : (r + y + z) * P = r * P + y * P + z * P := by
        rw [Nat.add_mul, Nat.add_mul]
      have h6 : (x + 256 * q) * P = x * P + q * (P * 256) := by
        rw [Nat.add_mul, Nat.mul_comm 256, Nat.mul_assoc, Nat.mul_comm P]
      omega
    · split
      · decide
      · decide

/-- **C51.** Addition is addition modulo 2^256. -/
theorem C51_add (a b : Word) : (add a b).nat = (a.nat + b.nat) % 2 ^ 256 := by
  obtain ⟨c, h⟩ := addLoop_spec a b 32 (by omega) 0 .zero rfl (by decide)
  have := (add a b).nat_lt
  unfold add at this ⊢
  omega

/-- **C51.** Subtraction is subtraction modulo 2^256. -/
theorem C51_sub (a b : Word) :
    (sub a b).nat = (a.nat + 2 ^ 256 - b.nat) % 2 ^ 256 := by
  obtain ⟨c, hc, h⟩ := subLoop_spec a b 32 (by omega) 0 .zero rfl (by decide)
  have h1 := (sub a b).nat_lt
  have h2 := a.nat_lt
  have h3 := b.nat_lt
  unfold sub at h1 ⊢
  omega

/-! ### Shift and multiplication -/

theorem low_zero (n : Nat) : low .zero n = 0 := by
  induction n with
  | zero => rfl
  | succ n ih =>
    rw [low, ih]
    by_cases hn : n < 32
    · have : Word.zero.at (31 - n) = 0 := at_of _ _ (by omega)
      rw [this]
      simp
    · have : Word.zero.at (31 - n) = 0 := at_of _ _ (by omega)
      rw [this]; simp

theorem nat_zero : Word.zero.nat = 0 := by rw [nat_low, low_zero]

/-- **C51.** A shift by `count` bytes multiplies by `256 ^ count`. -/
theorem C51_shl (a : Word) (count : Nat) :
    (shl a count).nat = a.nat * 256 ^ count % 2 ^ 256 := by
  unfold shl
  split
  · next h =>
    have : (256 : Nat) ^ count = 2 ^ 256 * 256 ^ (count - 32) := by
      rw [← pow256, ← Nat.pow_add]
      congr 1
      omega
    rw [nat_zero, this, Nat.mul_left_comm, Nat.mul_mod_right]
  · next h =>
    have h : count < 32 := by omega
    have key : ∀ n, n ≤ 32 → low (.of fun i => if i + count < 32 then
        a.at (i + count) else 0) n = if n ≤ count then 0
          else low a (n - count) * 256 ^ count := by
      intro n hn
      induction n with
      | zero => simp [low]
      | succ n ih =>
        rw [low, ih (by omega), at_of _ _ (by omega)]
        by_cases h1 : n + 1 ≤ count
        · rw [if_pos (by omega), if_neg (by omega), if_pos h1]
          simp
        · rw [if_neg h1, if_pos (show 31 - n + count < 32 by omega)]
          have e1 : n + 1 - count = (n - count) + 1 := by omega
          have e2 : 31 - n + count = 31 - (n - count) := by omega
          rw [e1, low, e2, Nat.add_mul, Nat.mul_assoc _ _ (256 ^ count),
            ← Nat.pow_add]
          have e3 : n - count + count = n := by omega
          rw [e3]
          by_cases h2 : n ≤ count
          · have : n - count = 0 := by omega
            rw [if_pos h2, this]
            simp [low]
          · rw [if_neg h2]
    rw [nat_low, key 32 (by omega), if_neg (by omega)]
    -- the bytes shifted out are multiples of 2^256
    have hsplit : a.nat = bytesNat (a.val.take count) * 256 ^ (32 - count) +
        low a (32 - count) := by
      rw [low_drop a (32 - count) (by omega)]
      have e : 32 - (32 - count) = count := by omega
      rw [e]
      have := bytesNat_append (a.val.take count) (a.val.drop count)
      rw [List.take_append_drop, List.length_drop, a.2] at this
      exact this
    have hlt := low_lt a (32 - count) (by omega)
    rw [hsplit, Nat.add_mul, Nat.mul_assoc, ← Nat.pow_add]
    have e : 32 - count + count = 32 := by omega
    rw [e, pow256, Nat.mul_comm (bytesNat _), Nat.mul_add_mod, Nat.mod_eq_of_lt]
    rw [← pow256]
    have : (256 : Nat) ^ 32 = 256 ^ (32 - count) * 256 ^ count := by
      rw [← Nat.pow_add, e]
    rw [this]
    exact Nat.mul_lt_mul_of_pos_right hlt (Nat.pow_pos (by decide))

/-- A `uint64_t` as a word. -/
theorem nat_ofU64 (v : UInt64) : (Word.ofU64 v).nat = v.toNat := by
  have key : ∀ n, n ≤ 8 → low (.ofU64 v) n = v.toNat % 256 ^ n := by
    intro n hn
    induction n with
    | zero => simp [low, Nat.mod_one]
    | succ n ih =>
      have hat : (Word.ofU64 v).at (31 - n) = (v.toNat / 256 ^ n).toUInt8 := by
        unfold Word.ofU64
        rw [at_of _ _ (by omega), if_neg (by omega)]
        have : 31 - (31 - n) = n := by omega
        rw [this]
      rw [low, ih (by omega), hat]
      have : (v.toNat / 256 ^ n).toUInt8.toNat = v.toNat / 256 ^ n % 256 := rfl
      rw [this, Nat.mul_comm, Nat.pow_succ, Nat.mod_mul]
  have key2 : ∀ n, low (.ofU64 v) (8 + n) = v.toNat := by
    intro n
    induction n with
    | zero =>
      rw [Nat.add_zero, key 8 (by omega)]
      have := v.toNat_lt
      exact Nat.mod_eq_of_lt this
    | succ n ih =>
      have : 8 + (n + 1) = 8 + n + 1 := by omega
      rw [this, low, ih]
      have hat : (Word.ofU64 v).at (31 - (8 + n)) = 0 := by
        unfold Word.ofU64
        rw [at_of _ _ (by omega), if_pos (by omega)]
      rw [hat]
      simp
  rw [nat_low]
  exact key2 24

/-- Sum of the bytes before position `k`, with their weights. -/
def high (w : Word) : Nat → Nat
  | 0 => 0
  | k + 1 => high w k + (w.at k).toNat * 256 ^ (31 - k)

theorem high_low (w : Word) (k : Nat) (hk : k ≤ 32) :
    high w k + low w (32 - k) = low w 32 := by
  induction k with
  | zero => simp [high]
  | succ k ih =>
    have h := ih (by omega)
    have e : 32 - k = (32 - (k + 1)) + 1 := by omega
    rw [e, low] at h
    have e2 : 31 - (32 - (k + 1)) = k := by omega
    have e3 : 32 - (k + 1) = 31 - k := by omega
    rw [high]
    rw [e2, e3] at h
    rw [e3]
    omega

theorem high_nat (w : Word) : high w 32 = w.nat := by
  rw [nat_low, ← high_low w 32 (by omega)]
  rfl

theorem row_spec (a b : Word) (i : Nat) (hi : i < 32) (k : Nat) (hk : k ≤ 32) :
    ((List.range k).foldl (mulCell a b i) .zero).nat =
      (a.at i).toNat * 256 ^ (31 - i) * high b k % 2 ^ 256 := by
  induction k with
  | zero => simp [high, nat_zero]
  | succ k ih =>
    rw [List.range_succ, List.foldl_append, List.foldl_cons, List.foldl_nil, high,
      Nat.mul_add, Nat.add_mod, ← ih (by omega)]
    generalize (List.range k).foldl (mulCell a b i) .zero = row
    have hw : row.nat = row.nat % 2 ^ 256 := (Nat.mod_eq_of_lt row.nat_lt).symm
    have hcell : (a.at i).toNat * 256 ^ (31 - i) *
        ((b.at k).toNat * 256 ^ (31 - k)) =
        (a.at i).toNat * (b.at k).toNat * 256 ^ ((31 - i) + (31 - k)) := by
      rw [Nat.pow_add, Nat.mul_assoc, Nat.mul_assoc, Nat.mul_left_comm (256 ^ _)]
    rw [hcell]
    unfold mulCell
    split
    · next h0 =>
      rw [h0]
      simpa using hw
    · simp only
      have e : 32 - i - 1 + (32 - k - 1) = (31 - i) + (31 - k) := by omega
      rw [e]
      split
      · next hs =>
        have : (256 : Nat) ^ ((31 - i) + (31 - k)) =
            2 ^ 256 * 256 ^ ((31 - i) + (31 - k) - 32) := by
          rw [← pow256, ← Nat.pow_add]
          congr 1
          omega
        rw [this, Nat.mul_left_comm, Nat.mul_mod_right, Nat.add_zero]
        exact hw
      · rw [C51_add, C51_shl, nat_ofU64]
        have hp : ((a.at i).toUInt64 * (b.at k).toUInt64).toNat =
            (a.at i).toNat * (b.at k).toNat := by
          rw [UInt64.toNat_mul, UInt8.toNat_toUInt64, UInt8.toNat_toUInt64]
          apply Nat.mod_eq_of_lt
          have h1 := (a.at i).toNat_lt
          have h2 := (b.at k).toNat_lt
          have : (a.at i).toNat * (b.at k).toNat ≤ 255 * 255 :=
            Nat.mul_le_mul (by omega) (by omega)
          omega
        rw [hp]

theorem mul_spec (a b : Word) (k : Nat) (hk : k ≤ 32) :
    ((List.range k).foldl (mulRow a b) .zero).nat =
      high a k * b.nat % 2 ^ 256 := by
  induction k with
  | zero => simp [high, nat_zero]
  | succ k ih =>
    rw [List.range_succ, List.foldl_append, List.foldl_cons, List.foldl_nil, high,
      Nat.add_mul, Nat.add_mod, ← ih (by omega)]
    generalize (List.range k).foldl (mulRow a b) .zero = ret
    have hw : ret.nat = ret.nat % 2 ^ 256 := (Nat.mod_eq_of_lt ret.nat_lt).symm
    unfold mulRow
    split
    · next h0 =>
      rw [h0]
      simpa using hw
    · rw [C51_add, row_spec a b k (by omega) 32 (by omega), high_nat]

/-- **C51.** Multiplication is multiplication modulo 2^256. -/
theorem C51_mul (a b : Word) : (mul a b).nat = a.nat * b.nat % 2 ^ 256 := by
  unfold mul
  rw [mul_spec a b 32 (by omega), high_nat]

/-- **C51.** `to_uint64` takes the number modulo 2^64. -/
theorem C51_toU64 (a : Word) : (toU64 a).toNat = a.nat % 2 ^ 64 := by
  have h : (toU64 a).toNat = bytesNat (a.val.drop 24) % 2 ^ 64 := by
    unfold toU64 bytesNat
    rw [UInt64.toNat_ofNat']
  have hs : a.nat = bytesNat (a.val.take 24) * 256 ^ 8 +
      bytesNat (a.val.drop 24) := by
    have := bytesNat_append (a.val.take 24) (a.val.drop 24)
    rw [List.take_append_drop, List.length_drop, a.2] at this
    exact this
  rw [h, hs]
  have : (256 : Nat) ^ 8 = 2 ^ 64 := by decide
  rw [this, Nat.mul_comm, Nat.mul_add_mod]

/-- Nothing is lost: two words are equal exactly if their numbers are, so the
theorems above determine the results. -/
theorem C51_exact (a b : Word) : a = b ↔ a.nat = b.nat :=
  ⟨fun h => by rw [h], Word.nat_inj⟩

/-! ### Examples -/

example : (add (.ofU64 255) (.ofU64 1)).nat = 256 := by
  rw [C51_add, nat_ofU64, nat_ofU64]; decide
example : sub .zero (.ofU64 1) = .of fun _ => 255 := by decide +kernel
example : add (.of fun _ => 255) (.ofU64 1) = .zero := by decide +kernel
example : mul (.ofU64 1000000) (.ofU64 1000000000000000000) =
    .of fun i => [0xd3, 0xc2, 0x1b, 0xce, 0xcc, 0xed, 0xa1, 0, 0, 0].getD
      (i - 22) 0 * (if i < 22 then 0 else 1) := by decide +kernel

end Verif.Evm
