import Verif.Config.File
import Verif.Hex.Props
/-!
# Lemmas about the configuration file
-/
namespace Verif.Config

open Verif.Evm (Outcome)
open Verif.Hex (Text HashRes hashFromHex toHex)
open Verif.Http (lit stoull decimal startsDigit stoullDigits)
open Verif.Serial (Bytes)

/-! ### Numbers -/

/-- A decimal digit. -/
def IsDigit (c : UInt8) : Prop := 48 ≤ c.toNat ∧ c.toNat ≤ 57

instance (c : UInt8) : Decidable (IsDigit c) := by unfold IsDigit; infer_instance

theorem digit_isDigit (n : Nat) (h : n < 10) : IsDigit (48 + n).toUInt8 := by
  unfold IsDigit
  have : (48 + n).toUInt8.toNat = 48 + n := by
    simp [Nat.toUInt8]; omega
  omega

theorem dec_digits (n : Nat) : ∀ c ∈ dec n, IsDigit c := by
  induction n using Nat.strongRecOn with
  | _ n ih =>
    rw [dec]
    split
    · intro c hc
      simp only [List.mem_singleton] at hc
      subst hc
      exact digit_isDigit n (by omega)
    · intro c hc
      simp only [List.mem_append, List.mem_singleton] at hc
      rcases hc with hc | hc
      · exact ih (n / 10) (by omega) c hc
      · subst hc
        exact digit_isDigit (n % 10) (by omega)

theorem dec_ne_nil (n : Nat) : dec n ≠ [] := by
  rw [dec]; split <;> simp

theorem decimal_snoc (a : Text) (c : UInt8) (m : Nat) (ha : ∀ x ∈ a, IsDigit x)
    (hc : IsDigit c) : decimal (a ++ [c]) m = 10 * decimal a m + (c.toNat - 48) := by
  induction a generalizing m with
  | nil => simp [decimal, show 48 ≤ c.toNat ∧ c.toNat ≤ 57 from hc]
  | cons x a ih =>
    have hx : 48 ≤ x.toNat ∧ x.toNat ≤ 57 := ha x (by simp)
    simp only [List.cons_append, decimal, hx, and_self, if_true]
    exact ih _ fun y hy => ha y (by simp [hy])

theorem decimal_dec (n : Nat) : decimal (dec n) 0 = n := by
  induction n using Nat.strongRecOn with
  | _ n ih =>
    have key : ∀ k, k < 10 → (48 + k).toUInt8.toNat - 48 = k := by
      intro k hk
      have : (48 + k).toUInt8.toNat = 48 + k := by simp [Nat.toUInt8]; omega
      omega
    rw [dec]
    split
    · rename_i h
      have h1 : 48 ≤ (48 + n).toUInt8.toNat ∧ (48 + n).toUInt8.toNat ≤ 57 :=
        digit_isDigit n h
      simp only [decimal, h1, and_self, if_true, key n h]
      omega
    · rw [decimal_snoc _ _ _ (dec_digits _) (digit_isDigit _ (by omega)), ih (n / 10) (by omega),
        key (n % 10) (by omega)]
      omega

theorem dec_inj {a b : Nat} (h : dec a = dec b) : a = b := by
  rw [← decimal_dec a, h, decimal_dec]

theorem stoull_digits (t : Text) (h : ∀ c ∈ t, IsDigit c) (hne : t ≠ [])
    (hlt : decimal t 0 < 2 ^ 64) : stoull t = .ok (decimal t 0).toUInt64 := by
  cases t with
  | nil => exact absurd rfl hne
  | cons c r =>
    have hc : 48 ≤ c.toNat ∧ c.toNat ≤ 57 := h c (by simp)
    have hsp : Verif.Hex.isSpace c = false := by
      have e : c ≠ 32 := by intro he; subst he; exact absurd hc.1 (by decide)
      have e2 : ¬ c ≤ 13 := by
        rw [UInt8.le_iff_toNat_le]
        have : (13 : UInt8).toNat = 13 := rfl
        omega
      simp [Verif.Hex.isSpace, e, e2]
    have hd : (c :: r).dropWhile Verif.Hex.isSpace = c :: r := by simp [List.dropWhile, hsp]
    have h43 : c ≠ 43 := by intro he; subst he; exact absurd hc.1 (by decide)
    have h45 : c ≠ 45 := by intro he; subst he; exact absurd hc.1 (by decide)
    have hs : stoullDigits (c :: r) = .ok (decimal (c :: r) 0) := by
      unfold stoullDigits
      simp only [startsDigit, hc, and_self, decide_true, Bool.not_true, Bool.false_eq_true,
        if_false, hlt, if_true]
    unfold stoull
    rw [hd]
    split
    · rename_i heq; simp at heq; exact absurd heq.1 h43
    · rename_i heq; simp at heq; exact absurd heq.1 h45
    · rw [hs]; rfl

theorem stoull_dec (n : Nat) (h : n < 2 ^ 64) : stoull (dec n) = .ok n.toUInt64 := by
  rw [stoull_digits _ (dec_digits n) (dec_ne_nil n) (by rw [decimal_dec]; exact h), decimal_dec]

/-! ### Keys -/

/-- A character of a name: neither a digit nor one that ends a key or a line. -/
def nameChar (c : UInt8) : Bool :=
  decide (¬ IsDigit c) && decide (c ≠ 61) && decide (c ≠ 10)

theorem kind_chars (c : Kind) : c.name.all nameChar = true := by cases c <;> decide +kernel
theorem field_chars (f : Field) : f.name.all nameChar = true := by cases f <;> decide +kernel
theorem scalar_chars (s : Scalar) :
    s = .twoPhase ∨ s.name.all nameChar = true := by
  cases s <;> first | exact .inl rfl | exact .inr (by decide +kernel)

/-- All names of a kind, to find the one behind a text. -/
def allScalars : List Scalar :=
  [.twoPhase, .threshold, .sentinels, .shards, .atomizers, .archivers, .watchtowers,
   .coordinators, .completedTxs, .seedFrom, .seedTo, .seedKey, .seedValue, .threads,
   .blockInterval, .stxoDepth, .blockCache, .errorCache, .electionUpper, .electionLower,
   .heartbeat, .snapshotDistance, .raftBatch, .batchSize, .inputCount, .outputCount,
   .invalidRate, .fixedRate, .windowSize, .mintCount, .mintValue, .loadgens]

/-- All kinds of components. -/
def allKinds : List Kind := [.sentinel, .shard, .atomizer, .archiver, .watchtower, .coordinator]

/-- All fields. -/
def allFields : List Field :=
  [.endpoint, .loglevel, .raftEndpoint, .db, .start, .stop, .count, .readonly,
   .clientEndpoint, .internalEndpoint, .privateKey, .publicKey]

theorem find_scalar (s : Scalar) : allScalars.find? (fun x => x.name == s.name) = some s := by
  cases s <;> decide +kernel
theorem find_kind (s : Kind) : allKinds.find? (fun x => x.name == s.name) = some s := by
  cases s <;> decide +kernel
theorem find_field (s : Field) : allFields.find? (fun x => x.name == s.name) = some s := by
  cases s <;> decide +kernel

theorem scalar_inj {a b : Scalar} (h : a.name = b.name) : a = b := by
  have := find_scalar a; rw [h, find_scalar b] at this; exact (Option.some.inj this).symm
theorem kind_inj {a b : Kind} (h : a.name = b.name) : a = b := by
  have := find_kind a; rw [h, find_kind b] at this; exact (Option.some.inj this).symm
theorem field_inj {a b : Field} (h : a.name = b.name) : a = b := by
  have := find_field a; rw [h, find_field b] at this; exact (Option.some.inj this).symm

/-- Two lists that start with elements that have a property, then go on with
one that has not, are equal piece by piece. -/
theorem span_unique {α : Type} (q : α → Prop) : ∀ (a b : List α) (x y : α) (r r' : List α),
    (∀ z ∈ a, q z) → (∀ z ∈ b, q z) → ¬ q x → ¬ q y →
    a ++ x :: r = b ++ y :: r' → a = b ∧ x :: r = y :: r'
  | [], [], _, _, _, _, _, _, _, _, h => ⟨rfl, h⟩
  | [], z :: b, x, _, _, _, _, hb, hx, _, h => by
    simp at h; exact absurd (h.1 ▸ hb z (by simp)) hx
  | z :: a, [], _, y, _, _, ha, _, _, hy, h => by
    simp at h; exact absurd (h.1 ▸ ha z (by simp)) hy
  | z :: a, w :: b, x, y, r, r', ha, hb, hx, hy, h => by
    simp only [List.cons_append, List.cons.injEq] at h
    have := span_unique q a b x y r r' (fun u hu => ha u (by simp [hu]))
      (fun u hu => hb u (by simp [hu])) hx hy h.2
    exact ⟨by rw [h.1, this.1], this.2⟩

theorem nameChar_not_digit {c : UInt8} (h : nameChar c = true) : ¬ IsDigit c := by
  unfold nameChar at h; simp at h; exact h.1.1

/-- The first digit of a key comes right after the name of the kind. -/
theorem prefix_unique (c c' : Kind) (i i' : Nat) (r r' : Text)
    (h : c.name ++ (dec i ++ 95 :: r) = c'.name ++ (dec i' ++ 95 :: r')) :
    c = c' ∧ i = i' ∧ r = r' := by
  obtain ⟨d, ds, hd⟩ : ∃ d ds, dec i = d :: ds := List.exists_cons_of_ne_nil (dec_ne_nil i)
  obtain ⟨e, es, he⟩ : ∃ d ds, dec i' = d :: ds := List.exists_cons_of_ne_nil (dec_ne_nil i')
  have hdd : IsDigit d := dec_digits i d (by simp [hd])
  have hee : IsDigit e := dec_digits i' e (by simp [he])
  have hc := kind_chars c
  have hc' := kind_chars c'
  rw [List.all_eq_true] at hc hc'
  have h1 := span_unique (fun z => ¬ IsDigit z) c.name c'.name d e (ds ++ 95 :: r) (es ++ 95 :: r')
    (fun z hz => nameChar_not_digit (hc z hz)) (fun z hz => nameChar_not_digit (hc' z hz))
    (fun hn => hn hdd) (fun hn => hn hee) (by rw [hd, he] at h; exact h)
  have h2 := span_unique IsDigit (dec i) (dec i') 95 95 r r' (dec_digits i) (dec_digits i')
    (by decide) (by decide) (by rw [hd, he]; exact h1.2)
  exact ⟨kind_inj h1.1, dec_inj h2.1, by simpa using h2.2⟩

theorem lit_sep : lit "_" = [95] := by decide +kernel

theorem item_key (c : Kind) (i : Nat) (f : Field) :
    (Setting.item c i f).key = c.name ++ (dec i ++ 95 :: f.name) := by
  simp [Setting.key, lit_sep]

theorem node_key (c : Kind) (i j : Nat) (f : Field) :
    (Setting.node c i j f).key = c.name ++ (dec i ++ 95 :: (dec j ++ 95 :: f.name)) := by
  simp [Setting.key, lit_sep]

/-- A key that belongs to a component has a digit that is not the first character. -/
theorem component_not_scalar (c : Kind) (i : Nat) (r : Text) (s : Scalar) :
    c.name ++ (dec i ++ 95 :: r) ≠ s.name := by
  intro h
  obtain ⟨d, ds, hd⟩ : ∃ d ds, dec i = d :: ds := List.exists_cons_of_ne_nil (dec_ne_nil i)
  have hdd : IsDigit d := dec_digits i d (by simp [hd])
  rcases scalar_chars s with hs | hs
  · subst hs
    have h0 : ∀ c : Kind, (c.name.head?).map (fun x => decide (x = 50)) = some false := by
      intro c; cases c <;> decide +kernel
    have h1 := h0 c
    cases hc : c.name with
    | nil => rw [hc] at h1; simp at h1
    | cons x xs =>
      rw [hc] at h h1
      have h2 : (Scalar.twoPhase.name).head? = some 50 := by decide +kernel
      rw [← h] at h2
      simp at h1 h2
      exact h1 h2
  · rw [List.all_eq_true] at hs
    exact nameChar_not_digit (hs d (by rw [← h, hd]; simp)) hdd

/-- The name of a field does not start with a digit. -/
theorem field_not_dec (f : Field) (j : Nat) (r : Text) : f.name ≠ dec j ++ r := by
  intro h
  obtain ⟨d, ds, hd⟩ : ∃ d ds, dec j = d :: ds := List.exists_cons_of_ne_nil (dec_ne_nil j)
  have hf := field_chars f
  rw [List.all_eq_true] at hf
  exact nameChar_not_digit (hf d (by rw [h, hd]; simp)) (dec_digits j d (by simp [hd]))

theorem key_inj {s t : Setting} (h : s.key = t.key) : s = t := by
  cases s with
  | scalar a =>
    cases t with
    | scalar b => exact congrArg _ (scalar_inj h)
    | item c i f => rw [item_key] at h; exact absurd h.symm (component_not_scalar _ _ _ _)
    | node c i j f => rw [node_key] at h; exact absurd h.symm (component_not_scalar _ _ _ _)
  | item c i f =>
    rw [item_key] at h
    cases t with
    | scalar b => exact absurd h (component_not_scalar _ _ _ _)
    | item c' i' f' =>
      rw [item_key] at h
      obtain ⟨rfl, rfl, hf⟩ := prefix_unique _ _ _ _ _ _ h
      rw [field_inj hf]
    | node c' i' j' f' =>
      rw [node_key] at h
      exact absurd (prefix_unique _ _ _ _ _ _ h).2.2 (field_not_dec _ _ _)
  | node c i j f =>
    rw [node_key] at h
    cases t with
    | scalar b => exact absurd h (component_not_scalar _ _ _ _)
    | item c' i' f' =>
      rw [item_key] at h
      exact absurd (prefix_unique _ _ _ _ _ _ h).2.2.symm (field_not_dec _ _ _)
    | node c' i' j' f' =>
      rw [node_key] at h
      obtain ⟨rfl, rfl, hf⟩ := prefix_unique _ _ _ _ _ _ h
      have h2 := span_unique IsDigit (dec j) (dec j') 95 95 _ _ (dec_digits j) (dec_digits j')
        (by decide) (by decide) hf
      have h3 : f = f' := field_inj (by simpa using h2.2)
      rw [dec_inj h2.1, h3]

/-- A key has neither an equals sign nor a line end. -/
theorem key_plain (s : Setting) : 61 ∉ s.key ∧ 10 ∉ s.key := by
  have hn : ∀ {t : Text}, t.all nameChar = true → 61 ∉ t ∧ 10 ∉ t := by
    intro t ht
    rw [List.all_eq_true] at ht
    exact ⟨fun h => absurd (ht _ h) (by decide), fun h => absurd (ht _ h) (by decide)⟩
  have hd : ∀ n, 61 ∉ dec n ∧ 10 ∉ dec n := fun n =>
    ⟨fun h => absurd (dec_digits n _ h) (by decide), fun h => absurd (dec_digits n _ h) (by decide)⟩
  cases s with
  | scalar a =>
    rcases scalar_chars a with h | h
    · subst h; exact ⟨by decide +kernel, by decide +kernel⟩
    · exact hn h
  | item c i f =>
    rw [item_key]
    have := hn (kind_chars c); have := hn (field_chars f); have := hd i
    simp_all
  | node c i j f =>
    rw [node_key]
    have := hn (kind_chars c); have := hn (field_chars f); have := hd i; have := hd j
    simp_all

end Verif.Config
