import Verif.Wallet.Model
import Verif.Tx.Spec
/-!
# What the wallet's loops compute
-/
namespace Verif.Wallet

open Verif.Serial Verif.Tx

/-! ### Specification -/

/-- Total value of some outputs, unbounded. -/
def value (l : List Input) : Nat := total (l.map (·.prevoutData.value))

/-- The seeds that were not spent. -/
def seeds (c : Crypto) (w : Wallet) : List Input :=
  (List.range (seedsLeft w)).map fun j =>
    seedInput c w (w.seedFrom + UInt64.ofNat j)

/-- All the wallet holds. -/
def held (c : Crypto) (w : Wallet) : List Input := seeds c w ++ w.utxos

/-- The wallet is in order: what it offers for spending is what it holds, it
holds no output twice, and its balance is right (up to the range of
`uint64_t`). -/
structure Inv (c : Crypto) (w : Wallet) : Prop where
  perm : w.queue.Perm w.utxos
  nodup : ((held c w).map (·.prevout)).Nodup
  balance : w.balance.toNat = value w.utxos % 2 ^ 64

/-! ### Values -/

theorem value_nil : value [] = 0 := rfl

theorem value_cons (i : Input) (l : List Input) :
    value (i :: l) = i.prevoutData.value.toNat + value l := by
  simp [value, total]

theorem value_append (l m : List Input) :
    value (l ++ m) = value l + value m := by
  simp [value, total]

theorem value_perm {l m : List Input} (h : l.Perm m) : value l = value m :=
  ((h.map _).map _).sum_nat

theorem value_take_le (l : List Input) (n : Nat) :
    value (l.take n) ≤ value l := by
  have := value_append (l.take n) (l.drop n)
  rw [List.take_append_drop] at this
  omega

/-! ### Taking inputs -/

theorem seedsFrom_drop (c : Crypto) (w : Wallet) (k : Nat)
    (hk : k ≤ seedsLeft w) :
    seeds c { w with seedFrom := w.seedFrom + UInt64.ofNat k } =
      (seeds c w).drop k := by
  have hb : (w.seedTo - w.seedFrom).toNat < 2 ^ 64 := UInt64.toNat_lt _
  have hl : seedsLeft { w with seedFrom := w.seedFrom + UInt64.ofNat k } =
      seedsLeft w - k := by
    unfold seedsLeft at hk ⊢
    simp only
    have : w.seedTo - (w.seedFrom + UInt64.ofNat k) =
        (w.seedTo - w.seedFrom) - UInt64.ofNat k := by
      rw [← UInt64.toNat_inj]
      simp only [UInt64.toNat_sub, UInt64.toNat_add]
      have h1 := w.seedTo.toNat_lt
      have h2 := w.seedFrom.toNat_lt
      have h3 := (UInt64.ofNat k).toNat_lt
      omega
    have hkn : (UInt64.ofNat k).toNat = k := by
      simp [UInt64.toNat_ofNat']; omega
    rw [this, UInt64.toNat_sub_of_le]
    · rw [hkn]
    · rw [UInt64.le_iff_toNat_le, hkn]; exact hk
  unfold seeds
  rw [hl]
  apply List.ext_getElem
  · simp
  · intro n h1 h2
    simp only [List.getElem_map, List.getElem_range, List.getElem_drop]
    show seedInput c w _ = _
    congr 1
    rw [UInt64.add_assoc, ← UInt64.ofNat_add]

theorem seedValue_lt (w : Wallet) :
    w.seedValue.toUInt64.toNat = w.seedValue.toNat := by simp

theorem takeSeeds_spec (c : Crypto) (w : Wallet) (amount : UInt64) (n : Nat)
    (idx tot : UInt64) :
    ∃ k, k ≤ n ∧
      (takeSeeds c w amount n idx tot).1 =
        (List.range k).map (fun j => seedInput c w (idx + UInt64.ofNat j)) ∧
      (takeSeeds c w amount n idx tot).2.toNat =
        (tot.toNat + k * w.seedValue.toUInt64.toNat) % 2 ^ 64 ∧
      ((takeSeeds c w amount n idx tot).2 < amount → k = n) := by
  induction n generalizing idx tot with
  | zero =>
    have := tot.toNat_lt
    exact ⟨0, by omega, by simp [takeSeeds], by simp [takeSeeds], fun _ => rfl⟩
  | succ n ih =>
    simp only [takeSeeds]
    split
    · next hlt =>
      obtain ⟨k, hk, h1, h2, h3⟩ := ih (idx + 1) (tot + w.seedValue.toUInt64)
      refine ⟨k + 1, by omega, ?_, ?_, fun hx => by rw [h3 hx]⟩
      · rw [h1, List.range_succ_eq_map, List.map_cons, List.map_map]
        simp only [List.cons.injEq]
        refine ⟨by simp, ?_⟩
        apply List.map_congr_left
        intro j _
        simp only [Function.comp]
        congr 1
        rw [UInt64.add_assoc, Nat.succ_eq_add_one, Nat.add_comm j 1,
          UInt64.ofNat_add]
        rfl
      · simp only
        rw [h2, UInt64.toNat_add, Nat.succ_mul]
        omega
    · next hge =>
      have := tot.toNat_lt
      exact ⟨0, by omega, by simp, by simp, fun hx => absurd hx hge⟩

theorem takeQueue_spec (amount : UInt64) (l : List Input) (tot : UInt64) :
    ∃ k, k ≤ l.length ∧ (takeQueue amount l tot).1 = l.take k ∧
      (takeQueue amount l tot).2.toNat =
        (tot.toNat + value (l.take k)) % 2 ^ 64 ∧
      ((takeQueue amount l tot).2 < amount → k = l.length) := by
  induction l generalizing tot with
  | nil =>
    have := tot.toNat_lt
    exact ⟨0, by simp, by simp [takeQueue],
      by simp [takeQueue, value_nil], fun _ => rfl⟩
  | cons i l ih =>
    simp only [takeQueue]
    split
    · next hlt =>
      obtain ⟨k, hk, h1, h2, h3⟩ := ih (tot + i.prevoutData.value)
      refine ⟨k + 1, by simpa using hk, by simp [h1], ?_, fun hx => by
        rw [h3 hx]; simp⟩
      simp only [List.take_succ_cons, value_cons]
      rw [h2, UInt64.toNat_add]
      omega
    · next hge =>
      have := tot.toNat_lt
      exact ⟨0, by simp, by simp, by simp [value_nil], fun hx => absurd hx hge⟩

theorem seeds_take (c : Crypto) (w : Wallet) (k : Nat) (hk : k ≤ seedsLeft w) :
    (seeds c w).take k =
      (List.range k).map fun j =>
        seedInput c w (w.seedFrom + UInt64.ofNat j) := by
  unfold seeds
  rw [← List.map_take, List.take_range, Nat.min_eq_left hk]

theorem value_seeds (c : Crypto) (w : Wallet) (l : List Nat) :
    value (l.map fun j => seedInput c w (w.seedFrom + UInt64.ofNat j)) =
      l.length * w.seedValue.toUInt64.toNat := by
  induction l with
  | nil => simp [value_nil]
  | cons j l ih =>
    rw [List.map_cons, value_cons, ih, List.length_cons, Nat.succ_mul]
    simp only [seedInput]
    omega

/-! ### Removing inputs -/

theorem erase_perm {s : List Input} {i : Input}
    (hn : (s.map (·.prevout)).Nodup) (hi : i ∈ s) :
    (i :: erase s i).Perm s := by
  induction s with
  | nil => simp at hi
  | cons x s ih =>
    simp only [List.map_cons, List.nodup_cons] at hn
    rcases List.mem_cons.mp hi with rfl | hi
    · have : erase (i :: s) i = s := by
        simp only [erase, List.filter_cons]
        simp only [ne_eq, not_true_eq_false, decide_false, Bool.false_eq_true,
          if_false]
        apply List.filter_eq_self.mpr
        intro y hy
        simp only [decide_not, Bool.not_eq_eq_eq_not, Bool.not_true,
          decide_eq_false_iff_not]
        intro he
        exact hn.1 (he ▸ List.mem_map_of_mem hy)
      rw [this]
    · have hne : x.prevout ≠ i.prevout := by
        intro he
        exact hn.1 (he ▸ List.mem_map_of_mem hi)
      have : erase (x :: s) i = x :: erase s i := by
        simp [erase, hne]
      rw [this]
      exact (List.Perm.swap x i _).trans ((ih hn.2 hi).cons x)

theorem erase_nodup {s : List Input} {i : Input}
    (hn : (s.map (·.prevout)).Nodup) :
    ((erase s i).map (·.prevout)).Nodup :=
  hn.sublist ((List.filter_sublist).map _)

theorem dropFront_spec (n : Nat) (w : Wallet) (hn : n ≤ w.queue.length)
    (hp : w.queue.Perm w.utxos) (hd : (w.utxos.map (·.prevout)).Nodup)
    (hb : w.balance.toNat = value w.utxos % 2 ^ 64) :
    (w.queue.take n ++ (dropFront n w).utxos).Perm w.utxos ∧
    (dropFront n w).queue.Perm (dropFront n w).utxos ∧
    (dropFront n w).balance.toNat = value (dropFront n w).utxos % 2 ^ 64 ∧
    dropFront n w = { w with
      balance := (dropFront n w).balance
      utxos := (dropFront n w).utxos
      queue := (dropFront n w).queue } := by
  induction n generalizing w with
  | zero => exact ⟨by simp [dropFront], hp, hb, rfl⟩
  | succ n ih =>
    cases hq : w.queue with
    | nil => simp [hq] at hn
    | cons i l =>
      rw [hq] at hp hn
      have hi : i ∈ w.utxos := hp.subset (List.mem_cons_self ..)
      have he := erase_perm hd hi
      have hd' : dropFront (n + 1) w = dropFront n { w with
          balance := w.balance - i.prevoutData.value
          utxos := erase w.utxos i
          queue := l } := by
        simp only [dropFront, hq]
      have hv := value_perm he
      rw [value_cons] at hv
      have hb' : (w.balance - i.prevoutData.value).toNat =
          value (erase w.utxos i) % 2 ^ 64 := by
        rw [UInt64.toNat_sub, hb, ← hv]
        have := i.prevoutData.value.toNat_lt
        omega
      obtain ⟨h1, h2, h3, h4⟩ := ih { w with
          balance := w.balance - i.prevoutData.value
          utxos := erase w.utxos i
          queue := l } (by simpa using hn)
          (List.Perm.cons_inv (hp.trans he.symm)) (erase_nodup hd) hb'
      rw [hd']
      refine ⟨?_, h2, h3, h4⟩
      rw [List.take_succ_cons, List.cons_append]
      exact (h1.cons i).trans he

end Verif.Wallet
