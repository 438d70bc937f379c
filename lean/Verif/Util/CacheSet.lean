/-!
Model of `src/util/common/cache_set.hpp`, and C32.

Every member function holds the mutex for its whole body, so a history of calls
from any number of threads is a sequence of calls.
-/
namespace Verif.Util

/-- `cache_set` (`src/util/common/cache_set.hpp:62-64`). `vals` is the `unordered_set`, a list
without an observable order; `queue` is the eviction queue, front first. -/
structure CacheSet (K : Type) where
  vals : List K
  queue : List K
  maxSize : Nat
  deriving DecidableEq

variable {K : Type} [DecidableEq K]

/-- The constructor, `src/util/common/cache_set.hpp:27-31`. -/
def CacheSet.new (maxSize : Nat) : CacheSet K := ⟨[], [], maxSize⟩

/-- `add`, `src/util/common/cache_set.hpp:38-51`. The `assert` is a theorem below. -/
def CacheSet.add (s : CacheSet K) (v : K) : CacheSet K × Bool :=
  if v ∈ s.vals then (s, false)
  else
    let q := s.queue ++ [v]
    if q.length ≥ s.maxSize then
      match q with
      | [] => ({ s with vals := v :: s.vals, queue := q }, true)
      | f :: q' => ({ s with vals := (v :: s.vals).filter (· ≠ f), queue := q' }, true)
    else ({ s with vals := v :: s.vals, queue := q }, true)

/-- `contains`, `src/util/common/cache_set.hpp:56-59`. -/
def CacheSet.contains (s : CacheSet K) (v : K) : Bool := decide (v ∈ s.vals)

/-- A history of additions: final set and the answers. -/
def CacheSet.addAll (s : CacheSet K) : List K → CacheSet K × List Bool
  | [] => (s, [])
  | v :: vs =>
    let r := (s.add v).1.addAll vs
    (r.1, (s.add v).2 :: r.2)

/-! #### Specification -/

/-- The last `n` items of a list. -/
def lastN (n : Nat) (l : List K) : List K := l.drop (l.length - n)

/-- The items that were reported as new, oldest first. -/
def reportedNew (vs : List K) (answers : List Bool) : List K :=
  ((vs.zip answers).filter (·.2)).map (·.1)

/-- The distinct items of a list ordered by their last occurrence. -/
def byLastUse : List K → List K
  | [] => []
  | v :: vs => if v ∈ vs then byLastUse vs else v :: byLastUse vs

/-! #### Lemmas -/

/-- Distinct members of a list are no more than its length. -/
theorem length_le_of_subset : ∀ {ks l : List K}, ks.Nodup → ks ⊆ l → ks.length ≤ l.length
  | [], _, _, _ => Nat.zero_le _
  | k :: ks, l, hn, hs => by
    rw [List.nodup_cons] at hn
    have hk : k ∈ l := hs (List.mem_cons_self ..)
    have := length_le_of_subset (l := l.erase k) hn.2 (by
      intro x hx
      have hne : x ≠ k := by rintro rfl; exact hn.1 hx
      exact (List.mem_erase_of_ne hne).mpr (hs (List.mem_cons_of_mem _ hx)))
    rw [List.length_erase_of_mem hk] at this
    have : 0 < l.length := List.length_pos_of_mem hk
    simp only [List.length_cons]; omega

/-- The two containers agree, hold no duplicates and stay below the bound. -/
structure CacheSet.Inv (s : CacheSet K) : Prop where
  same : ∀ v, v ∈ s.vals ↔ v ∈ s.queue
  nodup : s.queue.Nodup
  nodupVals : s.vals.Nodup
  bound : s.queue.length ≤ s.maxSize - 1

omit [DecidableEq K] in
theorem CacheSet.new_inv (n : Nat) : (CacheSet.new n : CacheSet K).Inv :=
  ⟨by simp [CacheSet.new], by simp [CacheSet.new], by simp [CacheSet.new], by simp [CacheSet.new]⟩

omit [DecidableEq K] in
theorem lastN_append_one (n : Nat) (l : List K) (v : K) (h : l.length < n) :
    lastN n (l ++ [v]) = l ++ [v] := by
  simp only [lastN, List.length_append, List.length_singleton]
  rw [show l.length + 1 - n = 0 by omega]; rfl

theorem CacheSet.add_spec (s : CacheSet K) (h : s.Inv) (v : K) :
    (s.add v).1.Inv ∧ (s.add v).1.maxSize = s.maxSize ∧
      ((s.add v).2 = true ↔ v ∉ s.vals) ∧
      (s.add v).1.queue = if v ∈ s.vals then s.queue else lastN (s.maxSize - 1) (s.queue ++ [v]) := by
  unfold CacheSet.add
  by_cases hv : v ∈ s.vals
  · simp [hv, h]
  · have hq : v ∉ s.queue := fun hm => hv ((h.same v).mpr hm)
    have hb := h.bound
    simp only [hv, if_false]
    by_cases hlen : (s.queue ++ [v]).length ≥ s.maxSize
    · simp only [hlen, if_true]
      rcases hs : s.queue with _ | ⟨f, q'⟩
      · simp only [List.nil_append]
        rw [hs] at hlen
        simp at hlen
        refine ⟨⟨?_, by simp, ?_, by simp⟩, trivial, by simp, ?_⟩
        · intro w
          have := h.same w
          rw [hs] at this
          simp at this
          simp [this]
        · have hnil : s.vals = [] := by
            rcases hvv : s.vals with _ | ⟨a, t⟩
            · rfl
            · have := (h.same a).mp (by simp [hvv])
              simp [hs] at this
          simp [hnil]
        · simp [lastN]; omega
      · simp only [List.cons_append]
        rw [hs] at hlen hq hb
        simp only [List.length_append, List.length_cons, List.length_nil] at hlen
        simp only [List.length_cons] at hb
        have hnd := h.nodup
        rw [hs] at hnd
        simp only [List.nodup_cons] at hnd
        have hfv : f ≠ v := by intro e; simp [e] at hq
        refine ⟨⟨?_, ?_, ?_, ?_⟩, trivial, by simp, ?_⟩
        · intro w
          have := h.same w
          rw [hs] at this
          simp only [List.mem_cons] at this
          simp only [List.mem_filter, List.mem_cons, List.mem_append, List.not_mem_nil, or_false]
          rw [this]
          constructor
          · rintro ⟨rfl | rfl | hw, hne⟩
            · exact Or.inr rfl
            · simp at hne
            · exact Or.inl hw
          · rintro (hw | rfl)
            · exact ⟨Or.inr (Or.inr hw), by simp; rintro rfl; exact hnd.1 hw⟩
            · exact ⟨Or.inl rfl, by simp; exact fun e => hfv e.symm⟩
        · rw [List.nodup_append]
          refine ⟨hnd.2, by simp, ?_⟩
          intro a ha b hb
          simp at hb; subst hb
          rintro rfl
          simp [ha] at hq
        · exact List.Nodup.sublist List.filter_sublist (by simp [hv, h.nodupVals])
        · simp; omega
        · simp only [lastN, List.length_append, List.length_cons, List.length_nil]
          rw [show q'.length + 1 + (0 + 1) - (s.maxSize - 1) = 1 by omega]
          rfl
    · simp only [hlen, if_false]
      simp only [ge_iff_le, List.length_append, List.length_cons, List.length_nil] at hlen
      refine ⟨⟨?_, ?_, ?_, ?_⟩, trivial, by simp, ?_⟩
      · intro w; simp [h.same w, or_comm]
      · rw [List.nodup_append]
        exact ⟨h.nodup, by simp, by intro a ha b hb; simp at hb; subst hb; rintro rfl; exact hq ha⟩
      · simp [hv, h.nodupVals]
      · simp; omega
      · rw [lastN_append_one]; omega

omit [DecidableEq K] in
theorem lastN_append (n : Nat) (l m : List K) : lastN n (lastN n l ++ m) = lastN n (l ++ m) := by
  simp only [lastN, List.length_append, List.length_drop]
  by_cases h : l.length ≤ n
  · rw [show l.length - n = 0 by omega]; simp
  · rw [show l.length - (l.length - n) = n by omega, show n + m.length - n = m.length by omega]
    rw [List.drop_append, List.drop_append, List.length_drop, List.drop_drop]
    rw [show l.length - n + m.length = l.length + m.length - n by omega,
      show m.length - (l.length - (l.length - n)) = l.length + m.length - n - l.length by omega]

theorem CacheSet.addAll_spec (s : CacheSet K) (h : s.Inv) (vs : List K) :
    (s.addAll vs).1.Inv ∧ (s.addAll vs).1.maxSize = s.maxSize ∧
      (s.addAll vs).1.queue =
        lastN (s.maxSize - 1) (s.queue ++ reportedNew vs (s.addAll vs).2) := by
  induction vs generalizing s with
  | nil =>
    refine ⟨h, rfl, ?_⟩
    have hb := h.bound
    simp only [CacheSet.addAll, reportedNew, List.zip_nil_left, List.filter_nil, List.map_nil,
      List.append_nil, lastN]
    rw [show s.queue.length - (s.maxSize - 1) = 0 by omega]; rfl
  | cons v vs ih =>
    obtain ⟨hi, hm, hr, hq⟩ := s.add_spec h v
    obtain ⟨ih1, ih2, ih3⟩ := ih (s.add v).1 hi
    refine ⟨ih1, by simp only [CacheSet.addAll]; rw [ih2, hm], ?_⟩
    simp only [CacheSet.addAll]
    rw [ih3, hm, hq]
    by_cases hv : v ∈ s.vals
    · have : (s.add v).2 = false := by
        cases hb : (s.add v).2
        · rfl
        · exact absurd hv (hr.mp hb)
      simp [hv, reportedNew, this]
    · have : (s.add v).2 = true := hr.mpr hv
      simp only [hv, if_false, reportedNew, this, List.zip_cons_cons, List.filter_cons_of_pos,
        List.map_cons]
      rw [lastN_append, List.append_assoc]
      rfl

theorem reachable_inv (n : Nat) (vs : List K) : ((CacheSet.new n).addAll vs).1.Inv :=
  ((CacheSet.new n).addAll_spec (CacheSet.new_inv n) vs).1

/-! #### C32 -/

/-- C32. An addition is reported as new exactly when the item is absent. -/
theorem C32_new_iff_absent (n : Nat) (vs : List K) (v : K) :
    ((((CacheSet.new n).addAll vs).1).add v).2 = true ↔
      ((CacheSet.new n).addAll vs).1.contains v = false := by
  rw [(CacheSet.add_spec _ (reachable_inv n vs) v).2.2.1]
  simp [CacheSet.contains]

/-- C32. The set never holds more than its capacity; `max_size = 0` included. -/
theorem C32_bounded (n : Nat) (vs ks : List K) (hk : ks.Nodup)
    (h : ∀ k ∈ ks, ((CacheSet.new n).addAll vs).1.contains k = true) : ks.length ≤ n := by
  have hi := reachable_inv (K := K) n vs
  have hm : ((CacheSet.new n).addAll vs).1.maxSize = n :=
    ((CacheSet.new n).addAll_spec (CacheSet.new_inv n) vs).2.1
  have hb := hi.bound
  rw [hm] at hb
  have hsub : ks ⊆ ((CacheSet.new n).addAll vs).1.queue := by
    intro k hkm
    have := h k hkm
    simp only [CacheSet.contains, decide_eq_true_eq] at this
    exact (hi.same k).mp this
  have := length_le_of_subset hk hsub
  omega

/-- C32, partial. The set holds exactly the last `max_size - 1` items that were reported as
new. The property asks for `max_size` items and for the most recent additions; see
`C32_capacity_violated` and `C32_recency_violated`. -/
theorem C32_contents_partial (n : Nat) (vs : List K) (v : K) :
    ((CacheSet.new n).addAll vs).1.contains v = true ↔
      v ∈ lastN (n - 1) (reportedNew vs ((CacheSet.new n).addAll vs).2) := by
  obtain ⟨hi, _, hq⟩ := (CacheSet.new n).addAll_spec (CacheSet.new_inv n) vs
  simp only [CacheSet.contains, decide_eq_true_eq, hi.same v, hq]
  simp [CacheSet.new]

/-- C32. A freshly added item is there, provided the configured size exceeds one. -/
theorem C32_added_present (n : Nat) (hn : 1 < n) (vs : List K) (v : K) :
    ((((CacheSet.new n).addAll vs).1).add v).1.contains v = true := by
  have hi := reachable_inv (K := K) n vs
  have hm : ((CacheSet.new n).addAll vs).1.maxSize = n :=
    ((CacheSet.new n).addAll_spec (CacheSet.new_inv n) vs).2.1
  obtain ⟨hi', _, _, hq⟩ := CacheSet.add_spec _ hi v
  simp only [CacheSet.contains, decide_eq_true_eq, hi'.same v, hq]
  split
  · rename_i h; exact (hi.same v).mp h
  · rw [hm]
    simp only [lastN, List.length_append, List.length_singleton]
    rw [List.drop_append_of_le_length (by have := hi.bound; omega)]
    simp

/-- C32 is violated as stated: a set of size 2 forgets one of two distinct items. -/
theorem C32_capacity_violated :
    ¬ ∀ (n : Nat) (vs : List Nat) (v : Nat), v ∈ lastN n (byLastUse vs) →
      ((CacheSet.new n).addAll vs).1.contains v = true := by
  intro h
  exact absurd (h 2 [1, 2] 1 (by decide)) (by decide)

/-- Even counting the capacity as `max_size - 1`, adding an item again does not protect it
from eviction. -/
theorem C32_recency_violated :
    ¬ ∀ (n : Nat) (vs : List Nat) (v : Nat), v ∈ lastN (n - 1) (byLastUse vs) →
      ((CacheSet.new n).addAll vs).1.contains v = true := by
  intro h
  exact absurd (h 3 [1, 2, 1, 3] 1 (by decide)) (by decide)

example : ((CacheSet.new 3).addAll [1, 2, 1, 3]).2 = [true, true, false, true] := by decide
example : ((CacheSet.new 3).addAll [1, 2, 1, 3]).1.contains 2 = true := by decide

end Verif.Util
