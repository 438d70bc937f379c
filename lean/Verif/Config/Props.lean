import Verif.Config.Model

/-!
# C36, C73: seed ranges, shard ranges and seeded coins
-/

namespace Verif.Config

/-! ### Seed ranges of the load generators -/

theorem range_nat (seedFrom seedTo count genId : UInt64) (hle : seedFrom ≤ seedTo)
    (hg : genId < count) (hc : count ≤ seedTo - seedFrom) :
    let sz := (seedTo.toNat - seedFrom.toNat) / count.toNat
    1 ≤ sz ∧ sz * count.toNat ≤ seedTo.toNat - seedFrom.toNat ∧
    (genId.toNat + 1) * sz ≤ sz * count.toNat ∧
    (loadgenSeedRange seedFrom seedTo count genId).1.toNat =
      seedFrom.toNat + genId.toNat * sz ∧
    (loadgenSeedRange seedFrom seedTo count genId).2.toNat + 1 =
      seedFrom.toNat + (genId.toNat + 1) * sz := by
  have h1 := seedFrom.toNat_lt
  have h2 := seedTo.toNat_lt
  have hle' : seedFrom.toNat ≤ seedTo.toNat := hle
  have hg' : genId.toNat < count.toNat := hg
  have ht : (seedTo - seedFrom).toNat = seedTo.toNat - seedFrom.toNat := by
    rw [UInt64.toNat_sub]; omega
  have hc' : count.toNat ≤ seedTo.toNat - seedFrom.toNat := by
    rw [← ht]; exact hc
  intro sz
  have hsz : 1 ≤ sz := (Nat.le_div_iff_mul_le (by omega)).mpr (by omega)
  have hmul : sz * count.toNat ≤ seedTo.toNat - seedFrom.toNat :=
    Nat.div_mul_le_self _ _
  have hsucc : (genId.toNat + 1) * sz ≤ sz * count.toNat := by
    rw [Nat.mul_comm]; exact Nat.mul_le_mul_left _ (by omega)
  have hexp : (genId.toNat + 1) * sz = genId.toNat * sz + sz := Nat.succ_mul _ _
  have hst : (loadgenSeedRange seedFrom seedTo count genId).1.toNat =
      seedFrom.toNat + genId.toNat * sz := by
    unfold loadgenSeedRange
    simp only
    rw [UInt64.toNat_add, UInt64.toNat_mul, UInt64.toNat_div, ht]
    show (seedFrom.toNat + genId.toNat * sz % 2 ^ 64) % 2 ^ 64 = _
    rw [Nat.mod_eq_of_lt (a := genId.toNat * sz) (by omega)]
    omega
  have hen : (loadgenSeedRange seedFrom seedTo count genId).2 =
      (loadgenSeedRange seedFrom seedTo count genId).1 +
        (seedTo - seedFrom) / count - 1 := rfl
  refine ⟨hsz, hmul, hsucc, hst, ?_⟩
  rw [hen, UInt64.toNat_sub, UInt64.toNat_add, hst, UInt64.toNat_div, ht]
  show (2 ^ 64 - 1 + (_ + sz) % 2 ^ 64) % 2 ^ 64 + 1 = _
  rw [Nat.mod_eq_of_lt (a := seedFrom.toNat + genId.toNat * sz + sz) (by omega)]
  omega

/-- The seeds of a range, both ends included. -/
def Within (range : UInt64 × UInt64) (s : UInt64) : Prop :=
  range.1 ≤ s ∧ s ≤ range.2

/-- **C36, in part** (for no more generators than seeds, see `C36_too_many_violated`). The range of a generator is not empty and lies inside the configured
seeds, which run from `seedFrom` up to but not including `seedTo`. -/
theorem C36_within_partial (seedFrom seedTo count genId : UInt64)
    (hle : seedFrom ≤ seedTo) (hg : genId < count)
    (hc : count ≤ seedTo - seedFrom) :
    (∃ s, Within (loadgenSeedRange seedFrom seedTo count genId) s) ∧
    ∀ s, Within (loadgenSeedRange seedFrom seedTo count genId) s →
      seedFrom ≤ s ∧ s < seedTo := by
  obtain ⟨h1, h2, h3, h4, h5⟩ := range_nat seedFrom seedTo count genId hle hg hc
  have hexp := Nat.succ_mul genId.toNat
    ((seedTo.toNat - seedFrom.toNat) / count.toNat)
  refine ⟨⟨_, UInt64.le_refl _, ?_⟩, ?_⟩
  · rw [UInt64.le_iff_toNat_le]
    simp only [Nat.succ_eq_add_one] at hexp
    omega
  · intro s ⟨ha, hb⟩
    rw [UInt64.le_iff_toNat_le] at ha hb ⊢
    rw [UInt64.lt_iff_toNat_lt]
    have hle' : seedFrom.toNat ≤ seedTo.toNat := hle
    omega

/-- **C36, in part** (for no more generators than seeds, see `C36_too_many_violated`). The next generator's range starts right after this one's, and the
first one starts at `seedFrom`. -/
theorem C36_contiguous_partial (seedFrom seedTo count genId : UInt64)
    (hle : seedFrom ≤ seedTo) (hg : genId.toNat + 1 < count.toNat)
    (hc : count ≤ seedTo - seedFrom) :
    (loadgenSeedRange seedFrom seedTo count 0).1 = seedFrom ∧
    (loadgenSeedRange seedFrom seedTo count (genId + 1)).1.toNat =
      (loadgenSeedRange seedFrom seedTo count genId).2.toNat + 1 := by
  have hg1 : (genId + 1).toNat = genId.toNat + 1 := by
    rw [UInt64.toNat_add]
    have := count.toNat_lt
    show (_ + 1) % _ = _
    omega
  obtain ⟨-, -, -, -, h5⟩ := range_nat seedFrom seedTo count genId hle
    (by rw [UInt64.lt_iff_toNat_lt]; omega) hc
  obtain ⟨-, -, -, h6, -⟩ := range_nat seedFrom seedTo count (genId + 1) hle
    (by rw [UInt64.lt_iff_toNat_lt]; omega) hc
  rw [hg1] at h6
  refine ⟨?_, by omega⟩
  show seedFrom + 0 * _ = seedFrom
  simp

/-- **C36, in part** (for no more generators than seeds, see `C36_too_many_violated`). No seed is in the ranges of two generators. -/
theorem C36_disjoint_partial (seedFrom seedTo count i j s : UInt64)
    (hle : seedFrom ≤ seedTo) (hi : i < count) (hj : j < count)
    (hc : count ≤ seedTo - seedFrom)
    (h1 : Within (loadgenSeedRange seedFrom seedTo count i) s)
    (h2 : Within (loadgenSeedRange seedFrom seedTo count j) s) : i = j := by
  obtain ⟨_, _, _, a4, a5⟩ := range_nat seedFrom seedTo count i hle hi hc
  obtain ⟨_, _, _, b4, b5⟩ := range_nat seedFrom seedTo count j hle hj hc
  obtain ⟨ha, hb⟩ := h1
  obtain ⟨hx, hy⟩ := h2
  rw [UInt64.le_iff_toNat_le] at ha hb hx hy
  rw [← UInt64.toNat_inj]
  apply Nat.le_antisymm
  · apply Nat.le_of_not_lt
    intro hlt
    have := Nat.mul_le_mul_right
      ((seedTo.toNat - seedFrom.toNat) / count.toNat) (Nat.succ_le_of_lt hlt)
    simp only [Nat.succ_eq_add_one] at this
    omega
  · apply Nat.le_of_not_lt
    intro hlt
    have := Nat.mul_le_mul_right
      ((seedTo.toNat - seedFrom.toNat) / count.toNat) (Nat.succ_le_of_lt hlt)
    simp only [Nat.succ_eq_add_one] at this
    omega

/-- **C36, in part** (for no more generators than seeds, see `C36_too_many_violated`). The ranges cover all configured seeds except fewer than `count` of
them at the top. -/
theorem C36_cover_partial (seedFrom seedTo count s : UInt64) (hle : seedFrom ≤ seedTo)
    (h0 : 0 < count) (hc : count ≤ seedTo - seedFrom) (hs : seedFrom ≤ s)
    (hs2 : s.toNat + count.toNat ≤ seedTo.toNat) :
    ∃ i, i < count ∧ Within (loadgenSeedRange seedFrom seedTo count i) s := by
  have h1 := seedFrom.toNat_lt
  have h2 := seedTo.toNat_lt
  have hle' : seedFrom.toNat ≤ seedTo.toNat := hle
  have h0' : 0 < count.toNat := h0
  have hs' : seedFrom.toNat ≤ s.toNat := hs
  obtain ⟨hsz, _, _, _, _⟩ := range_nat seedFrom seedTo count 0 hle h0 hc
  generalize hz : (seedTo.toNat - seedFrom.toNat) / count.toNat = sz at hsz
  have hdm := Nat.div_add_mod (seedTo.toNat - seedFrom.toNat) count.toNat
  have hml := Nat.mod_lt (seedTo.toNat - seedFrom.toNat) h0'
  rw [hz] at hdm
  -- the generator
  have hq := Nat.div_add_mod (s.toNat - seedFrom.toNat) sz
  have hr := Nat.mod_lt (s.toNat - seedFrom.toNat) (y := sz) (by omega)
  generalize hqq : (s.toNat - seedFrom.toNat) / sz = q at hq
  have hqc : q < count.toNat := by
    apply Nat.lt_of_mul_lt_mul_left (a := sz)
    rw [Nat.mul_comm sz count.toNat]
    omega
  have hqn : (UInt64.ofNat q).toNat = q := by
    rw [UInt64.toNat_ofNat']
    apply Nat.mod_eq_of_lt
    have := count.toNat_lt
    omega
  have hqi : UInt64.ofNat q < count := by
    rw [UInt64.lt_iff_toNat_lt, hqn]; exact hqc
  refine ⟨UInt64.ofNat q, hqi, ?_⟩
  obtain ⟨_, _, _, h4, h5⟩ := range_nat seedFrom seedTo count _ hle hqi hc
  rw [hz, hqn] at h4 h5
  have e := Nat.succ_mul q sz
  simp only [Nat.succ_eq_add_one] at e
  rw [Nat.mul_comm sz q] at hq
  constructor
  · rw [UInt64.le_iff_toNat_le]; omega
  · rw [UInt64.le_iff_toNat_le]; omega

/-- **C36, counterexample.** With more generators than seeds the range computed
is not inside the configured one: every generator is told to use the whole
`size_t` range, and the wallet then counts 2^64 - 1 coins. -/
theorem C36_too_many_violated :
    ∃ seedFrom seedTo count : UInt64, seedFrom < seedTo ∧
      (∀ i, i < count → loadgenSeedRange seedFrom seedTo count i =
        (seedFrom, seedFrom - 1)) ∧
      ∀ i s, i < count → s ≠ seedFrom - 1 →
        walletSeed (loadgenSeedRange seedFrom seedTo count i) s := by
  have h : ∀ i : UInt64, loadgenSeedRange 0 2 3 i = (0, 0 - 1) := by
    intro i
    unfold loadgenSeedRange
    simp
  refine ⟨0, 2, 3, by decide, fun i _ => h i, ?_⟩
  intro i s _ hs
  rw [h]
  unfold walletSeed
  simp only [decide_eq_true_eq]
  rw [UInt64.lt_iff_toNat_lt]
  have : s.toNat ≠ (0 - 1 : UInt64).toNat := fun e => hs (UInt64.toNat_inj.mp e)
  have hl := s.toNat_lt
  have e1 : (0 - 1 - 0 : UInt64).toNat = 18446744073709551615 := by decide
  have e2 : (0 - 1 : UInt64).toNat = 18446744073709551615 := by decide
  simp only [UInt64.sub_zero] at e1 ⊢
  rw [e1]
  omega

/-! ### Shard ranges -/

/-- Ranges that start at `start`, end at 255 and follow each other without gap
or overlap. -/
def Tiles : Nat → List Range → Prop
  | start, [] => start = 256
  | start, r :: rest =>
    r.1.toNat = start ∧ r.1 ≤ r.2 ∧ Tiles (r.2.toNat + 1) rest

/-- **C36.** A shard owns an id exactly if the first byte of the id is within
the bounds. -/
theorem C36_owner (r : Range) (b : UInt8) :
    inShardRange r b = true ↔ r.1 ≤ b ∧ b ≤ r.2 := by
  simp [inShardRange]

theorem tiles_owner (rs : List Range) (start : Nat) (h : Tiles start rs)
    (b : UInt8) (hb : start ≤ b.toNat) :
    ∃ i : Nat, (∃ r, rs[i]? = some r ∧ inShardRange r b = true) ∧
      ∀ (j : Nat) (r : Range), rs[j]? = some r → inShardRange r b = true →
        j = i := by
  induction rs generalizing start with
  | nil =>
    have := b.toNat_lt
    have h' : start = 256 := h
    omega
  | cons r rest ih =>
    obtain ⟨h1, h2, h3⟩ := h
    have h2' : r.1.toNat ≤ r.2.toNat := h2
    have after : ∀ (rs : List Range) (n : Nat), Tiles n rs →
        ∀ (j : Nat) (r' : Range), rs[j]? = some r' → n ≤ r'.1.toNat := by
      intro rs
      induction rs with
      | nil => intro n _ j r' hj; simp at hj
      | cons x xs ihx =>
        intro n ⟨t1, t2, t3⟩ j r' hj
        have t2' : x.1.toNat ≤ x.2.toNat := t2
        cases j with
        | zero =>
          simp only [List.getElem?_cons_zero, Option.some.injEq] at hj
          subst hj
          omega
        | succ j =>
          have := ihx _ t3 j r' (by simpa using hj)
          omega
    by_cases hin : b.toNat ≤ r.2.toNat
    · refine ⟨0, ⟨r, rfl, ?_⟩, ?_⟩
      · rw [C36_owner]
        exact ⟨by rw [UInt8.le_iff_toNat_le]; omega,
          by rw [UInt8.le_iff_toNat_le]; omega⟩
      · intro j r' hj hr'
        cases j with
        | zero => rfl
        | succ j =>
          have := after rest _ h3 j r' (by simpa using hj)
          rw [C36_owner, UInt8.le_iff_toNat_le] at hr'
          omega
    · obtain ⟨i, hi, hu⟩ := ih _ h3 (by omega)
      refine ⟨i + 1, by simpa using hi, ?_⟩
      intro j r' hj hr'
      cases j with
      | zero =>
        simp only [List.getElem?_cons_zero, Option.some.injEq] at hj
        subst hj
        rw [C36_owner, UInt8.le_iff_toNat_le, UInt8.le_iff_toNat_le] at hr'
        omega
      | succ j =>
        have := hu j r' (by simpa using hj) hr'
        omega

/-- **C36.** If the ranges follow each other and cover 0 to 255, every id is
owned by exactly one shard. -/
theorem C36_partition (rs : List Range) (h : Tiles 0 rs) (b : UInt8) :
    ∃ i : Nat, (∃ r, rs[i]? = some r ∧ inShardRange r b = true) ∧
      ∀ (j : Nat) (r : Range), rs[j]? = some r → inShardRange r b = true →
        j = i :=
  tiles_owner rs 0 h b (by omega)

/-- **C36, counterexample.** The configuration check does not look at the
ranges: it accepts a configuration in which one id has no shard and another has
two, and a range start of 256 becomes 0. -/
theorem C36_unchecked_violated :
    (∃ o : Options, checkOptions o = none ∧
      (∃ b, ∀ r ∈ o.ranges, inShardRange r b = false) ∧
      ∃ b r r', r ≠ r' ∧ r ∈ o.ranges ∧ r' ∈ o.ranges ∧
        inShardRange r b = true ∧ inShardRange r' b = true) ∧
    readRange 256 300 = (0, 44) := by
  refine ⟨⟨⟨true, 1, 1, 1, 2, 1, 0, 0, 0, 0, 0, 0, 0,
    [(0, 100), (90, 200)]⟩, by decide, ⟨201, by decide⟩,
    ⟨95, (0, 100), (90, 200), by decide⟩⟩, by decide⟩

/-! ### The check of the options -/

/-- What a system needs in order to start: the components of its mode. -/
structure Startable (o : Options) : Prop where
  sentinels : o.twophase = true → 1 ≤ o.sentinels
  lockingShards : o.twophase = true → 1 ≤ o.lockingShards
  coordinators : o.twophase = true → 1 ≤ o.coordinators
  watchtowers : o.twophase = false → 1 ≤ o.watchtowers
  archivers : o.twophase = false → 1 ≤ o.archivers
  atomizers : o.twophase = false → 1 ≤ o.atomizers
  shards : o.twophase = false → 1 ≤ o.sentinels → 1 ≤ o.shards

theorem check_iff (o : Options) : checkOptions o = none ↔
    (o.twophase = true → o.sentinels ≠ 0 ∧ ¬ o.sentinels < o.threshold ∧ o.lockingShards ≠ 0 ∧
      o.coordinators ≠ 0) ∧
    (o.twophase = false → o.watchtowers ≠ 0 ∧ o.archivers ≠ 0 ∧ ¬ (o.shards = 0 ∧ o.sentinels ≠ 0) ∧
      o.atomizers ≠ 0) ∧
    ¬ (o.seedFrom ≠ o.seedTo ∧ o.seedFrom > o.seedTo) ∧ ¬ (o.seedFrom ≠ o.seedTo ∧ o.seedValue = 0) ∧
    ¬ o.sentinelKeys < o.threshold := by
  unfold checkOptions
  have ite : ∀ (p : Prop) [Decidable p] (n : Nat) (x : Option Nat),
      (if p then some n else x) = none ↔ ¬ p ∧ x = none := by
    intro p _ n x
    by_cases h : p <;> simp [h]
  cases o.twophase with
  | true => simp only [if_true, Option.or_eq_none_iff, ite, and_true, true_implies, Bool.true_eq_false, false_implies, true_and]
  | false =>
    simp only [Bool.false_eq_true, if_false, Option.or_eq_none_iff, ite, and_true, true_implies, false_implies, true_and]

/-- **C84.** Accepted options have the components of their mode, a seed range in order,
coins of a value if any are to be made, and as many keys as attestations are required. -/
theorem C84_accepted (o : Options) (h : checkOptions o = none) :
    Startable o ∧ o.seedFrom ≤ o.seedTo ∧ (o.seedFrom < o.seedTo → o.seedValue ≠ 0) ∧
    o.threshold ≤ o.sentinelKeys := by
  rw [check_iff] at h
  obtain ⟨h1, h2, h3, h4, h5⟩ := h
  refine ⟨⟨fun t => ?_, fun t => ?_, fun t => ?_, fun t => ?_, fun t => ?_, fun t => ?_, fun t u => ?_⟩, ?_, ?_, by omega⟩
  · have := h1 t; omega
  · have := h1 t; omega
  · have := h1 t; omega
  · have := h2 t; omega
  · have := h2 t; omega
  · have := h2 t; omega
  · have := h2 t; omega
  · apply Classical.byContradiction
    intro h
    have h := UInt64.not_le.mp h
    exact h3 ⟨fun e => UInt64.lt_irrefl _ (e ▸ h), h⟩
  · intro h e
    exact h4 ⟨fun e => UInt64.lt_irrefl _ (e ▸ h), e⟩

/-- **C84.** Nothing else is required: options with the components of their mode, enough
sentinels and keys and a seed range in order are accepted. -/
theorem C84_complete (o : Options) (h : Startable o) (hs : o.seedFrom ≤ o.seedTo)
    (hv : o.seedFrom < o.seedTo → o.seedValue ≠ 0) (hk : o.threshold ≤ o.sentinelKeys)
    (ht : o.threshold ≤ o.sentinels) : checkOptions o = none := by
  rw [check_iff]
  refine ⟨fun t => ⟨?_, by omega, ?_, ?_⟩, fun t => ⟨?_, ?_, ?_, ?_⟩, ?_, ?_, by omega⟩
  · have := h.sentinels t; omega
  · have := h.lockingShards t; omega
  · have := h.coordinators t; omega
  · have := h.watchtowers t; omega
  · have := h.archivers t; omega
  · have := h.shards t; omega
  · have := h.atomizers t; omega
  · exact fun x => UInt64.not_lt.mpr hs x.2
  · rintro ⟨x, y⟩
    refine hv ?_ y
    rw [UInt64.lt_iff_toNat_lt]
    rw [UInt64.le_iff_toNat_le] at hs
    have : o.seedFrom.toNat ≠ o.seedTo.toNat := fun e => x (UInt64.toNat_inj.mp e)
    omega

/-- **C84, in part**: in two-phase mode there are enough sentinels to make the attestations
which are required.  Missing: the other mode (`C84_threshold_violated`). -/
theorem C84_threshold_partial (o : Options) (h : checkOptions o = none) (h2 : o.twophase = true) :
    o.threshold ≤ o.sentinels :=
  Nat.not_lt.mp (((check_iff o).mp h).1 h2).2.1

/-- **C84 is violated**: in the mode with atomizers more attestations can be required than
there are sentinels; no transaction can ever be confirmed. -/
theorem C84_threshold_violated :
    ∃ o : Options, checkOptions o = none ∧ 1 ≤ o.sentinels ∧ o.sentinels < o.threshold :=
  ⟨⟨false, 1, 3, 3, 0, 0, 1, 1, 1, 1, 0, 0, 0, []⟩, by decide, by decide, by decide⟩

/-- The hypotheses are met by a configuration of each mode. -/
example : checkOptions ⟨true, 2, 2, 2, 1, 1, 0, 0, 0, 0, 5, 9, 10, []⟩ = none ∧
    checkOptions ⟨false, 2, 2, 2, 0, 0, 1, 1, 1, 1, 5, 9, 10, []⟩ = none := by decide

/-! ### Seeded coins -/

theorem seederRange_nat (n idx : UInt64) (h0 : 0 < n) (hn : n ≤ 256)
    (hi : idx < n) :
    (seederRange n idx).1.toNat = idx.toNat * (256 / n.toNat) ∧
    (seederRange n idx).2.toNat =
      if idx.toNat + 1 = n.toNat then 255
      else (idx.toNat + 1) * (256 / n.toNat) - 1 := by
  rw [UInt64.lt_iff_toNat_lt] at h0 hi
  rw [UInt64.le_iff_toNat_le] at hn
  have h256 : (256 : UInt64).toNat = 256 := rfl
  have hz : (0 : UInt64).toNat = 0 := rfl
  rw [h256] at hn
  rw [hz] at h0
  have hw : 1 ≤ 256 / n.toNat := (Nat.le_div_iff_mul_le h0).mpr (by omega)
  have hw2 : 256 / n.toNat ≤ 256 := Nat.div_le_self _ _
  have hb : (idx.toNat + 1) * (256 / n.toNat) ≤ 256 := by
    have h1 : (idx.toNat + 1) * (256 / n.toNat) ≤ n.toNat * (256 / n.toNat) :=
      Nat.mul_le_mul_right _ (by omega)
    have h2 := Nat.div_mul_le_self 256 n.toNat
    rw [Nat.mul_comm] at h2
    omega
  have hexp := Nat.succ_mul idx.toNat (256 / n.toNat)
  simp only [Nat.succ_eq_add_one] at hexp
  constructor
  · show (idx * (256 / n)).toNat = _
    rw [UInt64.toNat_mul, UInt64.toNat_div, h256]
    omega
  · have e : (idx = n - 1) ↔ idx.toNat + 1 = n.toNat := by
      rw [← UInt64.toNat_inj, UInt64.toNat_sub]
      have h1 : (1 : UInt64).toNat = 1 := rfl
      rw [h1]
      have := n.toNat_lt
      omega
    unfold seederRange
    simp only [e]
    split
    · rfl
    · rw [UInt64.toNat_sub, UInt64.toNat_mul, UInt64.toNat_add, UInt64.toNat_div,
        h256]
      have h1 : (1 : UInt64).toNat = 1 := rfl
      rw [h1]
      have : (idx.toNat + 1) % 2 ^ 64 = idx.toNat + 1 := by omega
      rw [this]
      omega

theorem seederPuts_iff (n idx : UInt64) (h0 : 0 < n) (hn : n ≤ 256)
    (hi : idx < n) (b : UInt8) :
    seederPuts n idx b = true ↔
      idx.toNat * (256 / n.toNat) ≤ b.toNat ∧
      (idx.toNat + 1 = n.toNat ∨ b.toNat < (idx.toNat + 1) * (256 / n.toNat)) := by
  obtain ⟨h1, h2⟩ := seederRange_nat n idx h0 hn hi
  unfold seederPuts
  simp only [Bool.and_eq_true, decide_eq_true_eq, ge_iff_le,
    UInt64.le_iff_toNat_le, UInt8.toNat_toUInt64, h1, h2]
  have hb := b.toNat_lt
  rw [UInt64.lt_iff_toNat_lt] at h0 hi
  rw [UInt64.le_iff_toNat_le] at hn
  have h256 : (256 : UInt64).toNat = 256 := rfl
  rw [h256] at hn
  have hw : 1 ≤ 256 / n.toNat := (Nat.le_div_iff_mul_le h0).mpr (by omega)
  have hexp := Nat.succ_mul idx.toNat (256 / n.toNat)
  simp only [Nat.succ_eq_add_one] at hexp
  split <;> omega

/-- **C73.** The seeder puts each coin into the files of exactly one shard. -/
theorem C73_placed_once (n : UInt64) (h0 : 0 < n) (hn : n ≤ 256) (b : UInt8) :
    ∃ i, i < n ∧ seederPuts n i b = true ∧
      ∀ j, j < n → seederPuts n j b = true → j = i := by
  have h0' : 0 < n.toNat := h0
  have hn' : n.toNat ≤ 256 := hn
  have hw : 1 ≤ 256 / n.toNat := (Nat.le_div_iff_mul_le h0').mpr (by omega)
  have hb := b.toNat_lt
  generalize hww : 256 / n.toNat = w at hw
  have hq := Nat.div_add_mod b.toNat w
  have hr := Nat.mod_lt b.toNat (y := w) (by omega)
  generalize b.toNat / w = q at hq
  let k := min q (n.toNat - 1)
  have hk : k < n.toNat := by omega
  have hkn : (UInt64.ofNat k).toNat = k := by
    rw [UInt64.toNat_ofNat']
    omega
  have hki : UInt64.ofNat k < n := by
    rw [UInt64.lt_iff_toNat_lt, hkn]; exact hk
  have hkq : k * w ≤ w * q := by
    rw [Nat.mul_comm w q]
    exact Nat.mul_le_mul_right _ (by omega)
  have e := Nat.succ_mul k w
  have eq := Nat.succ_mul q w
  simp only [Nat.succ_eq_add_one] at e eq
  rw [Nat.mul_comm w q] at hq hkq
  have hput : k * w ≤ b.toNat ∧ (k + 1 = n.toNat ∨ b.toNat < (k + 1) * w) := by
    refine ⟨by omega, ?_⟩
    by_cases h : k = q
    · right; rw [h]; omega
    · left; omega
  refine ⟨UInt64.ofNat k, hki, ?_, ?_⟩
  · rw [seederPuts_iff n _ h0 hn hki, hkn, hww]
    exact hput
  · intro j hj hjb
    rw [seederPuts_iff n j h0 hn hj, hww] at hjb
    have hj' : j.toNat < n.toNat := hj
    rw [← UInt64.toNat_inj, hkn]
    apply Nat.le_antisymm
    · apply Nat.le_of_not_lt
      intro hlt
      have := Nat.mul_le_mul_right w (Nat.succ_le_of_lt hlt)
      simp only [Nat.succ_eq_add_one] at this
      omega
    · apply Nat.le_of_not_lt
      intro hlt
      have := Nat.mul_le_mul_right w (Nat.succ_le_of_lt hlt)
      simp only [Nat.succ_eq_add_one] at this
      omega

/-- The even split of the 256 first bytes over `n` shards. -/
def EvenSplit (n : UInt64) (rs : List Range) : Prop :=
  rs.length = n.toNat ∧ ∀ (i : Nat) (r : Range), rs[i]? = some r →
    r.1.toNat = (seederRange n (UInt64.ofNat i)).1.toNat ∧
    r.2.toNat = (seederRange n (UInt64.ofNat i)).2.toNat

/-- **C73, under the assumption that the configured ranges are the even split.**
A coin is put into the files of a shard exactly if that shard owns it. -/
theorem C73_placement_partial (n : UInt64) (rs : List Range) (h : EvenSplit n rs)
    (i : Nat) (r : Range) (hr : rs[i]? = some r) (b : UInt8) :
    seederPuts n (UInt64.ofNat i) b = inShardRange r b := by
  obtain ⟨h1, h2⟩ := h.2 i r hr
  unfold seederPuts inShardRange
  simp only [ge_iff_le, UInt64.le_iff_toNat_le, UInt8.le_iff_toNat_le,
    UInt8.toNat_toUInt64, h1, h2]

/-- **C73, under the assumption that the seeds are numbered from 0.**  Every
seeded coin that a load generator spends has been made, and no other generator
spends it. -/
theorem C73_spendable_partial (seedTo count i s : UInt64) (hi : i < count)
    (hc : count ≤ seedTo)
    (h : walletSeed (loadgenSeedRange 0 seedTo count i) s = true) :
    seeded 0 seedTo s = true ∧
    ∀ j, j < count → walletSeed (loadgenSeedRange 0 seedTo count j) s = true →
      j = i := by
  have hle : (0 : UInt64) ≤ seedTo := by
    rw [UInt64.le_iff_toNat_le]; exact Nat.zero_le _
  have hc' : count ≤ seedTo - 0 := by simpa using hc
  have key : ∀ k, k < count →
      walletSeed (loadgenSeedRange 0 seedTo count k) s = true →
      Within (loadgenSeedRange 0 seedTo count k) s := by
    intro k hk hw
    obtain ⟨a1, a2, a3, a4, a5⟩ := range_nat 0 seedTo count k hle hk hc'
    unfold walletSeed at hw
    simp only [decide_eq_true_eq, UInt64.lt_iff_toNat_lt, UInt64.toNat_sub] at hw
    have e := Nat.succ_mul k.toNat
      ((seedTo.toNat - (0 : UInt64).toNat) / count.toNat)
    simp only [Nat.succ_eq_add_one] at e
    have hz : (0 : UInt64).toNat = 0 := rfl
    have hs := s.toNat_lt
    have ht := seedTo.toNat_lt
    constructor
    · rw [UInt64.le_iff_toNat_le]; omega
    · rw [UInt64.le_iff_toNat_le]; omega
  have hw := key i hi h
  refine ⟨?_, ?_⟩
  · obtain ⟨_, hin⟩ := C36_within_partial 0 seedTo count i hle hi hc'
    unfold seeded seederCount
    simpa using (hin s hw).2
  · intro j hj hj2
    exact C36_disjoint_partial 0 seedTo count j i s hle hj hi hc' (key j hj hj2) hw

/-- **C73, counterexample.** If the configured seeds do not start at 0, the
generators spend coins that were never made: the seeder numbers its coins from
0 while the generators number theirs from `seedFrom`. -/
theorem C73_offset_violated :
    ∃ seedFrom seedTo count : UInt64, seedFrom < seedTo ∧
      count ≤ seedTo - seedFrom ∧ 0 < count ∧
      ∀ s, walletSeed (loadgenSeedRange seedFrom seedTo count 0) s = true →
        seeded seedFrom seedTo s = false := by
  refine ⟨10, 20, 1, by decide, by decide, by decide, ?_⟩
  intro s h
  have e : loadgenSeedRange 10 20 1 0 = (10, 19) := by decide
  rw [e] at h
  unfold walletSeed at h
  unfold seeded seederCount
  simp only [decide_eq_true_eq, UInt64.lt_iff_toNat_lt, UInt64.toNat_sub] at h
  simp only [decide_eq_false_iff_not, UInt64.lt_iff_toNat_lt, UInt64.toNat_sub]
  have h10 : (10 : UInt64).toNat = 10 := rfl
  have h19 : (19 : UInt64).toNat = 19 := rfl
  have h20 : (20 : UInt64).toNat = 20 := rfl
  have := s.toNat_lt
  omega

/-- **C73, counterexample.** If the configured ranges cover all ids but are not
the even split, the seeder puts coins into the files of a shard that does not
own them. -/
theorem C73_ranges_violated :
    ∃ rs : List Range, Tiles 0 rs ∧ ∃ (b : UInt8) (i : Nat) (r : Range),
      rs[i]? = some r ∧
      seederPuts (UInt64.ofNat rs.length) (UInt64.ofNat i) b = true ∧
      inShardRange r b = false := by
  refine ⟨[(0, 99), (100, 255)],
    ⟨rfl, by decide, rfl, by decide, rfl⟩, 110, 0, (0, 99), rfl, ?_, ?_⟩
  · decide
  · decide

/-- **C73, counterexample.** Each generator leaves the last coin of its range
unspent: the range returned includes both ends, the wallet stops before the
second. -/
theorem C73_last_unspent :
    ∀ s, walletSeed (loadgenSeedRange 0 100 4 0) s = true ↔ s < 24 := by
  intro s
  have e : loadgenSeedRange 0 100 4 0 = (0, 24) := by decide
  rw [e]
  unfold walletSeed
  simp

/-! ### Examples -/

example : [0, 1, 2].map (loadgenSeedRange 5 105 3) =
    [(5, 37), (38, 70), (71, 103)] := by decide
example : Tiles 0 [(0, 84), (85, 169), (170, 255)] := by
  refine ⟨rfl, by decide, rfl, by decide, rfl, by decide, rfl⟩
example : EvenSplit 3 [(0, 84), (85, 169), (170, 255)] := by
  refine ⟨rfl, ?_⟩
  intro i r hr
  match i with
  | 0 => simp at hr; subst hr; decide
  | 1 => simp at hr; subst hr; decide
  | 2 => simp at hr; subst hr; decide
  | n + 3 => simp at hr

end Verif.Config
