import Verif.Catchup.Network

/-! Property C102: a block whose broadcast is lost reaches the archiver all the same. -/
namespace Verif.Catchup

open Verif.Tx Verif.Serial Verif.Atomizer
open Verif.Archiver (Out FitsB)

/-! ### Specification -/

/-- Nothing is under way. -/
def Quiet (s : Net) : Prop := s.flight = [] ∧ s.coming = []

/-- The number of blocks made. -/
def makes (es : List NetEv) : Nat := (es.filter fun e => match e with | .make _ => true | _ => false).length

/-- Messages that arrive: each event takes one that is under way. -/
def Arrivals : Net → List NetEv → Prop
  | _, [] => True
  | s, e :: es =>
    (match e with
      | .serve i => i < s.flight.length
      | .deliver i => i < s.coming.length
      | _ => False) ∧ ∀ s', s.step e = some s' → Arrivals s' es

/-- A bound on the arrivals that can follow one after another. -/
def work (s : Net) : Nat :=
  (s.coming.map fun b => 3 * b.height.toNat).sum +
  (s.flight.map fun o => match o with | .request h => 3 * h.toNat + 1 | .prune _ => 1).sum +
  2 * (s.made.length - s.arch.best.toNat)

/-! ### Proofs -/

/-- The weight of messages to the atomizer. -/
def weight (l : List Out) : Nat :=
  (l.map fun o => match o with | .request h => 3 * h.toNat + 1 | .prune _ => 1).sum

theorem weight_append (a b : List Out) : weight (a ++ b) = weight a + weight b := by simp [weight]

/-- What the archiver sends for one block weighs less than the block. -/
theorem digest_weight (n fuel : Nat) : ∀ (s : Archiver.State) (b : Block) (s' : Archiver.State) (o : List Out),
    Archiver.readBest s.db = some s.best → (∀ p ∈ s.deferred, p.2.height = p.1 ∧ s.best.toNat < p.1.toNat) →
    Archiver.digest fuel s b = some (s', o) → b.height.toNat ≠ 0 → s'.best.toNat ≤ n → weight o + 2 * (n - s'.best.toNat) + 1 ≤ 3 * b.height.toNat + 2 * (n - s.best.toNat) ∧
      (s.best.toNat < s'.best.toNat → weight o + (n - s'.best.toNat) ≤ n - s.best.toNat) ∧
      s.best.toNat ≤ s'.best.toNat ∧ (b.height.toNat = s.best.toNat + 1 → s.best.toNat < s'.best.toNat) := by
  induction fuel with
  | zero => intro s b s' o _ _ h; simp [Archiver.digest] at h
  | succ fuel ih =>
    intro s b s' o hr hheld h h0 hn
    unfold Archiver.digest at h
    simp only [Archiver.effective_best hr] at h
    by_cases h1 : b.height ≤ s.best
    · rw [if_pos h1] at h
      simp at h
      obtain ⟨rfl, rfl⟩ := h
      refine ⟨?_, ?_, Nat.le_refl _, ?_⟩
      · simp [weight]; omega
      · intro hlt; exact absurd hlt (Nat.lt_irrefl _)
      · intro he
        have : b.height.toNat ≤ s.best.toNat := h1
        omega
    · rw [if_neg h1] at h
      have h1' : s.best.toNat < b.height.toNat :=
        Nat.lt_of_not_le fun hc => h1 (UInt64.le_iff_toNat_le.mpr hc)
      have hlt := b.height.toNat_lt
      have hbest : (s.best + 1).toNat = s.best.toNat + 1 := by
        rw [UInt64.toNat_add]
        simp
        omega
      by_cases h2 : b.height ≠ s.best + 1
      · rw [if_pos h2] at h
        simp only [Option.some.injEq, Prod.mk.injEq] at h
        obtain ⟨rfl, rfl⟩ := h
        refine ⟨?_, ?_, Nat.le_refl _, ?_⟩
        · have hp : (b.height - 1).toNat = b.height.toNat - 1 := by
            rw [UInt64.toNat_sub_of_le _ _ (UInt64.le_iff_toNat_le.mpr (by simp; omega))]
            simp
          split
          · simp [weight]; omega
          · simp [weight, hp]; omega
        · intro hlt; exact absurd hlt (Nat.lt_irrefl _)
        · intro he
          exact absurd (UInt64.toNat_inj.mp (by omega)) h2
      · rw [if_neg h2] at h
        have h2 := Classical.not_not.mp h2
        split at h
        · simp only [Option.some.injEq, Prod.mk.injEq] at h
          obtain ⟨rfl, rfl⟩ := h
          simp only [hbest] at hn ⊢
          refine ⟨?_, ?_, ?_, ?_⟩
          · simp [weight]; omega
          · intro _; simp [weight]; omega
          · omega
          · intro _; omega
        · split at h
          · simp at h
          · rename_i b' hb' _ s2 o2 hd
            simp only [Option.some.injEq, Prod.mk.injEq] at h
            obtain ⟨rfl, rfl⟩ := h
            have hm := Archiver.held_some hb'
            obtain ⟨hh, hgt⟩ := hheld _ hm
            simp only at hh hgt
            have hlt2 := b'.height.toNat_lt
            have hb1 : b.height.toNat = s.best.toNat + 1 := by rw [h2, hbest]
            have hb2 : b'.height.toNat = s.best.toNat + 2 := by
              rw [hh]
              rw [UInt64.toNat_add] at hgt ⊢
              simp at hgt ⊢
              omega
            obtain ⟨_, j2, j3, j4⟩ := ih _ _ _ _ (by simp [Archiver.readBest, Archiver.put, h2]) (by
              intro p hp
              obtain ⟨hp1, hp2⟩ := List.mem_filter.mp hp
              obtain ⟨k1, k2⟩ := hheld p hp1
              refine ⟨k1, ?_⟩
              simp only [hbest]
              have : p.1.toNat ≠ b.height.toNat := by
                intro hc
                simp [UInt64.toNat_inj.mp hc] at hp2
              omega) hd (by omega) hn
            simp only [hbest] at j2 j3 j4
            have j4 := j4 (by omega)
            have j2 := j2 j4
            have hw : weight (.prune (s.best + 1) :: o2) = 1 + weight o2 := by simp [weight]
            rw [hw]
            exact ⟨by omega, fun _ => by omega, by omega, fun _ => by omega⟩

/-- What always holds. `cut` is the greatest height pruned. -/
structure NetInv (cut : Nat) (s : Net) : Prop where
  heights : ∀ (i : Nat) (b : Block), s.made[i]? = some b → b.height.toNat = i + 1
  best : s.sm.atm.best.toNat = s.made.length
  kept : Stored s.sm (s.made.filter fun b => decide (cut ≤ b.height.toNat))
  arch : Archiver.Inv (fun b => b ∈ s.made) s.arch
  settled : Archiver.Settled s.arch
  coming : ∀ b ∈ s.coming, b ∈ s.made
  cutLe : cut ≤ s.arch.best.toNat
  prunes : ∀ h, Out.prune h ∈ s.flight → h.toNat ≤ s.arch.best.toNat
  asked : ∀ p ∈ s.arch.deferred, (∃ q ∈ s.arch.deferred, q.1.toNat + 1 = p.1.toNat) ∨
    Out.request (p.1 - 1) ∈ s.flight ∨ ∃ b ∈ s.coming, b.height.toNat + 1 = p.1.toNat
  told : ∀ b ∈ s.told, s.arch.best.toNat < b.height.toNat → ∃ p ∈ s.arch.deferred, p.1 = b.height

theorem made_mem {s : Net} {cut : Nat} (hi : NetInv cut s) {b : Block} (hb : b ∈ s.made) :
    1 ≤ b.height.toNat ∧ b.height.toNat ≤ s.made.length ∧ s.made[b.height.toNat - 1]? = some b := by
  obtain ⟨i, hi1⟩ := List.getElem?_of_mem hb
  have h1 := hi.heights i b hi1
  have h2 : i < s.made.length := (List.getElem?_eq_some_iff.mp hi1).1
  refine ⟨by omega, by omega, ?_⟩
  rw [h1]
  exact hi1

/-- The archiver is never ahead of the atomizer. -/
theorem arch_le {s : Net} {cut : Nat} (hi : NetInv cut s) : s.arch.best.toNat ≤ s.made.length := by
  by_cases h0 : s.arch.best.toNat = 0
  · omega
  · obtain ⟨b, _, h2, h3⟩ := hi.arch.stored s.arch.best (by omega) (Nat.le_refl _)
    have := (made_mem hi h3).2.1
    rw [h2] at this
    exact this

/-- A block that is not pruned is found. -/
theorem get_kept {s : Net} {cut : Nat} (hi : NetInv cut s) (h : UInt64) :
    s.sm.commit (.getBlock h) = some (s.sm,
      ((s.made.filter fun b => decide (cut ≤ b.height.toNat)).find? fun b => b.height == h).map Resp.block) := by
  simp only [SM.commit, hi.kept.same, List.find?_map]
  congr 2
  rw [Option.map_map]
  rfl

theorem find_kept {s : Net} {cut : Nat} (hi : NetInv cut s) (h : UInt64) (h1 : cut ≤ h.toNat) (h2 : 1 ≤ h.toNat)
    (h3 : h.toNat ≤ s.made.length) : ∃ b, ((s.made.filter fun b => decide (cut ≤ b.height.toNat)).find?
      fun b => b.height == h) = some b ∧ b ∈ s.made ∧ b.height = h := by
  obtain ⟨b, hb⟩ : ∃ b, s.made[h.toNat - 1]? = some b := ⟨_, List.getElem?_eq_getElem (by omega)⟩
  have hh : b.height = h := UInt64.toNat_inj.mp (by rw [hi.heights _ b hb]; omega)
  have hm : b ∈ s.made := List.mem_of_getElem? hb
  cases hf : ((s.made.filter fun b => decide (cut ≤ b.height.toNat)).find? fun b => b.height == h) with
  | none =>
    rw [List.find?_eq_none] at hf
    exact absurd (hf b (List.mem_filter.mpr ⟨hm, by simp [hh, h1]⟩)) (by simp [hh])
  | some c =>
    have e1 := List.mem_of_find?_eq_some hf
    have e2 := List.find?_some hf
    exact ⟨c, rfl, (List.mem_filter.mp e1).1, by simpa using e2⟩

theorem mem_eraseIdx_or {α : Type} (l : List α) (i : Nat) (x y : α) (hi : l[i]? = some x) (hy : y ∈ l) :
    y = x ∨ y ∈ l.eraseIdx i := by
  induction l generalizing i with
  | nil => simp at hy
  | cons a l ih =>
    cases i with
    | zero =>
      simp at hi
      subst hi
      rcases List.mem_cons.mp hy with rfl | hy
      · exact .inl rfl
      · exact .inr hy
    | succ i =>
      simp only [List.getElem?_cons_succ] at hi
      rcases List.mem_cons.mp hy with rfl | hy
      · exact .inr (by simp)
      · rcases ih i hi hy with h | h
        · exact .inl h
        · exact .inr (by simp [h])

theorem sum_eraseIdx {α : Type} (f : α → Nat) (l : List α) (i : Nat) (x : α) (hi : l[i]? = some x) :
    (l.map f).sum = f x + ((l.eraseIdx i).map f).sum := by
  induction l generalizing i with
  | nil => simp at hi
  | cons a l ih =>
    cases i with
    | zero => simp at hi; subst hi; simp
    | succ i =>
      simp only [List.getElem?_cons_succ] at hi
      have := ih i hi
      simp
      omega

/-- One event keeps the invariant; an arrival leaves less to come. -/
theorem net_step {s s' : Net} {cut : Nat} (hi : NetInv cut s) (e : NetEv)
    (hlt : s.made.length + makes [e] < 2 ^ 64) (hs : s.step e = some s') :
    (∃ cut', NetInv cut' s') ∧ s'.made.length = s.made.length + makes [e] ∧
      s.arch.best.toNat ≤ s'.arch.best.toNat ∧
      (∀ i, (e = .serve i ∧ i < s.flight.length ∨ e = .deliver i ∧ i < s.coming.length) → work s' + 1 ≤ work s) := by
  cases e with
  | notify aggs =>
    simp only [Net.step, Option.map_eq_some_iff] at hs
    obtain ⟨⟨sm, a⟩, h1, rfl⟩ := hs
    have hk := run_stored [.notify aggs] s.sm sm _ [(.notify aggs, a)] hi.kept (by simp [SM.run, h1]) (by
      simp only [SM.commit] at h1
      split at h1
      · cases h1
      · simp only [Option.some.injEq, Prod.mk.injEq] at h1
        obtain ⟨_, rfl⟩ := h1
        have := s.sm.atm.best.toNat_lt
        split <;> simp [madeCount] <;> omega)
    simp only [SM.commit] at h1
    split at h1
    · cases h1
    · rename_i s1 errs hn
      simp only [Option.some.injEq, Prod.mk.injEq] at h1
      obtain ⟨rfl, rfl⟩ := h1
      obtain ⟨e1, e2⟩ := notifyAll_stored _ _ _ _ hn
      refine ⟨⟨cut, ⟨hi.heights, by rw [e2]; exact hi.best, ?_, hi.arch, hi.settled, hi.coming, hi.cutLe, hi.prunes,
        hi.asked, hi.told⟩⟩, by simp [makes], Nat.le_refl _, by simp⟩
      exact ⟨by rw [e1]; exact hi.kept.same, by rw [e2]; exact hi.kept.below⟩
  | make reaches =>
    have hb1 : (s.sm.atm.best + 1).toNat = s.made.length + 1 := by
      rw [UInt64.toNat_add, hi.best]
      simp [makes] at hlt ⊢
      omega
    have hcom : s.sm.commit .makeBlock = some (_, some (.made _ _)) := rfl
    simp only [Net.step, hcom, Option.some.injEq] at hs
    have hk := run_stored [.makeBlock] s.sm _ _ [(.makeBlock, _)] hi.kept (by simp [SM.run, hcom]; exact ⟨rfl, rfl⟩) (by
      have := hi.best
      simp [makes] at hlt
      simp [madeCount]
      omega)
    have hcut : cut ≤ (s.sm.atm.best + 1).toNat := by
      have := arch_le hi
      have := hi.cutLe
      omega
    have hh : s.sm.atm.makeBlock.2.1.height.toNat = s.made.length + 1 := hb1
    subst hs
    refine ⟨⟨cut, ⟨?_, ?_, ?_, ?_, hi.settled, ?_, hi.cutLe, hi.prunes, ?_, hi.told⟩⟩, by simp [makes], Nat.le_refl _,
      by simp⟩
    · intro i b hb
      simp only at hb
      by_cases h1 : i < s.made.length
      · rw [List.getElem?_append_left h1] at hb
        exact hi.heights i b hb
      · rw [List.getElem?_append_right (by omega)] at hb
        have h2 : i - s.made.length = 0 := by
          have := (List.getElem?_eq_some_iff.mp hb).1
          simp at this
          omega
        rw [h2] at hb
        simp at hb
        subst hb
        rw [hh]
        omega
    · simp only [List.length_append, List.length_singleton]
      exact hb1
    · simp only [List.filter_append]
      have hf : [s.sm.atm.makeBlock.2.1].filter (fun b => decide (cut ≤ b.height.toNat)) = [s.sm.atm.makeBlock.2.1] := by
        rw [List.filter_cons_of_pos]
        · rfl
        · simpa [hh, hb1] using hcut
      rw [hf]
      exact hk
    · refine ⟨hi.arch.best, ?_, hi.arch.above, ?_, hi.arch.keys⟩
      · intro h h1 h2
        obtain ⟨b, k1, k2, k3⟩ := hi.arch.stored h h1 h2
        exact ⟨b, k1, k2, by simp [k3]⟩
      · intro p hp
        obtain ⟨k1, k2, k3⟩ := hi.arch.heldOk p hp
        exact ⟨k1, k2, by simp [k3]⟩
    · intro b hb
      simp only at hb ⊢
      split at hb
      · rcases List.mem_append.mp hb with hb | hb
        · simp [hi.coming b hb]
        · simp at hb; simp [hb]
      · simp [hi.coming b hb]
    · intro p hp
      rcases hi.asked p hp with h | h | ⟨b, h, h'⟩
      · exact .inl h
      · exact .inr (.inl h)
      · refine .inr (.inr ⟨b, ?_, h'⟩)
        simp only
        split
        · simp [h]
        · exact h
  | serve i =>
    simp only [Net.step] at hs
    split at hs
    · rename_i hf
      cases hs
      refine ⟨⟨cut, hi⟩, by simp [makes], Nat.le_refl _, ?_⟩
      rintro j (⟨h1, h2⟩ | ⟨h1, _⟩)
      · cases h1
        rw [List.getElem?_eq_none_iff] at hf
        omega
      · cases h1
    · rename_i o hf
      have hsum := sum_eraseIdx (fun o : Out => match o with | .request h => 3 * h.toNat + 1 | .prune _ => 1)
        s.flight i o hf
      have hmem : ∀ x, x ∈ s.flight.eraseIdx i → x ∈ s.flight := fun x hx => List.mem_of_mem_eraseIdx hx
      cases o with
      | prune h =>
        have hph : h.toNat ≤ s.arch.best.toNat := hi.prunes h (List.mem_of_getElem? hf)
        have hk := run_stored [.prune h] s.sm _ _ [(.prune h, none)] hi.kept rfl (by
          have := s.sm.atm.best.toNat_lt
          simp [madeCount]
          omega)
        simp only [Net.serveOne, SM.commit, Option.map_some, Option.some.injEq] at hs
        subst hs
        refine ⟨⟨max cut h.toNat, ⟨hi.heights, hi.best, ?_, hi.arch, hi.settled, hi.coming, ?_, ?_, ?_, hi.told⟩⟩,
          by simp [makes], Nat.le_refl _, ?_⟩
        · have he : s.made.filter (fun b => decide (max cut h.toNat ≤ b.height.toNat)) =
              (s.made.filter fun b => decide (cut ≤ b.height.toNat)).filter fun b => decide (h ≤ b.height) := by
            rw [List.filter_filter]
            apply List.filter_congr
            intro b _
            rw [Bool.eq_iff_iff]
            simp only [decide_eq_true_eq, Bool.and_eq_true, UInt64.le_iff_toNat_le]
            omega
          rw [he]
          exact hk
        · have := hi.cutLe
          simp only
          omega
        · intro h' hh'; exact hi.prunes h' (hmem _ hh')
        · intro p hp
          rcases hi.asked p hp with h' | h' | h'
          · exact .inl h'
          · rcases mem_eraseIdx_or _ _ _ _ hf h' with h'' | h''
            · cases h''
            · exact .inr (.inl h'')
          · exact .inr (.inr h')
        · intro _ _
          simp only [work]
          simp only at hsum
          omega
      | request h =>
        have hg := get_kept hi h
        simp only [Net.serveOne] at hs
        rw [hg] at hs
        cases hfind : ((s.made.filter fun b => decide (cut ≤ b.height.toNat)).find? fun b => b.height == h) with
        | none =>
          rw [hfind] at hs
          simp only [Option.map_none, Option.some.injEq] at hs
          subst hs
          refine ⟨⟨cut, ⟨hi.heights, hi.best, hi.kept, hi.arch, hi.settled, hi.coming, hi.cutLe, ?_, ?_, hi.told⟩⟩,
            by simp [makes], Nat.le_refl _, ?_⟩
          · intro h' hh'; exact hi.prunes h' (hmem _ hh')
          · intro p hp
            rcases hi.asked p hp with h' | h' | h'
            · exact .inl h'
            · rcases mem_eraseIdx_or _ _ _ _ hf h' with h'' | h''
              · -- the block asked for is there
                exfalso
                obtain ⟨k1, k2, k3⟩ := hi.arch.heldOk p hp
                have k4 := hi.settled p hp
                have k5 := made_mem hi k3
                have hz : h.toNat = p.1.toNat - 1 := by
                  cases h''
                  rw [UInt64.toNat_sub_of_le _ _ (UInt64.le_iff_toNat_le.mpr (by simp; omega))]
                  simp
                have k6 := hi.cutLe
                rw [k1] at k5
                obtain ⟨b, k7, _⟩ := find_kept hi h (by omega) (by omega) (by omega)
                rw [hfind] at k7
                cases k7
              · exact .inr (.inl h'')
            · exact .inr (.inr h')
          · intro _ _
            simp only [work]
            simp only at hsum
            omega
        | some b =>
          rw [hfind] at hs
          simp only [Option.map_some, Option.some.injEq] at hs
          subst hs
          have hbm : b ∈ s.made := (List.mem_filter.mp (List.mem_of_find?_eq_some hfind)).1
          have hbh : b.height = h := by simpa using List.find?_some hfind
          refine ⟨⟨cut, ⟨hi.heights, hi.best, hi.kept, hi.arch, hi.settled, ?_, hi.cutLe, ?_, ?_, hi.told⟩⟩,
            by simp [makes], Nat.le_refl _, ?_⟩
          · intro c hc
            rcases List.mem_append.mp hc with hc | hc
            · exact hi.coming c hc
            · rw [List.mem_singleton.mp hc]; exact hbm
          · intro h' hh'; exact hi.prunes h' (hmem _ hh')
          · intro p hp
            rcases hi.asked p hp with h' | h' | ⟨c, h1, h2⟩
            · exact .inl h'
            · rcases mem_eraseIdx_or _ _ _ _ hf h' with h'' | h''
              · refine .inr (.inr ⟨b, by simp, ?_⟩)
                obtain ⟨_, k2, _⟩ := hi.arch.heldOk p hp
                rw [hbh]
                cases h''
                rw [UInt64.toNat_sub_of_le _ _ (UInt64.le_iff_toNat_le.mpr (by simp; omega))]
                simp
                omega
              · exact .inr (.inl h'')
            · exact .inr (.inr ⟨c, by simp [h1], h2⟩)
          · intro _ _
            simp only [work, List.map_append, List.sum_append, List.map_cons, List.map_nil, List.sum_cons, List.sum_nil,
              hbh]
            simp only at hsum
            omega
  | deliver i =>
    simp only [Net.step] at hs
    split at hs
    · rename_i hf
      cases hs
      refine ⟨⟨cut, hi⟩, by simp [makes], Nat.le_refl _, ?_⟩
      rintro j (⟨h1, _⟩ | ⟨h1, h2⟩)
      · cases h1
      · cases h1
        rw [List.getElem?_eq_none_iff] at hf
        omega
    · rename_i b hf
      have hbm : b ∈ s.made := hi.coming b (List.mem_of_getElem? hf)
      have hcnt := Archiver.countAbove_le s.arch b.height
      obtain ⟨a, o, d1, d2, d3, d4, d5, d6, d7, d8⟩ := Archiver.digest_spec (s.arch.deferred.length + 1) s.arch b
        hi.arch hbm (by omega) (fun _ => hi.settled)
      obtain ⟨_, _, p3⟩ := Archiver.digest_prune _ _ _ _ _ hi.arch.best d1
      simp only [Archiver.State.step, d1, Option.map_some, Option.some.injEq] at hs
      subst hs
      have hinv : NetInv cut { s with
          coming := s.coming.eraseIdx i, arch := a, flight := s.flight ++ o, told := s.told ++ [b] } := by
        refine ⟨hi.heights, hi.best, hi.kept, d2, d3, ?_, ?_, ?_, ?_, ?_⟩
        · intro c hc; exact hi.coming c (List.mem_of_mem_eraseIdx hc)
        · have := hi.cutLe
          simp only
          omega
        · intro h hh
          rcases List.mem_append.mp hh with hh | hh
          · have := hi.prunes h hh
            simp only
            omega
          · exact p3 h hh
        · intro p hp
          have hb1 := (d2.heldOk p hp).2.1
          have hset := d3 p hp
          have still : (∃ q ∈ s.arch.deferred, q.1.toNat + 1 = p.1.toNat) →
              ∃ q ∈ a.deferred, q.1.toNat + 1 = p.1.toNat := by
            rintro ⟨q, hq, hqe⟩
            obtain ⟨q', hq', he⟩ := d6 q.1 (by omega) (.inr ⟨q, hq, rfl⟩)
            exact ⟨q', hq', by rw [he]; exact hqe⟩
          rcases d7 p hp with h | ⟨h, h' | h'⟩
          · rcases hi.asked p h with h' | h' | ⟨c, h1, h2⟩
            · exact .inl (still h')
            · exact .inr (.inl (by simp [h']))
            · rcases mem_eraseIdx_or _ _ _ _ hf h1 with h3 | h3
              · subst h3
                obtain ⟨q', hq', he⟩ := d6 c.height (by omega) (.inl rfl)
                exact .inl ⟨q', hq', by rw [he]; exact h2⟩
              · exact .inr (.inr ⟨c, h3, h2⟩)
          · exact .inl (still (by rw [h]; exact h'))
          · exact .inr (.inl (by rw [h]; simp [h']))
        · intro c hc hclt
          rcases List.mem_append.mp hc with hc | hc
          · exact d6 _ hclt (.inr (hi.told c hc (by simp only at hclt; omega)))
          · rw [List.mem_singleton.mp hc] at hclt ⊢
            exact d6 _ hclt (.inl rfl)
      refine ⟨⟨cut, hinv⟩, by simp [makes], d4, ?_⟩
      intro _ _
      have hle := arch_le hinv
      simp only at hle
      obtain ⟨w1, _⟩ := digest_weight s.made.length _ _ _ _ _ hi.arch.best
        (fun p hp => ⟨(hi.arch.heldOk p hp).1, (hi.arch.heldOk p hp).2.1⟩) d1 (by have := made_mem hi hbm; omega) hle
      have hsum := sum_eraseIdx (fun b : Block => 3 * b.height.toNat) s.coming i b hf
      simp only [weight] at w1
      simp only [work, List.map_append, List.sum_append]
      omega
  | restart =>
    simp only [Net.step, Archiver.State.step, Option.map_some, Option.some.injEq] at hs
    subst hs
    obtain ⟨i1, i2⟩ := Archiver.inv_restart hi.arch
    have hst := Archiver.inv_start hi.arch
    rw [hst] at i1 i2 ⊢
    refine ⟨⟨cut, ⟨hi.heights, hi.best, hi.kept, i1, i2, by simp, hi.cutLe, ?_, by simp, by simp⟩⟩, by simp [makes],
      Nat.le_refl _, ?_⟩
    · intro h hh
      exact hi.prunes h (List.mem_filter.mp hh).1
    · rintro j (⟨h1, _⟩ | ⟨h1, _⟩) <;> cases h1

theorem net_new (depth : Nat) : NetInv 0 (Net.new depth) := by
  obtain ⟨i1, i2⟩ := Archiver.inv_fresh fun b => b ∈ ([] : List Block)
  refine ⟨by simp [Net.new], rfl, ⟨rfl, by simp [Net.new]⟩, i1, i2, by simp [Net.new], Nat.zero_le _, by simp [Net.new],
    ?_, by simp [Net.new]⟩
  intro p hp
  simp [Net.new, Archiver.fresh, Archiver.start, Archiver.readBest] at hp

theorem makes_cons (e : NetEv) (es : List NetEv) : makes (e :: es) = makes [e] + makes es := by
  simp only [makes, List.filter_cons]
  split <;> simp
  omega

theorem net_run (es : List NetEv) : ∀ (s s' : Net) (cut : Nat), NetInv cut s → s.made.length + makes es < 2 ^ 64 →
    s.run es = some s' → (∃ cut', NetInv cut' s') ∧ s'.made.length = s.made.length + makes es ∧
      s.arch.best.toNat ≤ s'.arch.best.toNat := by
  induction es with
  | nil =>
    intro s s' cut hi _ h
    cases h
    exact ⟨⟨cut, hi⟩, by simp [makes], Nat.le_refl _⟩
  | cons e es ih =>
    intro s s' cut hi hlt h
    rw [makes_cons] at hlt ⊢
    simp only [Net.run, Option.bind_eq_some_iff] at h
    obtain ⟨s1, h1, h2⟩ := h
    obtain ⟨⟨c1, k1⟩, k2, k3, _⟩ := net_step hi e (by omega) h1
    obtain ⟨j1, j2, j3⟩ := ih s1 s' c1 k1 (by omega) h2
    exact ⟨j1, by omega, by omega⟩

/-! ### C102 -/

/-- **C102.** Whichever broadcasts are lost and in whatever order requests and answers arrive: when nothing is under
way, the archiver has every block up to the highest one that reached it since it was started. -/
theorem C102_complete (depth : Nat) (es : List NetEv) (s : Net) (hlt : makes es < 2 ^ 64)
    (hr : (Net.new depth).run es = some s) (hq : Quiet s) : ∀ b ∈ s.told, b.height.toNat ≤ s.arch.best.toNat := by
  obtain ⟨⟨cut, hi⟩, _⟩ := net_run es _ s 0 (net_new depth) (by simpa [Net.new] using hlt) hr
  intro b hb
  by_cases h : b.height.toNat ≤ s.arch.best.toNat
  · exact h
  · exfalso
    obtain ⟨p, hp, _⟩ := hi.told b hb (by omega)
    -- the lowest deferred block has nobody to wait for
    have key : ∀ (n : Nat) (p : UInt64 × Block), p ∈ s.arch.deferred → p.1.toNat ≤ n → False := by
      intro n
      induction n with
      | zero =>
        intro p hp hle
        have := (hi.arch.heldOk p hp).2.1
        omega
      | succ n ih =>
        intro p hp hle
        rcases hi.asked p hp with ⟨q, hq1, hq2⟩ | h' | ⟨c, h', _⟩
        · exact ih q hq1 (by omega)
        · rw [hq.1] at h'; simp at h'
        · rw [hq.2] at h'; simp at h'
    exact key _ p hp (Nat.le_refl _)

/-- C102. In particular a single broadcast that arrives is enough: if the last block made is the one that did, the
archiver then has them all. -/
theorem C102_last (depth : Nat) (es : List NetEv) (s : Net) (hlt : makes es < 2 ^ 64)
    (hr : (Net.new depth).run es = some s) (hq : Quiet s) (b : Block) (hb : b ∈ s.told)
    (hl : s.made.getLast? = some b) : s.arch.best.toNat = s.made.length ∧ s.made.length = makes es := by
  obtain ⟨⟨cut, hi⟩, h2, _⟩ := net_run es _ s 0 (net_new depth) (by simpa [Net.new] using hlt) hr
  have h1 := C102_complete depth es s hlt hr hq b hb
  have h3 := arch_le hi
  rw [List.getLast?_eq_getElem?] at hl
  have h4 := hi.heights _ b hl
  have h5 := (List.getElem?_eq_some_iff.mp hl).1
  simp [Net.new] at h2
  exact ⟨by omega, h2⟩

/-- C102. At every moment the archiver's blocks are those the atomizer made, at their places. -/
theorem C102_same (depth : Nat) (es : List NetEv) (s : Net) (hlt : makes es < 2 ^ 64)
    (hr : (Net.new depth).run es = some s) (hf : ∀ b ∈ s.made, FitsB b) (h : UInt64) (h0 : 1 ≤ h.toNat)
    (hh : h.toNat ≤ s.arch.best.toNat) :
    ∃ b, s.made[h.toNat - 1]? = some b ∧ b.height = h ∧ s.arch.getBlock h = some (some b) := by
  obtain ⟨⟨cut, hi⟩, _⟩ := net_run es _ s 0 (net_new depth) (by simpa [Net.new] using hlt) hr
  obtain ⟨b, k1, k2, k3⟩ := hi.arch.stored h h0 hh
  have := (made_mem hi k3).2.2
  rw [k2] at this
  exact ⟨b, this, k2, by simp [Archiver.State.getBlock, k1, Archiver.decode_encode b (hf b k3)]⟩

/-- C102. The atomizer forgets no block that the archiver lacks: a request for it is answered with it. -/
theorem C102_answered (depth : Nat) (es : List NetEv) (s : Net) (hlt : makes es < 2 ^ 64)
    (hr : (Net.new depth).run es = some s) (h : UInt64) (h0 : s.arch.best.toNat < h.toNat)
    (hh : h.toNat ≤ s.made.length) :
    ∃ b, s.made[h.toNat - 1]? = some b ∧ s.sm.commit (.getBlock h) = some (s.sm, some (.block b)) := by
  obtain ⟨⟨cut, hi⟩, _⟩ := net_run es _ s 0 (net_new depth) (by simpa [Net.new] using hlt) hr
  have hc := hi.cutLe
  obtain ⟨b, k1, k2, k3⟩ := find_kept hi h (by omega) (by omega) hh
  have := (made_mem hi k2).2.2
  rw [k3] at this
  refine ⟨b, this, ?_⟩
  rw [get_kept hi h, k1]
  rfl

/-- C102. Messages do not go back and forth for ever: at most `work s` arrivals follow one after another, each of them
possible, and then nothing is under way. -/
theorem C102_settles (depth : Nat) (es : List NetEv) (s : Net) (hlt : makes es < 2 ^ 64)
    (hr : (Net.new depth).run es = some s) (fs : List NetEv) (ha : Arrivals s fs) :
    fs.length ≤ work s ∧ ∃ s', s.run fs = some s' ∧ (fs.length = work s → Quiet s') := by
  obtain ⟨⟨cut, hi⟩, hm, _⟩ := net_run es _ s 0 (net_new depth) (by simpa [Net.new] using hlt) hr
  have hml : s.made.length < 2 ^ 64 := by simp [Net.new] at hm; omega
  clear hr hm
  have key : ∀ (fs : List NetEv) (s : Net) (cut : Nat), NetInv cut s → s.made.length < 2 ^ 64 → Arrivals s fs →
      ∃ s', s.run fs = some s' ∧ fs.length + work s' ≤ work s ∧ ∃ cut', NetInv cut' s' := by
    intro fs
    induction fs with
    | nil => intro s cut hi _ _; exact ⟨s, rfl, by simp, cut, hi⟩
    | cons e fs ih =>
      intro s cut hi hml ha
      obtain ⟨h1, h2⟩ := ha
      have hex : ∃ i, (e = .serve i ∧ i < s.flight.length ∨ e = .deliver i ∧ i < s.coming.length) := by
        cases e with
        | serve i => exact ⟨i, .inl ⟨rfl, h1⟩⟩
        | deliver i => exact ⟨i, .inr ⟨rfl, h1⟩⟩
        | notify _ => exact h1.elim
        | make _ => exact h1.elim
        | restart => exact h1.elim
      obtain ⟨i, hex⟩ := hex
      have hmk : makes [e] = 0 := by rcases hex with ⟨rfl, _⟩ | ⟨rfl, _⟩ <;> rfl
      have hsome : ∃ s1, s.step e = some s1 := by
        rcases hex with ⟨rfl, hlt⟩ | ⟨rfl, hlt⟩
        · simp only [Net.step, List.getElem?_eq_getElem hlt]
          cases s.flight[i] with
          | prune h => exact ⟨_, rfl⟩
          | request h =>
            simp only [Net.serveOne]
            split
            · rename_i h; simp [SM.commit] at h
            · exact ⟨_, rfl⟩
            · exact ⟨_, rfl⟩
        · simp only [Net.step, List.getElem?_eq_getElem hlt]
          have hcnt := Archiver.countAbove_le s.arch s.coming[i].height
          obtain ⟨a, o, d1, _⟩ := Archiver.digest_spec (s.arch.deferred.length + 1) s.arch s.coming[i]
            hi.arch (hi.coming _ (List.getElem_mem hlt)) (by omega) (fun _ => hi.settled)
          exact ⟨_, by simp only [Archiver.State.step, d1]; rfl⟩
      obtain ⟨s1, hs1⟩ := hsome
      obtain ⟨⟨c1, k1⟩, k2, _, k4⟩ := net_step hi e (by omega) hs1
      have k4 := k4 i hex
      obtain ⟨s', j1, j2, j3⟩ := ih s1 c1 k1 (by omega) (h2 s1 hs1)
      exact ⟨s', by simp [Net.run, hs1, j1], by simp only [List.length_cons]; omega, j3⟩
  obtain ⟨s', k1, k2, c', k3⟩ := key fs s cut hi hml ha
  refine ⟨by omega, s', k1, ?_⟩
  intro he
  have hw : work s' = 0 := by omega
  simp only [work] at hw
  constructor
  · cases hf : s'.flight with
    | nil => rfl
    | cons o os =>
      rw [hf] at hw
      cases o <;> simp at hw
  · cases hf : s'.coming with
    | nil => rfl
    | cons b bs =>
      have := made_mem k3 (k3.coming b (by rw [hf]; simp))
      rw [hf] at hw
      simp at hw
      omega

/-! #### Examples -/

/-- Four blocks are made, only the last broadcast arrives; the archiver asks its way back to the first. -/
def lostBroadcasts : List NetEv := [.make false, .make false, .make false, .make true, .deliver 0, .serve 0, .deliver 0,
  .serve 0, .deliver 0, .serve 0, .deliver 0]

example : ((Net.new 1).run lostBroadcasts).map (fun s => (s.arch.best, s.flight, s.coming.length)) =
    some (4, [.prune 1, .prune 2, .prune 3, .prune 4], 0) := by decide +kernel

/-- All prune requests are served; the premises of `C102_complete` and `C102_last` are met. -/
example : ((Net.new 1).run (lostBroadcasts ++ List.replicate 4 (.serve 0))).map (fun s =>
    ((s.arch.best, s.flight, s.coming.length), s.told.map Block.height, s.sm.blocks.map Prod.fst,
      s.made.getLast?.map Block.height)) = some ((4, [], 0), [4, 3, 2, 1], [4], some 4) := by decide +kernel

/-- While requests are under way the archiver is behind. -/
example : ((Net.new 1).run (lostBroadcasts.take 7)).map (fun s => (s.arch.best, s.flight, work s)) =
    some (0, [.request 2], 15) := by decide +kernel

end Verif.Catchup
