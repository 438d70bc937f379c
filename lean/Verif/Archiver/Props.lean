import Verif.Archiver.Model

/-! Properties C25 and C62: the archiver. -/
namespace Verif.Archiver

open Verif.Tx Verif.Serial Verif.Atomizer

/-! ### Specification -/

/-- The blocks delivered, in order. -/
def delivered (es : List Ev) : List Block := es.filterMap fun e =>
  match e with
  | .block b => some b
  | .restart => none

/-- Sizes fit the length prefixes. -/
def FitsB (b : Block) : Prop := b.txs.length < 2 ^ 64 ∧ ∀ t ∈ b.txs, t.Fits

/-! ### Proofs -/

theorem decode_encode (b : Block) (h : FitsB b) : decodeBlock (encodeBlock b) = some b := by
  have hw : WF tBlock b.wire := ⟨u64_lt _, txs_wf h.1 h.2⟩
  have hr := roundtrip tBlock b.wire hw []
  rw [List.append_nil] at hr
  unfold decodeBlock encodeBlock fromBuffer makeBuffer
  rw [hr]
  exact Block.ofWire_wire b

/-- What always holds of the archiver. `ok` says which blocks may be stored. -/
structure Inv (ok : Block → Prop) (s : State) : Prop where
  best : readBest s.db = some s.best
  stored : ∀ h : UInt64, 1 ≤ h.toNat → h.toNat ≤ s.best.toNat →
    ∃ b, s.db (.height h) = some (.blk (encodeBlock b)) ∧ b.height = h ∧ ok b
  above : ∀ h : UInt64, h.toNat = 0 ∨ s.best.toNat < h.toNat → s.db (.height h) = none
  heldOk : ∀ p ∈ s.deferred, p.2.height = p.1 ∧ s.best.toNat < p.1.toNat ∧ ok p.2
  keys : (s.deferred.map Prod.fst).Nodup

/-- A state in which nothing that could be stored is waiting. -/
def Settled (s : State) : Prop := ∀ p ∈ s.deferred, p.1.toNat ≠ s.best.toNat + 1

theorem held_some {s : State} {h : UInt64} {b : Block} (hh : s.held h = some b) :
    (h, b) ∈ s.deferred := by
  unfold State.held at hh
  cases hf : s.deferred.find? fun p => p.1 == h with
  | none => simp [hf] at hh
  | some p =>
    simp [hf] at hh
    have h1 := List.mem_of_find?_eq_some hf
    have h2 := List.find?_some hf
    have h3 : p.1 = h := eq_of_beq h2
    obtain ⟨p1, p2⟩ := p
    simp at hh h3
    subst hh h3
    exact h1

theorem held_none {s : State} {h : UInt64} : s.held h = none ↔ ∀ p ∈ s.deferred, p.1 ≠ h := by
  unfold State.held
  simp [List.find?_eq_none]

/-- How many deferred blocks lie above a height. -/
def countAbove (s : State) (h : UInt64) : Nat :=
  (s.deferred.filter fun p => decide (h.toNat < p.1.toNat)).length

theorem filter_length_lt {α : Type} (p q : α → Bool) (l : List α) (x : α) (hx : x ∈ l)
    (hq : q x = true) (hp : p x = false) (himp : ∀ y, p y = true → q y = true) :
    (l.filter p).length < (l.filter q).length := by
  induction l with
  | nil => simp at hx
  | cons a l ih =>
    have hle : ∀ l : List α, (l.filter p).length ≤ (l.filter q).length := by
      intro l
      induction l with
      | nil => simp
      | cons b l ih' =>
        by_cases hb : p b = true
        · simp [hb, himp b hb]; exact ih'
        · by_cases hb' : q b = true
          · simp [hb, hb']; omega
          · simp [hb, hb']; exact ih'
    rcases List.mem_cons.mp hx with rfl | hx
    · simp [hp, hq]
      have := hle l
      omega
    · have := ih hx
      by_cases hb : p a = true
      · simp [hb, himp a hb]; exact this
      · by_cases hb' : q a = true
        · simp [hb, hb']; omega
        · simp [hb, hb']; exact this

/-- The block of one call is stored, nothing else changes. -/
theorem inv_store {ok : Block → Prop} {s : State} (hi : Inv ok s) {b : Block} (hok : ok b)
    (hb : b.height.toNat = s.best.toNat + 1) (hbest : (s.best + 1).toNat = s.best.toNat + 1) :
    Inv ok ⟨put (put s.db (.height b.height) (.blk (encodeBlock b))) .best (.num b.height), s.best + 1,
      s.deferred.filter fun p => p.1 != b.height⟩ := by
  have hbe : b.height = s.best + 1 := UInt64.toNat_inj.mp (by omega)
  refine ⟨?_, ?_, ?_, ?_, ?_⟩
  · simp [readBest, put, hbe]
  · intro h h1 h2
    simp only at h2
    rw [hbest] at h2
    by_cases hh : h = b.height
    · subst hh
      exact ⟨b, by simp [put], rfl, hok⟩
    · obtain ⟨b', h3, h4, h5⟩ := hi.stored h h1 (by
        have : h.toNat ≠ b.height.toNat := fun hc => hh (UInt64.toNat_inj.mp hc)
        omega)
      exact ⟨b', by simp [put, hh, h3], h4, h5⟩
  · intro h h1
    simp only at h1
    rw [hbest] at h1
    have hh : h ≠ b.height := by
      rintro rfl
      omega
    have := hi.above h (by omega)
    simp [put, hh, this]
  · intro p hp
    obtain ⟨hp1, hp2⟩ := List.mem_filter.mp hp
    obtain ⟨h1, h2, h3⟩ := hi.heldOk p hp1
    refine ⟨h1, ?_, h3⟩
    simp only
    rw [hbest]
    have : p.1.toNat ≠ b.height.toNat := by
      intro hc
      have := UInt64.toNat_inj.mp hc
      simp [this] at hp2
    omega
  · exact hi.keys.sublist (List.Sublist.map _ List.filter_sublist)

theorem effective_best {s : State} (hb : readBest s.db = some s.best) :
    (if s.best = 0 then (readBest s.db).getD s.best else s.best) = s.best := by
  rw [hb]; simp

/-- One delivery. -/
theorem digest_spec {ok : Block → Prop} (fuel : Nat) : ∀ (s : State) (b : Block), Inv ok s → ok b →
    countAbove s b.height + 1 ≤ fuel → (b.height.toNat ≠ s.best.toNat + 1 → Settled s) →
    ∃ s' o, digest fuel s b = some (s', o) ∧ Inv ok s' ∧ Settled s' ∧ s.best.toNat ≤ s'.best.toNat ∧
      (∀ h : UInt64, h.toNat ≤ s.best.toNat → s'.db (.height h) = s.db (.height h)) ∧
      (∀ h : UInt64, s'.best.toNat < h.toNat → (h = b.height ∨ ∃ p ∈ s.deferred, p.1 = h) →
        ∃ p ∈ s'.deferred, p.1 = h) ∧
      (∀ p ∈ s'.deferred, p ∈ s.deferred ∨ (p = (b.height, b) ∧
        ((∃ q ∈ s.deferred, q.1.toNat + 1 = b.height.toNat) ∨ Out.request (b.height - 1) ∈ o))) ∧
      (∀ h : UInt64, s.best.toNat < h.toNat → h.toNat ≤ s'.best.toNat →
        h = b.height ∨ ∃ p ∈ s.deferred, p.1 = h) := by
  induction fuel with
  | zero => intro s b _ _ h _; omega
  | succ fuel ih =>
    intro s b hi hok hfuel hset
    unfold digest
    simp only [effective_best hi.best]
    by_cases h1 : b.height ≤ s.best
    · rw [if_pos h1]
      have h1' := UInt64.le_iff_toNat_le.mp h1
      refine ⟨s, _, rfl, hi, hset (by omega), Nat.le_refl _, fun _ _ => rfl, ?_, fun p hp => .inl hp, ?_⟩
      · rintro h h2 (h3 | h3)
        · subst h3; omega
        · exact h3
      · intro h h2 h3; omega
    · rw [if_neg h1]
      have h1' : s.best.toNat < b.height.toNat :=
        Nat.lt_of_not_le fun hc => h1 (UInt64.le_iff_toNat_le.mpr hc)
      have hlt := b.height.toNat_lt
      have hbest : (s.best + 1).toNat = s.best.toNat + 1 := by
        rw [UInt64.toNat_add]
        simp
        omega
      by_cases h2 : b.height ≠ s.best + 1
      · rw [if_pos h2]
        have h2' : b.height.toNat ≠ s.best.toNat + 1 := fun hc =>
          h2 (UInt64.toNat_inj.mp (by omega))
        refine ⟨_, _, rfl, ?_⟩
        split
        · rename_i hh
          refine ⟨hi, hset h2', Nat.le_refl _, fun _ _ => rfl, ?_, fun p hp => .inl hp, ?_⟩
          · rintro h h3 (h4 | h4)
            · obtain ⟨b', hb'⟩ := Option.isSome_iff_exists.mp hh
              have : State.held s b.height = some b' := hb'
              exact ⟨_, held_some this, h4.symm⟩
            · exact h4
          · intro h h3 h4
            have : h.toNat ≤ s.best.toNat := h4
            omega
        · rename_i hh
          have hh' : State.held s b.height = none := by
            cases hq : State.held s b.height with
            | none => rfl
            | some x => exact absurd (by simpa using congrArg Option.isSome hq) hh
          have hh' := held_none.mp hh'
          refine ⟨⟨hi.best, hi.stored, hi.above, ?_, ?_⟩, ?_, Nat.le_refl _, fun _ _ => rfl, ?_, ?_, ?_⟩
          · intro p hp
            rcases List.mem_append.mp hp with hp | hp
            · exact hi.heldOk p hp
            · simp at hp; subst hp; exact ⟨rfl, h1', hok⟩
          · rw [List.map_append, List.nodup_append]
            refine ⟨hi.keys, by simp, ?_⟩
            intro x hx y hy
            simp at hy
            subst hy
            obtain ⟨p, hp, rfl⟩ := List.mem_map.mp hx
            exact hh' p hp
          · intro p hp
            rcases List.mem_append.mp hp with hp | hp
            · exact hset h2' p hp
            · simp at hp; subst hp; exact h2'
          · rintro h h3 (h4 | ⟨p, hp, h4⟩)
            · exact ⟨(b.height, b), by simp, h4.symm⟩
            · exact ⟨p, by simp [hp], h4⟩
          · intro p hp
            rcases List.mem_append.mp hp with hp | hp
            · exact .inl hp
            · simp at hp
              refine .inr ⟨hp, ?_⟩
              have hm : (b.height - 1).toNat + 1 = b.height.toNat := by
                rw [UInt64.toNat_sub_of_le _ _ (UInt64.le_iff_toNat_le.mpr (by simp; omega))]
                simp
                omega
              cases hq : State.held s (b.height - 1) with
              | none => right; simp
              | some x => exact .inl ⟨_, held_some hq, hm⟩
          · intro h h3 h4
            have : h.toNat ≤ s.best.toNat := h4
            omega
      · rw [if_neg h2]
        have h2 := Classical.not_not.mp h2
        have h2' : b.height.toNat = s.best.toNat + 1 := by rw [h2, hbest]
        have hst := inv_store hi hok h2' hbest
        have hframe : ∀ h : UInt64, h.toNat ≤ s.best.toNat →
            put (put s.db (.height b.height) (.blk (encodeBlock b))) .best (.num b.height) (.height h) =
              s.db (.height h) := by
          intro h hh
          have : h ≠ b.height := by rintro rfl; omega
          simp [put, this]
        split
        · rename_i hn
          have hn' : State.held s (b.height + 1) = none := hn
          have hn' := held_none.mp hn'
          refine ⟨_, _, rfl, hst, ?_, ?_, hframe, ?_, ?_, ?_⟩
          · intro p hp hc
            have hp' := (List.mem_filter.mp hp).1
            simp only [hbest] at hc
            refine hn' p hp' (UInt64.toNat_inj.mp ?_)
            rw [UInt64.toNat_add]
            have := p.1.toNat_lt
            simp
            omega
          · simp only [hbest]; omega
          · rintro h h3 (h4 | ⟨p, hp, h4⟩)
            · simp only [hbest] at h3; subst h4; omega
            · refine ⟨p, List.mem_filter.mpr ⟨hp, ?_⟩, h4⟩
              simp only [hbest] at h3
              have : p.1 ≠ b.height := by rw [h4]; rintro rfl; omega
              simpa using this
          · intro p hp; exact .inl (List.mem_filter.mp hp).1
          · intro h h3 h4
            simp only [hbest] at h4
            exact .inl (UInt64.toNat_inj.mp (by omega))
        · rename_i b' hb'
          have hb'' : State.held s (b.height + 1) = some b' := hb'
          have hmem := held_some hb''
          obtain ⟨k1, k2, k3⟩ := hi.heldOk _ hmem
          simp only at k1 k2 k3
          have hne : (b.height + 1).toNat = b.height.toNat + 1 := by
            by_cases hmax : b.height.toNat + 1 < 2 ^ 64
            · rw [UInt64.toNat_add]; simp; omega
            · rw [UInt64.toNat_add] at k2
              simp at k2
              have : (b.height.toNat + 1) % 18446744073709551616 = 0 := by omega
              omega
          have hcount : countAbove ⟨put (put s.db (.height b.height) (.blk (encodeBlock b))) .best
              (.num b.height), s.best + 1, s.deferred.filter fun p => p.1 != b.height⟩ b'.height + 1 ≤ fuel := by
            have h5 : countAbove ⟨put (put s.db (.height b.height) (.blk (encodeBlock b))) .best
              (.num b.height), s.best + 1, s.deferred.filter fun p => p.1 != b.height⟩ b'.height ≤
              countAbove s b'.height := by
              unfold countAbove
              apply List.Sublist.length_le
              exact List.Sublist.filter _ List.filter_sublist
            have h6 : countAbove s b'.height < countAbove s b.height := by
              unfold countAbove
              refine filter_length_lt _ _ _ _ hmem ?_ ?_ ?_
              · simp [hne]
              · simp [k1]
              · intro y hy
                simp at hy ⊢
                rw [k1, hne] at hy
                omega
            omega
          obtain ⟨s'', o, e1, e2, e3, e4, e5, e6, e7, e8⟩ := ih _ b' hst k3 hcount (by
            intro hc
            exact absurd (by simp only [hbest]; rw [k1, hne]; omega) hc)
          simp only [hbest] at e4 e5 e6 e7 e8
          rw [e1]
          refine ⟨_, _, rfl, e2, e3, by omega, ?_, ?_, ?_, ?_⟩
          · intro h hh
            rw [e5 h (by omega)]
            exact hframe h hh
          · rintro h h3 (h4 | ⟨p, hp, h4⟩)
            · subst h4; omega
            · refine e6 h h3 (.inr ⟨p, List.mem_filter.mpr ⟨hp, ?_⟩, h4⟩)
              have : p.1 ≠ b.height := by rw [h4]; rintro rfl; omega
              simpa using this
          · intro p hp
            rcases e7 p hp with h | h
            · exact .inl (List.mem_filter.mp h).1
            · refine .inl ?_
              rw [h.1, k1]
              exact hmem
          · intro h h3 h4
            by_cases hh : h = b.height
            · exact .inl hh
            · right
              have : h.toNat ≠ b.height.toNat := fun hc => hh (UInt64.toNat_inj.mp hc)
              rcases e8 h (by omega) h4 with h5 | ⟨p, hp, h5⟩
              · exact ⟨_, hmem, by rw [h5, k1]⟩
              · exact ⟨p, (List.mem_filter.mp hp).1, h5⟩

theorem inv_start {ok : Block → Prop} {s : State} (hi : Inv ok s) :
    start s.db = { s with deferred := [] } := by
  unfold start
  rw [hi.best]

theorem inv_restart {ok : Block → Prop} {s : State} (hi : Inv ok s) :
    Inv ok (start s.db) ∧ Settled (start s.db) := by
  rw [inv_start hi]
  exact ⟨⟨hi.best, hi.stored, hi.above, by simp, by simp⟩, by intro p hp; simp at hp⟩

theorem inv_fresh (ok : Block → Prop) : Inv ok fresh ∧ Settled fresh := by
  refine ⟨⟨rfl, ?_, ?_, ?_, ?_⟩, ?_⟩
  · intro h h1 h2
    have : fresh.best.toNat = 0 := rfl
    omega
  · intro h _; rfl
  · intro p hp; simp [fresh, start, readBest] at hp
  · exact List.nodup_nil
  · intro p hp; simp [fresh, start, readBest] at hp

theorem countAbove_le (s : State) (h : UInt64) : countAbove s h ≤ s.deferred.length :=
  List.length_filter_le _ _

theorem run_inv {ok : Block → Prop} (es : List Ev) : ∀ (s : State), Inv ok s → Settled s →
    (∀ b ∈ delivered es, ok b) →
    ∃ s' o, s.run es = some (s', o) ∧ Inv ok s' ∧ Settled s' ∧ s.best.toNat ≤ s'.best.toNat ∧
      ∀ h : UInt64, h.toNat ≤ s.best.toNat → s'.db (.height h) = s.db (.height h) := by
  induction es with
  | nil => intro s hi hs _; exact ⟨s, [], rfl, hi, hs, Nat.le_refl _, fun _ _ => rfl⟩
  | cons e es ih =>
    intro s hi hs hok
    cases e with
    | restart =>
      obtain ⟨i1, i2⟩ := inv_restart hi
      obtain ⟨s', o, h1, h2, h3, h4, h5⟩ := ih _ i1 i2 hok
      rw [inv_start hi] at h4 h5
      refine ⟨s', o, ?_, h2, h3, h4, h5⟩
      simp [State.run, State.step, h1]
    | block b =>
      have hc := countAbove_le s b.height
      obtain ⟨s1, o1, d1, d2, d3, d4, d5, _⟩ := digest_spec (s.deferred.length + 1) s b hi
        (hok b (by simp [delivered])) (by omega) (fun _ => hs)
      obtain ⟨s', o, h1, h2, h3, h4, h5⟩ := ih s1 d2 d3 fun b' hb' => hok b' (by
        simp only [delivered, List.filterMap_cons]; exact List.mem_cons_of_mem _ hb')
      refine ⟨s', o1 ++ o, ?_, h2, h3, by omega, ?_⟩
      · simp [State.run, State.step, d1, h1]
      · intro h hh
        rw [h5 h (by omega), d5 h hh]

/-! ### C25 -/

/-- **C25.** After any deliveries and restarts: every height from 1 to the best height holds a
block that was delivered with that height and is what a lookup returns; lookups of other heights
find nothing; digesting always terminates. -/
theorem C25_chain (es : List Ev) (hf : ∀ b ∈ delivered es, FitsB b) :
    ∃ s o, fresh.run es = some (s, o) ∧
      (∀ h : UInt64, 1 ≤ h.toNat → h.toNat ≤ s.best.toNat →
        ∃ b ∈ delivered es, b.height = h ∧ s.getBlock h = some (some b)) ∧
      (∀ h : UInt64, h.toNat = 0 ∨ s.best.toNat < h.toNat → s.getBlock h = some none) := by
  obtain ⟨i1, i2⟩ := inv_fresh fun b => b ∈ delivered es
  obtain ⟨s, o, h1, h2, _⟩ := run_inv es fresh i1 i2 fun b hb => hb
  refine ⟨s, o, h1, ?_, ?_⟩
  · intro h h3 h4
    obtain ⟨b, h5, h6, h7⟩ := h2.stored h h3 h4
    refine ⟨b, h7, h6, ?_⟩
    simp [State.getBlock, h5, decode_encode b (hf b h7)]
  · intro h h3
    simp [State.getBlock, h2.above h h3]

/-- C25. The best height only grows and stored blocks never change, whatever follows. -/
theorem C25_permanent (es fs : List Ev) :
    ∃ s o s' o', fresh.run es = some (s, o) ∧ s.run fs = some (s', o') ∧
      s.best.toNat ≤ s'.best.toNat ∧
      ∀ h : UInt64, h.toNat ≤ s.best.toNat → s'.getBlock h = s.getBlock h := by
  obtain ⟨i1, i2⟩ := inv_fresh fun _ => True
  obtain ⟨s, o, h1, h2, h3, _⟩ := run_inv es fresh i1 i2 fun b hb => trivial
  obtain ⟨s', o', h4, _, _, h5, h6⟩ := run_inv fs s h2 h3 fun b hb => trivial
  refine ⟨s, o, s', o', h1, h4, h5, ?_⟩
  intro h hh
  simp [State.getBlock, h6 h hh]

/-- What is known since the last restart: `D` was delivered, `R` was sent, the height was `b0`. -/
structure Since (b0 : Nat) (D : List Block) (R : List Out) (s : State) : Prop where
  kept : ∀ b ∈ D, s.best.toNat < b.height.toNat → ∃ p ∈ s.deferred, p.1 = b.height
  from' : ∀ h : UInt64, b0 < h.toNat → h.toNat ≤ s.best.toNat → ∃ b ∈ D, b.height = h
  held : ∀ p ∈ s.deferred, p.2 ∈ D
  asked : ∀ p ∈ s.deferred, (∃ q ∈ s.deferred, q.1.toNat + 1 = p.1.toNat) ∨ Out.request (p.1 - 1) ∈ R
  start : b0 ≤ s.best.toNat

theorem run_since {b0 : Nat} (bs : List Block) : ∀ (s : State) (D : List Block) (R : List Out),
    Inv (fun _ => True) s → Settled s → Since b0 D R s →
    ∃ s' o, s.run (bs.map Ev.block) = some (s', o) ∧ Inv (fun _ => True) s' ∧ Settled s' ∧
      Since b0 (D ++ bs) (R ++ o) s' := by
  induction bs with
  | nil => intro s D R hi hs hsi; exact ⟨s, [], rfl, hi, hs, by simpa using hsi⟩
  | cons b bs ih =>
    intro s D R hi hs hsi
    have hc := countAbove_le s b.height
    obtain ⟨s1, o1, d1, d2, d3, d4, d5, d6, d7, d8⟩ := digest_spec (s.deferred.length + 1) s b hi
      trivial (by omega) (fun _ => hs)
    have hs1 : Since b0 (D ++ [b]) (R ++ o1) s1 := by
      refine ⟨?_, ?_, ?_, ?_, by have := hsi.start; omega⟩
      · intro b' hb' hlt
        rcases List.mem_append.mp hb' with hb' | hb'
        · exact d6 _ hlt (.inr (hsi.kept b' hb' (by omega)))
        · simp at hb'; subst hb'
          exact d6 _ hlt (.inl rfl)
      · intro h h1 h2
        by_cases h3 : h.toNat ≤ s.best.toNat
        · obtain ⟨b', hb', he⟩ := hsi.from' h h1 h3
          exact ⟨b', by simp [hb'], he⟩
        · rcases d8 h (by omega) h2 with h4 | ⟨p, hp, h4⟩
          · exact ⟨b, by simp, h4.symm⟩
          · exact ⟨p.2, by simp [hsi.held p hp], by rw [(hi.heldOk p hp).1, h4]⟩
      · intro p hp
        rcases d7 p hp with h | ⟨h, _⟩
        · simp [hsi.held p h]
        · rw [h]; simp
      · intro p hp
        have hb1 := (d2.heldOk p hp).2.1
        have hset := d3 p hp
        have still : (∃ q ∈ s.deferred, q.1.toNat + 1 = p.1.toNat) →
            ∃ q ∈ s1.deferred, q.1.toNat + 1 = p.1.toNat := by
          rintro ⟨q, hq, hqe⟩
          obtain ⟨q', hq', he⟩ := d6 q.1 (by omega) (.inr ⟨q, hq, rfl⟩)
          exact ⟨q', hq', by rw [he]; exact hqe⟩
        rcases d7 p hp with h | ⟨h, h' | h'⟩
        · rcases hsi.asked p h with h' | h'
          · exact .inl (still h')
          · exact .inr (by simp [h'])
        · exact .inl (still (by rw [h]; exact h'))
        · right; rw [h]; simp [h']
    obtain ⟨s', o, h1, h2, h3, h4⟩ := ih s1 _ _ d2 d3 hs1
    refine ⟨s', o1 ++ o, ?_, h2, h3, ?_⟩
    · simp [State.run, State.step, d1, h1]
    · simpa using h4

theorem run_restart (l : List Ev) : ∀ (s : State) (r : State × List Out), s.run l = some r →
    s.run (l ++ [.restart]) = some (start r.1.db, r.2) := by
  induction l with
  | nil => intro s r h; simp [State.run] at h; subst h; rfl
  | cons e l ih =>
    intro s r h
    simp only [State.run, Option.bind_eq_bind, Option.bind_eq_some_iff] at h
    obtain ⟨⟨sa, oa⟩, ha, ⟨sb, ob⟩, hb, hc⟩ := h
    simp at hc
    subst hc
    simp [State.run, ha, ih _ _ hb]

theorem since_restart (es : List Ev) (bs : List Block) :
    ∃ s0 o0 s o, fresh.run (es ++ [.restart]) = some (s0, o0) ∧
      s0.run (bs.map Ev.block) = some (s, o) ∧ Inv (fun _ => True) s ∧ Settled s ∧
      Since s0.best.toNat bs o s := by
  obtain ⟨i1, i2⟩ := inv_fresh fun _ => True
  obtain ⟨s1, o1, h1, h2, _⟩ := run_inv es fresh i1 i2 fun b hb => trivial
  obtain ⟨j1, j2⟩ := inv_restart h2
  have hsi : Since (start s1.db).best.toNat [] [] (start s1.db) := by
    refine ⟨by simp, fun h h1 h2 => by omega, ?_, ?_, Nat.le_refl _⟩
    · intro p hp; rw [inv_start h2] at hp; simp at hp
    · intro p hp; rw [inv_start h2] at hp; simp at hp
  obtain ⟨s', o, k1, k2, k3, k4⟩ := run_since bs _ _ _ j1 j2 hsi
  exact ⟨_, _, s', o, run_restart es fresh _ h1, k1, k2, k3, by simpa using k4⟩

/-- C25. Between restarts nothing is lost: a height above the one at the start is stored exactly
when it and all heights before it have been delivered, in whatever order. -/
theorem C25_complete (es : List Ev) (bs : List Block) :
    ∃ s0 o0 s o, fresh.run (es ++ [.restart]) = some (s0, o0) ∧
      s0.run (bs.map Ev.block) = some (s, o) ∧
      ∀ h : UInt64, s0.best.toNat < h.toNat →
        (h.toNat ≤ s.best.toNat ↔
          ∀ k : UInt64, s0.best.toNat < k.toNat → k.toNat ≤ h.toNat → ∃ b ∈ bs, b.height = k) := by
  obtain ⟨s0, o0, s, o, h1, h2, _, k3, k4⟩ := since_restart es bs
  refine ⟨s0, o0, s, o, h1, h2, ?_⟩
  intro h hh
  constructor
  · intro hle k hk1 hk2
    exact k4.from' k hk1 (by omega)
  · intro hall
    apply Classical.byContradiction
    intro hn
    have hlt := h.toNat_lt
    have hb1 : (s.best + 1).toNat = s.best.toNat + 1 := by
      rw [UInt64.toNat_add]
      simp
      omega
    have hst := k4.start
    obtain ⟨b, hb, he⟩ := hall (s.best + 1) (by omega) (by omega)
    obtain ⟨p, hp, hpe⟩ := k4.kept b hb (by rw [he]; omega)
    exact k3 p hp (by rw [hpe, he, hb1])

/-- A block at a height, without transactions. -/
def blk (h : UInt64) : Block := ⟨h, []⟩

example : (fresh.run [.block (blk 3), .block (blk 1), .block ⟨2, [pay]⟩, .block (blk 2), .restart,
    .block (blk 5), .block (blk 4)]).map (fun r => (r.1.best, r.2)) =
    some (5, [.request 2, .prune 1, .prune 2, .prune 3, .request 4, .prune 4, .prune 5]) := by
  decide

/-! ### C62 -/

/-- **C62.** Every block that an archiver is missing below one it holds has been asked for: for each
block held back, either its predecessor is held back too, or a request for it was sent since the
last restart. -/
theorem C62_gaps_requested_partial (es : List Ev) (bs : List Block) :
    ∃ s0 o0 s o, fresh.run (es ++ [.restart]) = some (s0, o0) ∧
      s0.run (bs.map Ev.block) = some (s, o) ∧
      ∀ h : UInt64, (s.held h).isSome → ((s.held (h - 1)).isSome ∨ Out.request (h - 1) ∈ o) := by
  obtain ⟨s0, o0, s, o, h1, h2, h3, _, k4⟩ := since_restart es bs
  refine ⟨s0, o0, s, o, h1, h2, ?_⟩
  intro h hh
  obtain ⟨b, hb⟩ := Option.isSome_iff_exists.mp hh
  have hm := held_some hb
  rcases k4.asked _ hm with ⟨q, hq, he⟩ | ha
  · left
    cases hc : s.held (h - 1) with
    | some _ => rfl
    | none =>
      refine absurd ?_ (held_none.mp hc q hq)
      apply UInt64.toNat_inj.mp
      have := (h3.heldOk _ hm).2.1
      simp only at he this
      rw [UInt64.toNat_sub_of_le _ _ (UInt64.le_iff_toNat_le.mpr (by simp; omega))]
      simp
      omega
  · exact .inr ha

theorem digest_prune (fuel : Nat) : ∀ (s : State) (b : Block) (s' : State) (o : List Out),
    readBest s.db = some s.best → digest fuel s b = some (s', o) →
    readBest s'.db = some s'.best ∧ s.best.toNat ≤ s'.best.toNat ∧
      ∀ h, Out.prune h ∈ o → h.toNat ≤ s'.best.toNat := by
  induction fuel with
  | zero => intro s b s' o _ h; simp [digest] at h
  | succ fuel ih =>
    intro s b s' o hr h
    unfold digest at h
    simp only [effective_best hr] at h
    by_cases h1 : b.height ≤ s.best
    · rw [if_pos h1] at h
      simp at h
      obtain ⟨rfl, rfl⟩ := h
      exact ⟨hr, Nat.le_refl _, by simp⟩
    · rw [if_neg h1] at h
      have h1' : s.best.toNat < b.height.toNat :=
        Nat.lt_of_not_le fun hc => h1 (UInt64.le_iff_toNat_le.mpr hc)
      have hlt := b.height.toNat_lt
      have hbest : (s.best + 1).toNat = s.best.toNat + 1 := by
        rw [UInt64.toNat_add]
        simp
        omega
      by_cases h2 : b.height ≠ s.best + 1
      · rw [if_pos h2] at h
        simp only [Option.some.injEq, Prod.mk.injEq] at h
        obtain ⟨rfl, rfl⟩ := h
        refine ⟨hr, Nat.le_refl _, ?_⟩
        intro k hk
        split at hk <;> simp at hk
      · rw [if_neg h2] at h
        have h2 := Classical.not_not.mp h2
        split at h
        · simp only [Option.some.injEq, Prod.mk.injEq] at h
          obtain ⟨rfl, rfl⟩ := h
          refine ⟨?_, ?_, ?_⟩
          · simp [readBest, put, h2]
          · simp only [hbest]; omega
          · intro k hk; simp at hk; subst hk; exact Nat.le_refl _
        · split at h
          · simp at h
          · rename_i s2 o2 hd
            simp only [Option.some.injEq, Prod.mk.injEq] at h
            obtain ⟨rfl, rfl⟩ := h
            obtain ⟨j1, j2, j3⟩ := ih _ _ _ _ (by simp [readBest, put, h2]) hd
            simp only [hbest] at j2
            refine ⟨j1, by omega, ?_⟩
            intro k hk
            rcases List.mem_cons.mp hk with hk | hk
            · cases hk; omega
            · exact j3 k hk

/-- C62. A prune request only ever covers blocks that the archiver sending it has stored: with a
single archiver the atomizer forgets no block that is still needed. -/
theorem C62_prune_stored (es : List Ev) :
    ∃ s o, fresh.run es = some (s, o) ∧ ∀ h, Out.prune h ∈ o → h.toNat ≤ s.best.toNat := by
  obtain ⟨i1, i2⟩ := inv_fresh fun _ => True
  obtain ⟨s, o, h1, _⟩ := run_inv es fresh i1 i2 fun b hb => trivial
  have key : ∀ (es : List Ev) (s : State) (r : State × List Out), readBest s.db = some s.best →
      s.run es = some r → s.best.toNat ≤ r.1.best.toNat ∧
        ∀ h, Out.prune h ∈ r.2 → h.toNat ≤ r.1.best.toNat := by
    intro es
    induction es with
    | nil => intro s r _ h; simp [State.run] at h; subst h; simp
    | cons e es ih =>
      intro s r hr h
      simp only [State.run, Option.bind_eq_bind, Option.bind_eq_some_iff] at h
      obtain ⟨⟨sa, oa⟩, ha, ⟨sb, ob⟩, hb, hc⟩ := h
      simp at hc
      subst hc
      have hs : readBest sa.db = some sa.best ∧ s.best.toNat ≤ sa.best.toNat ∧
          ∀ h, Out.prune h ∈ oa → h.toNat ≤ sa.best.toNat := by
        cases e with
        | block b => exact digest_prune _ _ _ _ _ hr ha
        | restart =>
          simp only [State.step, Option.some.injEq, Prod.mk.injEq, start, hr] at ha
          obtain ⟨rfl, rfl⟩ := ha
          exact ⟨hr, Nat.le_refl _, by simp⟩
      obtain ⟨j1, j2⟩ := ih _ _ hs.1 hb
      refine ⟨Nat.le_trans hs.2.1 j1, ?_⟩
      intro k hk
      rcases List.mem_append.mp hk with hk | hk
      · exact Nat.le_trans (hs.2.2 k hk) j1
      · exact j2 k hk
  exact ⟨s, o, h1, (key es fresh (s, o) rfl h1).2⟩

/-- Blocks 3, 4, ..., n + 2. -/
def later (n : Nat) : List Ev := (List.range n).map fun i => .block (blk (UInt64.ofNat (i + 3)))

/-- C62. The request for the first missing block is sent once and never again: if it or its answer
is lost (or the block was pruned), then however many further blocks arrive, the archiver stays at
height 0 and asks for nothing. -/
theorem C62_never_repeated_violated (n : Nat) (hn : n + 3 < 2 ^ 64) :
    ∃ s, fresh.run (later (n + 1)) = some (s, [.request 2]) ∧ s.best = 0 := by
  have key : ∀ n, n + 3 < 2 ^ 64 → ∃ s, fresh.run (later (n + 1)) = some (s, [.request 2]) ∧
      s.best = 0 ∧ readBest s.db = some 0 ∧
      s.deferred = (List.range (n + 1)).map fun i => (UInt64.ofNat (i + 3), blk (UInt64.ofNat (i + 3))) := by
    intro n
    induction n with
    | zero => intro _; exact ⟨_, rfl, rfl, rfl, rfl⟩
    | succ n ih =>
      intro hn
      obtain ⟨s, h1, h2, h3, h4⟩ := ih (by omega)
      have happ : ∀ (l : List Ev) (e : Ev) (s0 : State) (r : State × List Out), s0.run l = some r →
          s0.run (l ++ [e]) = (r.1.step e).map fun q => (q.1, r.2 ++ q.2) := by
        intro l
        induction l with
        | nil =>
          intro e s0 r h
          simp [State.run] at h; subst h
          simp only [List.nil_append, State.run]
          cases s0.step e <;> simp
        | cons a l ih =>
          intro e s0 r h
          simp only [State.run, Option.bind_eq_bind, Option.bind_eq_some_iff] at h
          obtain ⟨⟨sa, oa⟩, ha, ⟨sb, ob⟩, hb, hc⟩ := h
          simp at hc
          subst hc
          simp only [List.cons_append, State.run, ha, Option.bind_eq_bind, Option.bind_some, ih e _ _ hb]
          cases sb.step e <;> simp
      have hl : later (n + 1 + 1) = later (n + 1) ++ [.block (blk (UInt64.ofNat (n + 1 + 3)))] := by
        unfold later
        rw [List.range_succ, List.map_append]
        rfl
      have hto : (UInt64.ofNat (n + 1 + 3)).toNat = n + 4 := by
        rw [UInt64.toNat_ofNat']; omega
      have hsub : UInt64.ofNat (n + 1 + 3) - 1 = UInt64.ofNat (n + 3) := by
        apply UInt64.toNat_inj.mp
        rw [UInt64.toNat_sub_of_le _ _ (UInt64.le_iff_toNat_le.mpr (by rw [hto]; simp)), hto,
          UInt64.toNat_ofNat']
        simp
        omega
      have hheld : (s.held (UInt64.ofNat (n + 3))).isSome = true := by
        unfold State.held
        rw [Option.isSome_map, List.find?_isSome]
        exact ⟨(UInt64.ofNat (n + 3), blk (UInt64.ofNat (n + 3))), by
          rw [h4]; exact List.mem_map.mpr ⟨n, by simp, rfl⟩, by simp⟩
      have hnot : (s.held (UInt64.ofNat (n + 1 + 3))).isSome = false := by
        cases hc : s.held (UInt64.ofNat (n + 1 + 3)) with
        | none => rfl
        | some b =>
          have := held_some hc
          rw [h4] at this
          obtain ⟨i, hi, he⟩ := List.mem_map.mp this
          have he := congrArg (fun p => p.1.toNat) he
          simp only at he
          rw [hto, UInt64.toNat_ofNat'] at he
          simp at hi
          omega
      refine ⟨{ s with deferred := s.deferred ++ [(UInt64.ofNat (n + 1 + 3), blk (UInt64.ofNat (n + 1 + 3)))] },
        ?_, h2, h3, ?_⟩
      · rw [hl, happ _ _ _ _ h1]
        simp only [State.step]
        unfold digest
        have hb : (if s.best = 0 then (readBest s.db).getD s.best else s.best) = s.best := by
          rw [h3, h2]; rfl
        have c1 : ¬ ((blk (UInt64.ofNat (n + 1 + 3))).height ≤ s.best) := by
          rw [h2, UInt64.le_iff_toNat_le]
          show ¬ ((UInt64.ofNat (n + 1 + 3)).toNat ≤ _)
          rw [hto]; simp
        have c2 : (blk (UInt64.ofNat (n + 1 + 3))).height ≠ s.best + 1 := by
          rw [h2]
          intro hc
          have := congrArg UInt64.toNat hc
          change (UInt64.ofNat (n + 1 + 3)).toNat = _ at this
          rw [hto] at this
          simp at this
        simp only [hb, if_neg c1, if_pos c2]
        show Option.map _ (some ({ s with deferred := if (s.held (UInt64.ofNat (n + 1 + 3))).isSome then _ else _ },
          if (s.held (UInt64.ofNat (n + 1 + 3) - 1)).isSome then _ else _)) = _
        rw [hsub, hheld, hnot]
        rfl
      · show s.deferred ++ _ = _
        rw [h4, List.range_succ (n := n + 1), List.map_append]
        rfl
  obtain ⟨s, h1, h2, _⟩ := key n hn
  exact ⟨s, h1, h2⟩

/-- C62. One archiver's prune request makes the cluster forget blocks that another archiver still
misses: its request finds nothing. -/
theorem C62_pruned_violated :
    ∃ (a : State) (outs : List Out) (sm : SM) (l : List (Req × Option Resp)),
      fresh.run [.block (blk 1), .block (blk 2), .block (blk 3)] = some (a, outs) ∧
      Out.prune 3 ∈ outs ∧
      (SM.new 1).run [.makeBlock, .makeBlock, .makeBlock, .prune 3] = some (sm, l) ∧
      (fresh.run [.block (blk 3)]).map Prod.snd = some [.request 2] ∧
      sm.commit (.getBlock 2) = some (sm, none) :=
  ⟨_, _, _, _, rfl, by decide, rfl, rfl, rfl⟩

end Verif.Archiver
