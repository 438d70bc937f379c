import Verif.LockingShard.Spec

/-! Helper lemmas: what each loop does to the sets, and the refinement of the
shard to the ledger. -/
namespace Verif.LockingShard

open Verif.Tx Verif.Util

@[simp] theorem HSet.add_apply (s : HSet) (x y : Hash) : s.add x y = true ↔ y = x ∨ s y = true := by
  simp [HSet.add]

@[simp] theorem HSet.del_apply (s : HSet) (x y : Hash) : s.del x y = true ↔ y ≠ x ∧ s y = true := by
  simp [HSet.del]

/-! ### Locking -/

theorem lockInputs_frame (c : Cfg) (s : State) (xs : List Hash) :
    (lockInputs c s xs).running = s.running ∧ (lockInputs c s xs).prepared = s.prepared ∧
      (lockInputs c s xs).applied = s.applied ∧ (lockInputs c s xs).completed = s.completed := by
  induction xs generalizing s with
  | nil => exact ⟨rfl, rfl, rfl, rfl⟩
  | cons x xs ih =>
    simp only [lockInputs]
    obtain ⟨h1, h2, h3, h4⟩ :=
      ih (if c.owns x then { s with uhs := s.uhs.del x, locked := s.locked.add x } else s)
    rw [h1, h2, h3, h4]
    split <;> exact ⟨rfl, rfl, rfl, rfl⟩

theorem lockInputs_sets (c : Cfg) (s : State) (xs : List Hash) (y : Hash) :
    ((lockInputs c s xs).uhs y = true ↔ s.uhs y = true ∧ ¬ (c.owns y = true ∧ y ∈ xs)) ∧
      ((lockInputs c s xs).locked y = true ↔ s.locked y = true ∨ (c.owns y = true ∧ y ∈ xs)) := by
  induction xs generalizing s with
  | nil => simp [lockInputs]
  | cons x xs ih =>
    simp only [lockInputs]
    obtain ⟨h1, h2⟩ :=
      ih (if c.owns x then { s with uhs := s.uhs.del x, locked := s.locked.add x } else s)
    rw [h1, h2]
    by_cases hx : c.owns x = true
    · simp only [hx, if_true, HSet.del_apply, HSet.add_apply, List.mem_cons]
      constructor
      · constructor
        · rintro ⟨⟨a, b⟩, d⟩
          exact ⟨b, fun ⟨e, f⟩ => f.elim a (fun g => d ⟨e, g⟩)⟩
        · rintro ⟨a, b⟩
          exact ⟨⟨fun e => b ⟨e ▸ hx, Or.inl e⟩, a⟩, fun ⟨e, f⟩ => b ⟨e, Or.inr f⟩⟩
      · constructor
        · rintro ((rfl | a) | ⟨a, b⟩)
          · exact Or.inr ⟨hx, Or.inl rfl⟩
          · exact Or.inl a
          · exact Or.inr ⟨a, Or.inr b⟩
        · rintro (a | ⟨a, rfl | b⟩)
          · exact Or.inl (Or.inr a)
          · exact Or.inl (Or.inl rfl)
          · exact Or.inr ⟨a, b⟩
    · simp only [hx, List.mem_cons]
      constructor
      · constructor
        · rintro ⟨a, b⟩
          exact ⟨a, fun ⟨e, f⟩ => f.elim (fun g => hx (g ▸ e)) (fun g => b ⟨e, g⟩)⟩
        · rintro ⟨a, b⟩; exact ⟨a, fun ⟨e, f⟩ => b ⟨e, Or.inr f⟩⟩
      · constructor
        · rintro (a | ⟨a, b⟩)
          · exact Or.inl a
          · exact Or.inr ⟨a, Or.inr b⟩
        · rintro (a | ⟨a, rfl | b⟩)
          · exact Or.inl a
          · exact absurd a hx
          · exact Or.inr ⟨a, b⟩

theorem checkAndLockTx_frame (c : Cfg) (s : State) (t : CompactTx) :
    (checkAndLockTx c s t).1.running = s.running ∧
      (checkAndLockTx c s t).1.prepared = s.prepared ∧
      (checkAndLockTx c s t).1.applied = s.applied ∧
      (checkAndLockTx c s t).1.completed = s.completed := by
  unfold checkAndLockTx
  split
  · exact lockInputs_frame c s t.inputs
  · exact ⟨rfl, rfl, rfl, rfl⟩

theorem checkAndLockTx_granted (c : Cfg) (s : State) (t : CompactTx) :
    (checkAndLockTx c s t).2 = true ↔
      c.attested t = true ∧ ∀ x, Spends c t x → s.uhs x = true := by
  have key : (c.attested t && t.inputs.all fun x => !(c.owns x && !s.uhs x)) = true ↔
      c.attested t = true ∧ ∀ x, Spends c t x → s.uhs x = true := by
    simp only [Bool.and_eq_true, List.all_eq_true, Bool.not_eq_true', Bool.and_eq_false_iff,
      Bool.not_eq_false', Spends]
    constructor
    · rintro ⟨a, b⟩
      exact ⟨a, fun x ⟨hx, hm⟩ => (b x hm).elim (fun e => by simp [hx] at e) id⟩
    · rintro ⟨a, b⟩
      refine ⟨a, fun x hm => ?_⟩
      cases hx : c.owns x
      · exact Or.inl rfl
      · exact Or.inr (b x ⟨hx, hm⟩)
  unfold checkAndLockTx
  rw [← key]
  split <;> simp_all

theorem checkAndLockTx_sets (c : Cfg) (s : State) (t : CompactTx) (y : Hash) :
    ((checkAndLockTx c s t).1.uhs y = true ↔
        s.uhs y = true ∧ ¬ ((checkAndLockTx c s t).2 = true ∧ Spends c t y)) ∧
      ((checkAndLockTx c s t).1.locked y = true ↔
        s.locked y = true ∨ ((checkAndLockTx c s t).2 = true ∧ Spends c t y)) := by
  unfold checkAndLockTx
  split
  · simpa [Spends] using lockInputs_sets c s t.inputs y
  · simp

theorem lockLoop_frame (c : Cfg) (s : State) (ts : List CompactTx) :
    (lockLoop c s ts).1.running = s.running ∧ (lockLoop c s ts).1.prepared = s.prepared ∧
      (lockLoop c s ts).1.applied = s.applied ∧ (lockLoop c s ts).1.completed = s.completed := by
  induction ts generalizing s with
  | nil => exact ⟨rfl, rfl, rfl, rfl⟩
  | cons t ts ih =>
    simp only [lockLoop]
    obtain ⟨h1, h2, h3, h4⟩ := ih (checkAndLockTx c s t).1
    obtain ⟨g1, g2, g3, g4⟩ := checkAndLockTx_frame c s t
    exact ⟨h1.trans g1, h2.trans g2, h3.trans g3, h4.trans g4⟩

theorem lockLoop_length (c : Cfg) (s : State) (ts : List CompactTx) :
    (lockLoop c s ts).2.length = ts.length := by
  induction ts generalizing s with
  | nil => rfl
  | cons t ts ih => simp [lockLoop, ih]

/-- The batch as an observer sees it. -/
def view (txs : List CompactTx) (res : List Bool) : List InFlight :=
  (txs.zip res).map fun p => ⟨p.1, p.2⟩

/-- Some granted transaction of the list spends `x`. -/
def GrantedSpend (c : Cfg) (b : List InFlight) (x : Hash) : Prop :=
  ∃ t ∈ b, t.granted = true ∧ Spends c t.tx x

theorem lockLoop_sets (c : Cfg) (s : State) (ts : List CompactTx) (y : Hash) :
    ((lockLoop c s ts).1.uhs y = true ↔
        s.uhs y = true ∧ ¬ GrantedSpend c (view ts (lockLoop c s ts).2) y) ∧
      ((lockLoop c s ts).1.locked y = true ↔
        s.locked y = true ∨ GrantedSpend c (view ts (lockLoop c s ts).2) y) := by
  induction ts generalizing s with
  | nil => simp [lockLoop, view, GrantedSpend]
  | cons t ts ih =>
    simp only [lockLoop]
    obtain ⟨h1, h2⟩ := ih (checkAndLockTx c s t).1
    obtain ⟨g1, g2⟩ := checkAndLockTx_sets c s t y
    rw [h1, h2, g1, g2]
    simp only [view, List.zip_cons_cons, List.map_cons, GrantedSpend, List.mem_cons,
      exists_eq_or_imp]
    constructor
    · constructor
      · rintro ⟨⟨a, b⟩, d⟩; exact ⟨a, fun e => e.elim b d⟩
      · rintro ⟨a, b⟩; exact ⟨⟨a, fun e => b (Or.inl e)⟩, fun e => b (Or.inr e)⟩
    · rw [or_assoc]

/-- Two granted transactions of a batch never share an input of this shard. -/
def Apart (c : Cfg) (b : List InFlight) : Prop :=
  b.Pairwise fun t u => t.granted = true → u.granted = true → ∀ x, Spends c t.tx x → ¬ Spends c u.tx x

theorem lockLoop_granted_unspent (c : Cfg) (s : State) (ts : List CompactTx) (y : Hash)
    (h : GrantedSpend c (view ts (lockLoop c s ts).2) y) : s.uhs y = true := by
  induction ts generalizing s with
  | nil => simp [view, GrantedSpend, lockLoop] at h
  | cons t ts ih =>
    simp only [lockLoop, view, List.zip_cons_cons, List.map_cons, GrantedSpend, List.mem_cons,
      exists_eq_or_imp] at h
    rcases h with ⟨hg, hs⟩ | h
    · exact ((checkAndLockTx_granted c s t).mp hg).2 y hs
    · have := ih (checkAndLockTx c s t).1 h
      exact (((checkAndLockTx_sets c s t y).1).mp this).1

theorem lockLoop_apart (c : Cfg) (s : State) (ts : List CompactTx) :
    Apart c (view ts (lockLoop c s ts).2) := by
  induction ts generalizing s with
  | nil => exact List.Pairwise.nil
  | cons t ts ih =>
    simp only [lockLoop, view, List.zip_cons_cons, List.map_cons]
    refine List.Pairwise.cons ?_ (ih _)
    intro u hu hg hgu x hx hxu
    have := lockLoop_granted_unspent c (checkAndLockTx c s t).1 ts x ⟨u, hu, hgu, hxu⟩
    exact ((checkAndLockTx_sets c s t x).1.mp this).2 ⟨hg, hx⟩

/-! ### Applying -/

theorem createOutputs_frame (c : Cfg) (s : State) (f : Bool) (xs : List Hash) :
    (createOutputs c s f xs).running = s.running ∧
      (createOutputs c s f xs).locked = s.locked ∧
      (createOutputs c s f xs).prepared = s.prepared ∧
      (createOutputs c s f xs).applied = s.applied ∧
      (createOutputs c s f xs).completed = s.completed := by
  induction xs generalizing s with
  | nil => exact ⟨rfl, rfl, rfl, rfl, rfl⟩
  | cons x xs ih =>
    simp only [createOutputs]
    obtain ⟨h1, h2, h3, h4, h5⟩ := ih (if c.owns x && f then { s with uhs := s.uhs.add x } else s)
    rw [h1, h2, h3, h4, h5]
    split <;> exact ⟨rfl, rfl, rfl, rfl, rfl⟩

theorem createOutputs_uhs (c : Cfg) (s : State) (f : Bool) (xs : List Hash) (y : Hash) :
    (createOutputs c s f xs).uhs y = true ↔
      s.uhs y = true ∨ (f = true ∧ c.owns y = true ∧ y ∈ xs) := by
  induction xs generalizing s with
  | nil => simp [createOutputs]
  | cons x xs ih =>
    simp only [createOutputs, ih]
    by_cases hx : (c.owns x && f) = true
    · simp only [hx, if_true, HSet.add_apply, List.mem_cons]
      simp only [Bool.and_eq_true] at hx
      constructor
      · rintro ((rfl | a) | ⟨a, b, d⟩)
        · exact Or.inr ⟨hx.2, hx.1, Or.inl rfl⟩
        · exact Or.inl a
        · exact Or.inr ⟨a, b, Or.inr d⟩
      · rintro (a | ⟨a, b, rfl | d⟩)
        · exact Or.inl (Or.inr a)
        · exact Or.inl (Or.inl rfl)
        · exact Or.inr ⟨a, b, d⟩
    · simp only [hx, List.mem_cons]
      constructor
      · rintro (a | ⟨a, b, d⟩)
        · exact Or.inl a
        · exact Or.inr ⟨a, b, Or.inr d⟩
      · rintro (a | ⟨a, b, rfl | d⟩)
        · exact Or.inl a
        · exact absurd (by simp [a, b]) hx
        · exact Or.inr ⟨a, b, d⟩

theorem settleInputs_frame (c : Cfg) (s : State) (f : Bool) (xs : List Hash) :
    (settleInputs c s f xs).running = s.running ∧
      (settleInputs c s f xs).prepared = s.prepared ∧
      (settleInputs c s f xs).applied = s.applied ∧
      (settleInputs c s f xs).completed = s.completed := by
  induction xs generalizing s with
  | nil => exact ⟨rfl, rfl, rfl, rfl⟩
  | cons x xs ih =>
    simp only [settleInputs]
    obtain ⟨h1, h2, h3, h4⟩ := ih
      (if c.owns x then
        { s with
          locked := s.locked.del x
          uhs := if !f && s.locked x then s.uhs.add x else s.uhs }
      else s)
    rw [h1, h2, h3, h4]
    split <;> exact ⟨rfl, rfl, rfl, rfl⟩

theorem settleInputs_sets (c : Cfg) (s : State) (f : Bool) (xs : List Hash) (y : Hash) :
    ((settleInputs c s f xs).uhs y = true ↔ s.uhs y = true ∨
        (f = false ∧ s.locked y = true ∧ c.owns y = true ∧ y ∈ xs)) ∧
      ((settleInputs c s f xs).locked y = true ↔
        s.locked y = true ∧ ¬ (c.owns y = true ∧ y ∈ xs)) := by
  induction xs generalizing s with
  | nil => simp [settleInputs]
  | cons x xs ih =>
    simp only [settleInputs]
    obtain ⟨h1, h2⟩ := ih
      (if c.owns x then
        { s with
          locked := s.locked.del x
          uhs := if !f && s.locked x then s.uhs.add x else s.uhs }
      else s)
    rw [h1, h2]
    clear h1 h2 ih
    by_cases hx : c.owns x = true
    · simp only [hx, if_true, HSet.del_apply, List.mem_cons]
      by_cases hyx : y = x
      · subst hyx
        cases f <;> cases hl : s.locked y <;> simp [hx]
      · have e : (if (!f && s.locked x) = true then s.uhs.add x else s.uhs) y = true ↔
            s.uhs y = true := by
          split <;> simp [hyx]
        rw [e]
        simp [hyx]
    · simp only [hx, List.mem_cons]
      by_cases hyx : y = x
      · subst hyx; simp [hx]
      · simp [hyx]

theorem applyTx_frame (c : Cfg) (s : State) (t : CompactTx) (f : Bool) :
    (applyTx c s t f).running = s.running ∧ (applyTx c s t f).prepared = s.prepared ∧
      (applyTx c s t f).applied = s.applied ∧
      (applyTx c s t f).completed =
        if c.owns t.id then (s.completed.add t.id).1 else s.completed := by
  simp only [applyTx]
  generalize hs0 : (if c.owns t.id then { s with completed := (s.completed.add t.id).1 } else s) = s0
  obtain ⟨h1, h2, h3, h4⟩ := settleInputs_frame c (createOutputs c s0 f t.uhsOutputs) f t.inputs
  obtain ⟨g1, _, g3, g4, g5⟩ := createOutputs_frame c s0 f t.uhsOutputs
  rw [h1, h2, h3, h4, g1, g3, g4, g5, ← hs0]
  by_cases h : c.owns t.id = true <;> simp [h]

theorem applyTx_sets (c : Cfg) (s : State) (t : CompactTx) (f : Bool) (y : Hash) :
    ((applyTx c s t f).uhs y = true ↔ s.uhs y = true ∨ (f = true ∧ Creates c t y) ∨
        (f = false ∧ s.locked y = true ∧ Spends c t y)) ∧
      ((applyTx c s t f).locked y = true ↔ s.locked y = true ∧ ¬ Spends c t y) := by
  simp only [applyTx]
  generalize hs0 : (if c.owns t.id then { s with completed := (s.completed.add t.id).1 } else s) = s0
  have hu : s0.uhs = s.uhs := by rw [← hs0]; split <;> rfl
  have hl : s0.locked = s.locked := by rw [← hs0]; split <;> rfl
  obtain ⟨h1, h2⟩ := settleInputs_sets c (createOutputs c s0 f t.uhsOutputs) f t.inputs y
  obtain ⟨_, g2, _⟩ := createOutputs_frame c s0 f t.uhsOutputs
  rw [h1, h2, createOutputs_uhs, g2, hu, hl]
  simp only [Spends, Creates, or_assoc, and_self]

theorem applyLoop_frame (c : Cfg) (s : State) (ts : List CompactTx) (fs : List Bool) :
    (applyLoop c s ts fs).running = s.running ∧ (applyLoop c s ts fs).prepared = s.prepared ∧
      (applyLoop c s ts fs).applied = s.applied := by
  induction ts generalizing s fs with
  | nil => cases fs <;> exact ⟨rfl, rfl, rfl⟩
  | cons t ts ih =>
    cases fs with
    | nil => exact ⟨rfl, rfl, rfl⟩
    | cons f fs =>
      simp only [applyLoop]
      obtain ⟨h1, h2, h3⟩ := ih (applyTx c s t f) fs
      obtain ⟨g1, g2, g3, _⟩ := applyTx_frame c s t f
      exact ⟨h1.trans g1, h2.trans g2, h3.trans g3⟩

/-- Conditions under which a batch can be settled, listed transaction by transaction:
completed ones were granted and create new coins; refused and aborted ones touch nothing
that is held by another batch (`other`) or by a later transaction of this batch. -/
def Settleable (c : Cfg) (other : Hash → Prop) :
    List InFlight → List Bool → (Hash → Prop) → Prop
  | t :: ts, true :: fs, coins =>
    t.granted = true ∧ (∀ x, Creates c t.tx x → ¬ coins x) ∧
      Settleable c other ts fs (takeEffect c t.tx coins)
  | t :: ts, false :: fs, coins =>
    (t.granted = false → ∀ x, Spends c t.tx x → ¬ other x ∧ ¬ GrantedSpend c ts x) ∧
      Settleable c other ts fs coins
  | _, _, _ => True

theorem applyLoop_refines (c : Cfg) (other : Hash → Prop) (b : List InFlight) :
    ∀ (s : State) (fs : List Bool) (coins : Hash → Prop),
      fs.length = b.length → Apart c b →
      (∀ t ∈ b, t.granted = true → ∀ x, Spends c t.tx x → ¬ other x) →
      (∀ x, coins x ↔ s.uhs x = true ∨ s.locked x = true) →
      (∀ x, ¬ (s.uhs x = true ∧ s.locked x = true)) →
      (∀ x, s.locked x = true ↔ other x ∨ GrantedSpend c b x) →
      Settleable c other b fs coins →
      let s' := applyLoop c s (b.map (·.tx)) fs
      (∀ x, settle c b fs coins x ↔ s'.uhs x = true ∨ s'.locked x = true) ∧
      (∀ x, ¬ (s'.uhs x = true ∧ s'.locked x = true)) ∧
      (∀ x, s'.locked x = true ↔ other x) ∧
      LegalBatch c b fs coins := by
  induction b with
  | nil =>
    intro s fs coins hlen _ _ hc hd hl _
    cases fs with
    | nil =>
      refine ⟨hc, hd, ?_, trivial⟩
      intro x; simp only [List.map_nil, applyLoop]; rw [hl]; simp [GrantedSpend]
    | cons => simp at hlen
  | cons t ts ih =>
    intro s fs coins hlen hap hoth hc hd hl hset
    cases fs with
    | nil => simp at hlen
    | cons f fs =>
      have hlen' : fs.length = ts.length := by simpa using hlen
      have hap' : Apart c ts := (List.pairwise_cons.mp hap).2
      have hsep := (List.pairwise_cons.mp hap).1
      have hoth' : ∀ u ∈ ts, u.granted = true → ∀ x, Spends c u.tx x → ¬ other x :=
        fun u hu => hoth u (List.mem_cons_of_mem _ hu)
      have hgs : ∀ x, GrantedSpend c (t :: ts) x ↔
          (t.granted = true ∧ Spends c t.tx x) ∨ GrantedSpend c ts x := by
        intro x; simp [GrantedSpend]
      have hsets := applyTx_sets c s t.tx f
      simp only [List.map_cons, applyLoop]
      cases f with
      | true =>
        obtain ⟨hg, hfresh, hset'⟩ := hset
        have hheld : ∀ x, Spends c t.tx x → s.locked x = true := fun x hx =>
          (hl x).mpr (Or.inr ((hgs x).mpr (Or.inl ⟨hg, hx⟩)))
        obtain ⟨r1, r2, r3, r4⟩ := ih (applyTx c s t.tx true) fs (takeEffect c t.tx coins) hlen' hap' hoth'
          (by
            intro x
            rw [(hsets x).1, (hsets x).2]
            simp only [takeEffect]
            rw [hc x]
            constructor
            · rintro (⟨h1 | h1, h2⟩ | h)
              · exact Or.inl (Or.inl h1)
              · exact Or.inr ⟨h1, h2⟩
              · exact Or.inl (Or.inr (Or.inl ⟨trivial, h⟩))
            · rintro ((h | ⟨_, h⟩ | ⟨h, _⟩) | ⟨h1, h2⟩)
              · exact Or.inl ⟨Or.inl h, fun hx => hd x ⟨h, hheld x hx⟩⟩
              · exact Or.inr h
              · cases h
              · exact Or.inl ⟨Or.inr h1, h2⟩)
          (by
            intro x
            rw [(hsets x).1, (hsets x).2]
            rintro ⟨h | ⟨_, h⟩ | ⟨h, _⟩, h1, h2⟩
            · exact hd x ⟨h, h1⟩
            · exact hfresh x h ((hc x).mpr (Or.inr h1))
            · cases h)
          (by
            intro x
            rw [(hsets x).2, hl x, hgs x]
            constructor
            · rintro ⟨h | ⟨_, h⟩ | h, h2⟩
              · exact Or.inl h
              · exact absurd h h2
              · exact Or.inr h
            · rintro (h | ⟨u, hu, hug, hux⟩)
              · exact ⟨Or.inl h, fun hx => hoth t (List.mem_cons_self ..) hg x hx h⟩
              · exact ⟨Or.inr (Or.inr ⟨u, hu, hug, hux⟩), fun hx => hsep u hu hg hug x hx hux⟩)
          hset'
        refine ⟨r1, r2, r3, ?_, r4⟩
        intro x hx
        exact (hc x).mpr (Or.inr (hheld x hx))
      | false =>
        obtain ⟨hq, hset'⟩ := hset
        have hloc : ∀ x, Spends c t.tx x → s.locked x = true → t.granted = true := by
          intro x hx hlx
          cases hg : t.granted with
          | true => rfl
          | false =>
            obtain ⟨n1, n2⟩ := hq hg x hx
            rcases (hl x).mp hlx with h | h
            · exact absurd h n1
            · rcases (hgs x).mp h with ⟨h, _⟩ | h
              · simp [hg] at h
              · exact absurd h n2
        obtain ⟨r1, r2, r3, r4⟩ := ih (applyTx c s t.tx false) fs coins hlen' hap' hoth'
          (by
            intro x
            rw [(hsets x).1, (hsets x).2, hc x]
            constructor
            · rintro (h | h)
              · exact Or.inl (Or.inl h)
              · by_cases hx : Spends c t.tx x
                · exact Or.inl (Or.inr (Or.inr ⟨rfl, h, hx⟩))
                · exact Or.inr ⟨h, hx⟩
            · rintro ((h | ⟨h, _⟩ | ⟨_, h, _⟩) | ⟨h, _⟩)
              · exact Or.inl h
              · cases h
              · exact Or.inr h
              · exact Or.inr h)
          (by
            intro x
            rw [(hsets x).1, (hsets x).2]
            rintro ⟨h | ⟨h, _⟩ | ⟨_, _, h⟩, h1, h2⟩
            · exact hd x ⟨h, h1⟩
            · cases h
            · exact h2 h)
          (by
            intro x
            rw [(hsets x).2, hl x, hgs x]
            constructor
            · rintro ⟨h | ⟨_, h⟩ | h, h2⟩
              · exact Or.inl h
              · exact absurd h h2
              · exact Or.inr h
            · intro h
              have hlx : s.locked x = true :=
                (hl x).mpr (h.elim Or.inl fun h => Or.inr ((hgs x).mpr (Or.inr h)))
              refine ⟨h.elim Or.inl fun h => Or.inr (Or.inr h), fun hx => ?_⟩
              have hg := hloc x hx hlx
              rcases h with h | ⟨u, hu, hug, hux⟩
              · exact hoth t (List.mem_cons_self ..) hg x hx h
              · exact hsep u hu hg hug x hx hux)
          hset'
        exact ⟨r1, r2, r3, r4⟩

/-! ### The refinement -/

/-- Some granted transaction in flight holds `x`. -/
def Held (c : Cfg) (l : Ledger) (x : Hash) : Prop :=
  ∃ d b, l.pending d = some b ∧ GrantedSpend c b x

/-- The shard's state agrees with the observer's view. -/
structure Refines (c : Cfg) (l : Ledger) (s : State) : Prop where
  coins : ∀ x, l.coins x ↔ s.uhs x = true ∨ s.locked x = true
  disjoint : ∀ x, ¬ (s.uhs x = true ∧ s.locked x = true)
  held : ∀ x, s.locked x = true ↔ Held c l x
  pending : ∀ d, l.pending d = (s.prepared d).map fun p => view p.txs p.results
  sizes : ∀ d p, s.prepared d = some p → p.results.length = p.txs.length
  apart : ∀ d b, l.pending d = some b → Apart c b
  cross : ∀ d d' b b', d ≠ d' → l.pending d = some b → l.pending d' = some b' →
    ∀ x, GrantedSpend c b x → ¬ GrantedSpend c b' x

theorem refines_init (c : Cfg) (uhs : HSet) : Refines c (Ledger.init uhs) (State.init c uhs) where
  coins x := by simp [Ledger.init, State.init]
  disjoint x := by simp [State.init]
  held x := by simp [State.init, Held, Ledger.init]
  pending d := by simp [State.init, Ledger.init]
  sizes d p h := by simp [State.init] at h
  apart d b h := by simp [Ledger.init] at h
  cross d d' b b' _ h := by simp [Ledger.init] at h

theorem view_map_tx (txs : List CompactTx) (res : List Bool) (h : res.length = txs.length) :
    (view txs res).map (·.tx) = txs := by
  simp only [view, List.map_map]
  rw [show ((fun t : InFlight => t.tx) ∘ fun p : CompactTx × Bool => (⟨p.1, p.2⟩ : InFlight)) = Prod.fst
    from rfl]
  rw [List.map_fst_zip]; omega

theorem refines_lock (c : Cfg) (l : Ledger) (s : State) (h : Refines c l s)
    (txs : List CompactTx) (d : Hash) :
    Refines c (l.next c (.lock txs d) (.lock (lockOutputs c s txs d).2))
      (lockOutputs c s txs d).1 := by
  unfold lockOutputs
  split
  · exact h
  · have hp := h.pending d
    cases hd : s.prepared d with
    | some p =>
      rw [hd] at hp
      simp only [Ledger.next, hp, Option.map_some]
      exact h
    | none =>
      rw [hd] at hp
      simp only [Option.map_none] at hp
      simp only [Ledger.next, hp]
      obtain ⟨f1, f2, f3, f4⟩ := lockLoop_frame c s txs
      have hsets := lockLoop_sets c s txs
      let l' : Ledger := ⟨l.coins, l.born, fun d' =>
        if d' = d then some (view txs (lockLoop c s txs).2) else l.pending d'⟩
      have hheld : ∀ x, Held c l' x ↔
          Held c l x ∨ GrantedSpend c (view txs (lockLoop c s txs).2) x := by
        intro x
        constructor
        · rintro ⟨d', b, hb, hgs⟩
          simp only [l'] at hb
          split at hb
          · cases hb; exact Or.inr hgs
          · exact Or.inl ⟨d', b, hb, hgs⟩
        · rintro (⟨d', b, hb, hgs⟩ | hgs)
          · refine ⟨d', b, ?_, hgs⟩
            have : d' ≠ d := by rintro rfl; rw [hp] at hb; cases hb
            simp [l', this, hb]
          · exact ⟨d, _, by simp [l'], hgs⟩
      have hnew : ∀ x, GrantedSpend c (view txs (lockLoop c s txs).2) x → s.uhs x = true :=
        lockLoop_granted_unspent c s txs
      refine ⟨?_, ?_, ?_, ?_, ?_, ?_, ?_⟩
      · intro x
        simp only
        rw [(hsets x).1, (hsets x).2, h.coins x]
        constructor
        · rintro (a | a)
          · by_cases hx : GrantedSpend c (view txs (lockLoop c s txs).2) x
            · exact Or.inr (Or.inr hx)
            · exact Or.inl ⟨a, hx⟩
          · exact Or.inr (Or.inl a)
        · rintro (⟨a, _⟩ | a | a)
          · exact Or.inl a
          · exact Or.inr a
          · exact Or.inl (hnew x a)
      · intro x
        simp only
        rw [(hsets x).1, (hsets x).2]
        rintro ⟨⟨a, b⟩, a' | b'⟩
        · exact h.disjoint x ⟨a, a'⟩
        · exact b b'
      · intro x
        refine Iff.trans ?_ (hheld x).symm
        simp only
        rw [(hsets x).2, h.held x]
      · intro d'
        simp only
        split
        · rfl
        · rw [f2]; exact h.pending d'
      · intro d' p hpr
        simp only at hpr
        split at hpr
        · cases hpr; exact lockLoop_length c s txs
        · rw [f2] at hpr; exact h.sizes d' p hpr
      · intro d' b hb
        simp only at hb
        split at hb
        · cases hb; exact lockLoop_apart c s txs
        · exact h.apart d' b hb
      · intro d1 d2 b1 b2 hne h1 h2 x g1 g2
        simp only at h1 h2
        split at h1
        · rename_i e1
          split at h2
          · rename_i e2; exact hne (e1.trans e2.symm)
          · cases h1
            exact h.disjoint x ⟨hnew x g1, (h.held x).mpr ⟨d2, b2, h2, g2⟩⟩
        · split at h2
          · cases h2
            exact h.disjoint x ⟨hnew x g2, (h.held x).mpr ⟨d1, b1, h1, g1⟩⟩
          · exact h.cross d1 d2 b1 b2 hne h1 h2 x g1 g2

/-- What the observer assumes about one request. -/
def Disciplined (c : Cfg) (l : Ledger) (r : Req) : Prop :=
  Obedient l r ∧ Fresh c l r ∧ QuietAborts c l r

theorem settleable_of (c : Cfg) (other : Hash → Prop) (b : List InFlight) :
    ∀ (fs : List Bool) (coins : Hash → Prop),
      (∀ (i : Nat) (t : InFlight), b[i]? = some t → fs[i]? = some true → t.granted = true) →
      FreshBatch c b fs coins →
      (∀ (i : Nat) (t : InFlight), b[i]? = some t → fs[i]? = some false → t.granted = false →
        ∀ x, Spends c t.tx x → ¬ other x ∧
          ¬ ∃ (j : Nat) (u : InFlight), i < j ∧ b[j]? = some u ∧ u.granted = true ∧ Spends c u.tx x) →
      Settleable c other b fs coins := by
  induction b with
  | nil => intro fs coins _ _ _; cases fs <;> trivial
  | cons t ts ih =>
    intro fs coins h1 h2 h3
    cases fs with
    | nil => trivial
    | cons f fs =>
      have e1 : ∀ (i : Nat) (u : InFlight), ts[i]? = some u → fs[i]? = some true →
          u.granted = true := fun i u hu hf => h1 (i + 1) u (by simpa using hu) (by simpa using hf)
      have e3 : ∀ (i : Nat) (u : InFlight), ts[i]? = some u → fs[i]? = some false →
          u.granted = false → ∀ x, Spends c u.tx x → ¬ other x ∧
            ¬ ∃ (j : Nat) (w : InFlight), i < j ∧ ts[j]? = some w ∧ w.granted = true ∧
              Spends c w.tx x := by
        intro i u hu hf hg x hx
        obtain ⟨a, b⟩ := h3 (i + 1) u (by simpa using hu) (by simpa using hf) hg x hx
        exact ⟨a, fun ⟨j, w, hij, hw, r⟩ => b ⟨j + 1, w, by omega, by simpa using hw, r⟩⟩
      cases f with
      | true =>
        obtain ⟨f1, f2⟩ := h2
        exact ⟨h1 0 t rfl rfl, f1, ih fs _ e1 f2 e3⟩
      | false =>
        refine ⟨?_, ih fs _ e1 h2 e3⟩
        intro hg x hx
        obtain ⟨a, b⟩ := h3 0 t rfl rfl hg x hx
        refine ⟨a, ?_⟩
        rintro ⟨u, hu, hug, hux⟩
        obtain ⟨j, hj⟩ := List.getElem?_of_mem hu
        exact b ⟨j + 1, u, by omega, by simpa using hj, hug, hux⟩

theorem refines_apply (c : Cfg) (l : Ledger) (s : State) (h : Refines c l s)
    (fs : List Bool) (d : Hash) (hD : Disciplined c l (.apply fs d)) (s' : State) (ok : Bool)
    (hs : applyOutputs c s fs d = some (s', ok)) :
    Refines c (l.next c (.apply fs d) (.apply ok)) s' ∧ Legal c l (.apply fs d) (.apply ok) := by
  unfold applyOutputs at hs
  split at hs
  · cases hs; exact ⟨h, trivial⟩
  · have hp := h.pending d
    cases hd : s.prepared d with
    | none =>
      rw [hd] at hp hs
      simp only [Option.map_none] at hp
      simp only at hs
      split at hs
      · cases hs
        refine ⟨?_, ?_⟩
        · simp only [Ledger.next, hp]; exact h
        · intro b hb; rw [hp] at hb; cases hb
      · cases hs
    | some p =>
      rw [hd] at hp hs
      simp only [Option.map_some] at hp
      simp only at hs
      split at hs
      · cases hs
      rename_i hlen
      simp only [Decidable.not_not] at hlen
      cases hs
      have hsz := h.sizes d p hd
      have hvl : (view p.txs p.results).length = p.txs.length := by
        simp [view, hsz]
      obtain ⟨ob, fr, qa⟩ := hD
      let other : Hash → Prop := fun x =>
        ∃ d' b, d' ≠ d ∧ l.pending d' = some b ∧ GrantedSpend c b x
      have hsettle : Settleable c other (view p.txs p.results) fs l.coins := by
        refine settleable_of c other _ fs l.coins (ob _ hp) (fr _ hp) ?_
        intro i t hi hf hg x hx
        have := qa _ hp i t hi hf hg x hx
        refine ⟨?_, ?_⟩
        · rintro ⟨d', b, hne, hb, u, hu, hug, hux⟩
          obtain ⟨j, hj⟩ := List.getElem?_of_mem hu
          exact this ⟨d', b, j, u, hb, hj, hug, hux, Or.inl hne⟩
        · rintro ⟨j, u, hij, hu, hug, hux⟩
          exact this ⟨d, _, j, u, hp, hu, hug, hux, Or.inr hij⟩
      obtain ⟨r1, r2, r3, r4⟩ := applyLoop_refines c other (view p.txs p.results) s fs l.coins
        (by omega) (h.apart d _ hp)
        (by
          rintro t ht hg x hx ⟨d', b, hne, hb, hgs⟩
          exact h.cross d' d b _ hne hb hp x hgs ⟨t, ht, hg, hx⟩)
        h.coins h.disjoint
        (by
          intro x
          rw [h.held x]
          constructor
          · rintro ⟨d', b, hb, hgs⟩
            by_cases hne : d' = d
            · subst hne; rw [hp] at hb; cases hb; exact Or.inr hgs
            · exact Or.inl ⟨d', b, hne, hb, hgs⟩
          · rintro (⟨d', b, hne, hb, hgs⟩ | hgs)
            · exact ⟨d', b, hb, hgs⟩
            · exact ⟨d, _, hp, hgs⟩)
        hsettle
      rw [view_map_tx p.txs p.results hsz] at r1 r2 r3
      obtain ⟨f1, f2, f3⟩ := applyLoop_frame c s p.txs fs
      refine ⟨?_, ?_⟩
      · simp only [Ledger.next, hp]
        refine ⟨r1, r2, ?_, ?_, ?_, ?_, ?_⟩
        · intro x
          refine (r3 x).trans ?_
          constructor
          · rintro ⟨d', b, hne, hb, hgs⟩; exact ⟨d', b, by simp [hne, hb], hgs⟩
          · rintro ⟨d', b, hb, hgs⟩
            simp only at hb
            split at hb
            · cases hb
            · rename_i hne; exact ⟨d', b, hne, hb, hgs⟩
        · intro d'
          simp only
          split
          · rfl
          · rw [f2]; exact h.pending d'
        · intro d' q hq
          simp only at hq
          split at hq
          · cases hq
          · rw [f2] at hq; exact h.sizes d' q hq
        · intro d' b hb
          simp only at hb
          split at hb
          · cases hb
          · exact h.apart d' b hb
        · intro d1 d2 b1 b2 hne h1 h2
          simp only at h1 h2
          split at h1
          · cases h1
          · split at h2
            · cases h2
            · exact h.cross d1 d2 b1 b2 hne h1 h2
      · intro b hb; rw [hp] at hb; cases hb; exact r4

theorem refines_step (c : Cfg) (l : Ledger) (s : State) (h : Refines c l s) (r : Req)
    (hD : Disciplined c l r) (s' : State) (a : Resp) (hs : step c s r = some (s', a)) :
    Refines c (l.next c r a) s' ∧ Legal c l r a := by
  cases r with
  | lock txs d =>
    simp only [step, Option.some.injEq, Prod.mk.injEq] at hs
    obtain ⟨rfl, rfl⟩ := hs
    exact ⟨refines_lock c l s h txs d, by simp [Legal]⟩
  | apply fs d =>
    simp only [step, Option.map_eq_some_iff] at hs
    obtain ⟨⟨s1, ok⟩, h1, h2⟩ := hs
    cases h2
    exact refines_apply c l s h fs d hD s1 ok h1
  | discard d =>
    simp only [step, Option.some.injEq, Prod.mk.injEq] at hs
    obtain ⟨rfl, rfl⟩ := hs
    refine ⟨?_, by simp [Legal]⟩
    simp only [discardDtx, Ledger.next]
    split
    · exact ⟨h.coins, h.disjoint, h.held, h.pending, h.sizes, h.apart, h.cross⟩
    · exact h
  | stop =>
    simp only [step, Option.some.injEq, Prod.mk.injEq] at hs
    obtain ⟨rfl, rfl⟩ := hs
    exact ⟨⟨h.coins, h.disjoint, h.held, h.pending, h.sizes, h.apart, h.cross⟩, by simp [Legal]⟩

theorem run_cons (c : Cfg) (s : State) (r : Req) (rs : List Req) (s' : State) (as : List Resp)
    (h : run c s (r :: rs) = some (s', as)) :
    ∃ s1 a as', step c s r = some (s1, a) ∧ run c s1 rs = some (s', as') ∧ as = a :: as' := by
  simp only [run, Option.bind_eq_bind, Option.bind_eq_some_iff] at h
  obtain ⟨⟨s1, a⟩, h1, ⟨s2, as'⟩, h2, h3⟩ := h
  simp only [Option.some.injEq, Prod.mk.injEq] at h3
  obtain ⟨rfl, rfl⟩ := h3
  exact ⟨s1, a, as', h1, h2, rfl⟩

theorem refines_run (c : Cfg) (rs : List Req) :
    ∀ (l : Ledger) (s : State) (as : List Resp) (s' : State), Refines c l s →
      run c s rs = some (s', as) →
      Always c (fun l r _ => Disciplined c l r) l rs as →
      Refines c (l.after c rs as) s' ∧ Always c (Legal c) l rs as := by
  induction rs with
  | nil =>
    intro l s as s' h hr _
    simp only [run, Option.some.injEq, Prod.mk.injEq] at hr
    obtain ⟨rfl, rfl⟩ := hr
    exact ⟨h, trivial⟩
  | cons r rs ih =>
    intro l s as s' h hr hD
    obtain ⟨s1, a, as', h1, h2, rfl⟩ := run_cons c s r rs s' as hr
    obtain ⟨d1, d2⟩ := hD
    obtain ⟨g1, g2⟩ := refines_step c l s h r d1 s1 a h1
    obtain ⟨i1, i2⟩ := ih _ s1 as' s' g1 h2 d2
    exact ⟨i1, g2, i2⟩

/-! ### Settling a batch -/

theorem settle_of_coin (c : Cfg) (b : List InFlight) (x : Hash) :
    ∀ (fs : List Bool) (coins : Hash → Prop), coins x →
      (∀ (i : Nat) (t : InFlight), b[i]? = some t → fs[i]? = some true → ¬ Spends c t.tx x) →
      settle c b fs coins x := by
  induction b with
  | nil => intro fs coins h _; cases fs <;> exact h
  | cons t ts ih =>
    intro fs coins h hn
    rcases fs with _ | ⟨_ | _, fs⟩
    · exact h
    · exact ih fs coins h fun i u hu hf => hn (i + 1) u (by simpa using hu) (by simpa using hf)
    · exact ih fs _ (Or.inl ⟨h, hn 0 t rfl rfl⟩)
        fun i u hu hf => hn (i + 1) u (by simpa using hu) (by simpa using hf)

theorem settle_cases (c : Cfg) (b : List InFlight) (x : Hash) :
    ∀ (fs : List Bool) (coins : Hash → Prop), settle c b fs coins x →
      (coins x ∧ ∀ (i : Nat) (t : InFlight), b[i]? = some t → fs[i]? = some true →
        ¬ Spends c t.tx x) ∨
      ∃ (i : Nat) (t : InFlight), b[i]? = some t ∧ fs[i]? = some true ∧ Creates c t.tx x := by
  induction b with
  | nil => intro fs coins h; cases fs <;> exact Or.inl ⟨h, by simp⟩
  | cons t ts ih =>
    intro fs coins h
    rcases fs with _ | ⟨_ | _, fs⟩
    · exact Or.inl ⟨h, by simp⟩
    · rcases ih fs coins h with ⟨a, b⟩ | ⟨i, u, a, b, d⟩
      · refine Or.inl ⟨a, ?_⟩
        rintro (_ | i) u hu hf
        · simp at hf
        · exact b i u (by simpa using hu) (by simpa using hf)
      · exact Or.inr ⟨i + 1, u, by simpa using a, by simpa using b, d⟩
    · rcases ih fs _ h with ⟨⟨a, a'⟩ | a, b⟩ | ⟨i, u, a, b, d⟩
      · refine Or.inl ⟨a, ?_⟩
        rintro (_ | i) u hu hf
        · simp only [List.getElem?_cons_zero, Option.some.injEq] at hu; subst hu; exact a'
        · exact b i u (by simpa using hu) (by simpa using hf)
      · exact Or.inr ⟨0, t, rfl, rfl, a⟩
      · exact Or.inr ⟨i + 1, u, by simpa using a, by simpa using b, d⟩

/-! ### Unspent and locked stay disjoint when ids are created once -/

structure Known (l : Ledger) (s : State) : Prop where
  known : ∀ x, s.uhs x = true ∨ s.locked x = true → l.born x
  disjoint : ∀ x, ¬ (s.uhs x = true ∧ s.locked x = true)
  pending : ∀ d, l.pending d = (s.prepared d).map fun p => view p.txs p.results
  sizes : ∀ d p, s.prepared d = some p → p.results.length = p.txs.length

theorem applyLoop_known (c : Cfg) (b : List InFlight) :
    ∀ (s : State) (fs : List Bool) (born : Hash → Prop),
      (∀ x, s.uhs x = true ∨ s.locked x = true → born x) →
      (∀ x, ¬ (s.uhs x = true ∧ s.locked x = true)) →
      NewBatch c b fs born →
      (∀ x, (applyLoop c s (b.map (·.tx)) fs).uhs x = true ∨
        (applyLoop c s (b.map (·.tx)) fs).locked x = true → bear c b fs born x) ∧
      (∀ x, ¬ ((applyLoop c s (b.map (·.tx)) fs).uhs x = true ∧
        (applyLoop c s (b.map (·.tx)) fs).locked x = true)) := by
  induction b with
  | nil => intro s fs born h1 h2 _; cases fs <;> exact ⟨h1, h2⟩
  | cons t ts ih =>
    intro s fs born h1 h2 hn
    rcases fs with _ | ⟨f, fs⟩
    · exact ⟨h1, h2⟩
    have hsets := applyTx_sets c s t.tx f
    cases f with
    | false =>
      refine ih (applyTx c s t.tx false) fs born ?_ ?_ hn
      · intro x
        rw [(hsets x).1, (hsets x).2]
        rintro ((h | ⟨h, _⟩ | ⟨_, h, _⟩) | ⟨h, _⟩)
        · exact h1 x (Or.inl h)
        · cases h
        · exact h1 x (Or.inr h)
        · exact h1 x (Or.inr h)
      · intro x
        rw [(hsets x).1, (hsets x).2]
        rintro ⟨h | ⟨h, _⟩ | ⟨_, _, h⟩, g, g'⟩
        · exact h2 x ⟨h, g⟩
        · cases h
        · exact g' h
    | true =>
      obtain ⟨n1, n2⟩ := hn
      refine ih (applyTx c s t.tx true) fs _ ?_ ?_ n2
      · intro x
        rw [(hsets x).1, (hsets x).2]
        rintro ((h | ⟨_, h⟩ | ⟨h, _⟩) | ⟨h, _⟩)
        · exact Or.inl (h1 x (Or.inl h))
        · exact Or.inr h
        · cases h
        · exact Or.inl (h1 x (Or.inr h))
      · intro x
        rw [(hsets x).1, (hsets x).2]
        rintro ⟨h | ⟨_, h⟩ | ⟨h, _⟩, g, g'⟩
        · exact h2 x ⟨h, g⟩
        · exact n1 x h (h1 x (Or.inr g))
        · cases h

theorem known_step (c : Cfg) (l : Ledger) (s : State) (h : Known l s) (r : Req)
    (hN : NeverReborn c l r) (s' : State) (a : Resp) (hs : step c s r = some (s', a)) :
    Known (l.next c r a) s' := by
  cases r with
  | lock txs d =>
    simp only [step, Option.some.injEq, Prod.mk.injEq] at hs
    obtain ⟨rfl, rfl⟩ := hs
    unfold lockOutputs
    split
    · exact h
    · have hp := h.pending d
      cases hd : s.prepared d with
      | some p =>
        rw [hd] at hp
        simp only [Ledger.next, hp, Option.map_some]
        exact h
      | none =>
        rw [hd] at hp
        simp only [Option.map_none] at hp
        simp only [Ledger.next, hp]
        obtain ⟨f1, f2, f3, f4⟩ := lockLoop_frame c s txs
        have hsets := lockLoop_sets c s txs
        have hnew := lockLoop_granted_unspent c s txs
        refine ⟨?_, ?_, ?_, ?_⟩
        · intro x
          simp only
          rw [(hsets x).1, (hsets x).2]
          rintro (⟨g, _⟩ | g | g)
          · exact h.known x (Or.inl g)
          · exact h.known x (Or.inr g)
          · exact h.known x (Or.inl (hnew x g))
        · intro x
          simp only
          rw [(hsets x).1, (hsets x).2]
          rintro ⟨⟨a, b⟩, a' | b'⟩
          · exact h.disjoint x ⟨a, a'⟩
          · exact b b'
        · intro d'
          simp only
          split
          · rfl
          · rw [f2]; exact h.pending d'
        · intro d' p hpr
          simp only at hpr
          split at hpr
          · cases hpr; exact lockLoop_length c s txs
          · rw [f2] at hpr; exact h.sizes d' p hpr
  | apply fs d =>
    simp only [step, Option.map_eq_some_iff] at hs
    obtain ⟨⟨s1, ok⟩, h1, h2⟩ := hs
    cases h2
    unfold applyOutputs at h1
    split at h1
    · cases h1; exact h
    · have hp := h.pending d
      cases hd : s.prepared d with
      | none =>
        rw [hd] at hp h1
        simp only [Option.map_none] at hp
        simp only at h1
        split at h1
        · cases h1; simp only [Ledger.next, hp]; exact h
        · cases h1
      | some p =>
        rw [hd] at hp h1
        simp only [Option.map_some] at hp
        simp only at h1
        split at h1
        · cases h1
        rename_i hlen
        cases h1
        have hsz := h.sizes d p hd
        obtain ⟨k1, k2⟩ := applyLoop_known c (view p.txs p.results) s fs l.born h.known h.disjoint
          (hN _ hp)
        rw [view_map_tx p.txs p.results hsz] at k1 k2
        obtain ⟨f1, f2, f3⟩ := applyLoop_frame c s p.txs fs
        simp only [Ledger.next, hp]
        refine ⟨k1, k2, ?_, ?_⟩
        · intro d'
          simp only
          split
          · rfl
          · rw [f2]; exact h.pending d'
        · intro d' q hq
          simp only at hq
          split at hq
          · cases hq
          · rw [f2] at hq; exact h.sizes d' q hq
  | discard d =>
    simp only [step, Option.some.injEq, Prod.mk.injEq] at hs
    obtain ⟨rfl, rfl⟩ := hs
    simp only [discardDtx, Ledger.next]
    split
    · exact ⟨h.known, h.disjoint, h.pending, h.sizes⟩
    · exact h
  | stop =>
    simp only [step, Option.some.injEq, Prod.mk.injEq] at hs
    obtain ⟨rfl, rfl⟩ := hs
    exact ⟨h.known, h.disjoint, h.pending, h.sizes⟩

theorem known_run (c : Cfg) (rs : List Req) :
    ∀ (l : Ledger) (s : State) (as : List Resp) (s' : State), Known l s →
      run c s rs = some (s', as) → Always c (fun l r _ => NeverReborn c l r) l rs as →
      Known (l.after c rs as) s' := by
  induction rs with
  | nil =>
    intro l s as s' h hr _
    simp only [run, Option.some.injEq, Prod.mk.injEq] at hr
    obtain ⟨rfl, rfl⟩ := hr
    exact h
  | cons r rs ih =>
    intro l s as s' h hr hD
    obtain ⟨s1, a, as', h1, h2, rfl⟩ := run_cons c s r rs s' as hr
    obtain ⟨d1, d2⟩ := hD
    exact ih _ s1 as' s' (known_step c l s h r d1 s1 a h1) h2 d2

/-! ### What a history leaves alone -/

theorem step_prepared (c : Cfg) (s : State) (r : Req) (s' : State) (a : Resp) (d : Hash)
    (p : Prepared) (h : step c s r = some (s', a)) (hp : s.prepared d = some p)
    (hr : ∀ fs, r ≠ .apply fs d) : s'.prepared d = some p := by
  cases r with
  | lock txs d' =>
    simp only [step, Option.some.injEq, Prod.mk.injEq] at h
    obtain ⟨rfl, rfl⟩ := h
    unfold lockOutputs
    split
    · exact hp
    · cases hd : s.prepared d' with
      | some q => exact hp
      | none =>
        have hne : d ≠ d' := by rintro rfl; rw [hd] at hp; cases hp
        simp only [hne, if_false, (lockLoop_frame c s txs).2.1]
        exact hp
  | apply fs d' =>
    simp only [step, Option.map_eq_some_iff] at h
    obtain ⟨⟨s1, ok⟩, h1, h2⟩ := h
    cases h2
    have hne : d ≠ d' := by rintro rfl; exact hr fs rfl
    unfold applyOutputs at h1
    split at h1
    · cases h1; exact hp
    · split at h1
      · split at h1
        · cases h1; exact hp
        · cases h1
      · split at h1
        · cases h1
        · cases h1
          simp only [hne, if_false]
          rw [(applyLoop_frame c s _ fs).2.1]; exact hp
  | discard d' =>
    simp only [step, Option.some.injEq, Prod.mk.injEq] at h
    obtain ⟨rfl, rfl⟩ := h
    simp only [discardDtx]
    split <;> exact hp
  | stop =>
    simp only [step, Option.some.injEq, Prod.mk.injEq] at h
    obtain ⟨rfl, rfl⟩ := h
    exact hp

theorem step_unprepared (c : Cfg) (s : State) (r : Req) (s' : State) (a : Resp) (d : Hash)
    (h : step c s r = some (s', a)) (hp : s.prepared d = none)
    (hr : ∀ txs, r ≠ .lock txs d) : s'.prepared d = none := by
  cases r with
  | lock txs d' =>
    simp only [step, Option.some.injEq, Prod.mk.injEq] at h
    obtain ⟨rfl, rfl⟩ := h
    have hne : d ≠ d' := by rintro rfl; exact hr txs rfl
    unfold lockOutputs
    split
    · exact hp
    · split
      · exact hp
      · simp only [hne, if_false, (lockLoop_frame c s txs).2.1]
        exact hp
  | apply fs d' =>
    simp only [step, Option.map_eq_some_iff] at h
    obtain ⟨⟨s1, ok⟩, h1, h2⟩ := h
    cases h2
    unfold applyOutputs at h1
    split at h1
    · cases h1; exact hp
    · split at h1
      · split at h1
        · cases h1; exact hp
        · cases h1
      · split at h1
        · cases h1
        · cases h1
          simp only
          split
          · rfl
          · rw [(applyLoop_frame c s _ fs).2.1]; exact hp
  | discard d' =>
    simp only [step, Option.some.injEq, Prod.mk.injEq] at h
    obtain ⟨rfl, rfl⟩ := h
    simp only [discardDtx]
    split <;> exact hp
  | stop =>
    simp only [step, Option.some.injEq, Prod.mk.injEq] at h
    obtain ⟨rfl, rfl⟩ := h
    exact hp

theorem step_running (c : Cfg) (s : State) (r : Req) (s' : State) (a : Resp)
    (h : step c s r = some (s', a)) (hr : r ≠ .stop) : s'.running = s.running := by
  cases r with
  | lock txs d' =>
    simp only [step, Option.some.injEq, Prod.mk.injEq] at h
    obtain ⟨rfl, rfl⟩ := h
    unfold lockOutputs
    split
    · rfl
    · split
      · rfl
      · exact (lockLoop_frame c s txs).1
  | apply fs d' =>
    simp only [step, Option.map_eq_some_iff] at h
    obtain ⟨⟨s1, ok⟩, h1, h2⟩ := h
    cases h2
    unfold applyOutputs at h1
    split at h1
    · cases h1; rfl
    · split at h1
      · split at h1
        · cases h1; rfl
        · cases h1
      · split at h1
        · cases h1
        · cases h1; exact (applyLoop_frame c s _ fs).1
  | discard d' =>
    simp only [step, Option.some.injEq, Prod.mk.injEq] at h
    obtain ⟨rfl, rfl⟩ := h
    simp only [discardDtx]
    split <;> rfl
  | stop => exact absurd rfl hr

theorem step_applied (c : Cfg) (s : State) (r : Req) (s' : State) (a : Resp) (d : Hash)
    (h : step c s r = some (s', a)) :
    (s.applied d = true → r ≠ .discard d → s'.applied d = true) ∧
      (s.applied d = false → (∀ fs, r ≠ .apply fs d) → s'.applied d = false) := by
  cases r with
  | lock txs d' =>
    simp only [step, Option.some.injEq, Prod.mk.injEq] at h
    obtain ⟨rfl, rfl⟩ := h
    have : (lockOutputs c s txs d').1.applied = s.applied := by
      unfold lockOutputs
      split
      · rfl
      · split
        · rfl
        · exact (lockLoop_frame c s txs).2.2.1
    rw [this]
    exact ⟨fun h _ => h, fun h _ => h⟩
  | apply fs d' =>
    simp only [step, Option.map_eq_some_iff] at h
    obtain ⟨⟨s1, ok⟩, h1, h2⟩ := h
    cases h2
    unfold applyOutputs at h1
    split at h1
    · cases h1; exact ⟨fun h _ => h, fun h _ => h⟩
    · split at h1
      · split at h1
        · cases h1; exact ⟨fun h _ => h, fun h _ => h⟩
        · cases h1
      · split at h1
        · cases h1
        · cases h1
          simp only [HSet.add]
          rw [(applyLoop_frame c s _ fs).2.2]
          constructor
          · intro h _; simp [h]
          · intro h hne
            have : d ≠ d' := by rintro rfl; exact hne fs rfl
            simp [this, h]
  | discard d' =>
    simp only [step, Option.some.injEq, Prod.mk.injEq] at h
    obtain ⟨rfl, rfl⟩ := h
    simp only [discardDtx]
    split
    · simp only [HSet.del]
      constructor
      · intro h hne
        have : d ≠ d' := by rintro rfl; exact hne rfl
        simp [this, h]
      · intro h _; simp [h]
    · exact ⟨fun h _ => h, fun h _ => h⟩
  | stop =>
    simp only [step, Option.some.injEq, Prod.mk.injEq] at h
    obtain ⟨rfl, rfl⟩ := h
    exact ⟨fun h _ => h, fun h _ => h⟩

/-- Induction over a history for a state predicate kept by the requests in it. -/
theorem run_keeps (c : Cfg) (P : State → Prop) (rs : List Req)
    (hstep : ∀ s r s' a, r ∈ rs → P s → step c s r = some (s', a) → P s') :
    ∀ (s s' : State) (as : List Resp), P s → run c s rs = some (s', as) → P s' := by
  induction rs with
  | nil =>
    intro s s' as h hr
    simp only [run, Option.some.injEq, Prod.mk.injEq] at hr
    exact hr.1 ▸ h
  | cons r rs ih =>
    intro s s' as h hr
    obtain ⟨s1, a, as', h1, h2, rfl⟩ := run_cons c s r rs s' as hr
    exact ih (fun s r s' a hr => hstep s r s' a (List.mem_cons_of_mem _ hr)) s1 s' as'
      (hstep s r s1 a (List.mem_cons_self ..) h h1) h2

/-! ### The cache of decided transactions -/

theorem addAll_append {K : Type} [DecidableEq K] (s : CacheSet K) (as bs : List K) :
    (s.addAll (as ++ bs)).1 = ((s.addAll as).1.addAll bs).1 := by
  induction as generalizing s with
  | nil => rfl
  | cons a as ih => simp [CacheSet.addAll, ih]

theorem applyLoop_completed (c : Cfg) (ts : List CompactTx) :
    ∀ (s : State) (fs : List Bool), fs.length = ts.length →
      (applyLoop c s ts fs).completed =
        (s.completed.addAll (ts.filterMap fun t => if c.owns t.id then some t.id else none)).1 := by
  induction ts with
  | nil => intro s fs h; cases fs <;> rfl
  | cons t ts ih =>
    intro s fs h
    cases fs with
    | nil => simp at h
    | cons f fs =>
      simp only [applyLoop]
      rw [ih _ fs (by simpa using h), (applyTx_frame c s t f).2.2.2]
      by_cases ho : c.owns t.id = true <;> simp [ho, CacheSet.addAll]

/-- Pending batches and the cache agree with the observer. -/
structure Tracks (l : Ledger) (s : State) : Prop where
  pending : ∀ d, l.pending d = (s.prepared d).map fun p => view p.txs p.results
  sizes : ∀ d p, s.prepared d = some p → p.results.length = p.txs.length

theorem tracks_step (c : Cfg) (l : Ledger) (s : State) (h : Tracks l s) (r : Req)
    (s' : State) (a : Resp) (hs : step c s r = some (s', a)) :
    Tracks (l.next c r a) s' ∧
      s'.completed = (s.completed.addAll (decidedIds c l [r] [a])).1 := by
  cases r with
  | lock txs d =>
    simp only [step, Option.some.injEq, Prod.mk.injEq] at hs
    obtain ⟨rfl, rfl⟩ := hs
    unfold lockOutputs
    split
    · exact ⟨h, rfl⟩
    · have hp := h.pending d
      cases hd : s.prepared d with
      | some p =>
        rw [hd] at hp
        simp only [Ledger.next, hp, Option.map_some]
        exact ⟨h, rfl⟩
      | none =>
        rw [hd] at hp
        simp only [Option.map_none] at hp
        simp only [Ledger.next, hp]
        obtain ⟨f1, f2, f3, f4⟩ := lockLoop_frame c s txs
        refine ⟨⟨?_, ?_⟩, ?_⟩
        · intro d'
          simp only
          split
          · rfl
          · rw [f2]; exact h.pending d'
        · intro d' p hpr
          simp only at hpr
          split at hpr
          · cases hpr; exact lockLoop_length c s txs
          · rw [f2] at hpr; exact h.sizes d' p hpr
        · simp [decidedIds, CacheSet.addAll, f4]
  | apply fs d =>
    simp only [step, Option.map_eq_some_iff] at hs
    obtain ⟨⟨s1, ok⟩, h1, h2⟩ := hs
    cases h2
    unfold applyOutputs at h1
    split at h1
    · cases h1; exact ⟨h, rfl⟩
    · have hp := h.pending d
      cases hd : s.prepared d with
      | none =>
        rw [hd] at hp h1
        simp only [Option.map_none] at hp
        simp only at h1
        split at h1
        · cases h1
          simp only [Ledger.next, hp]
          exact ⟨h, by simp [decidedIds, hp, CacheSet.addAll]⟩
        · cases h1
      | some p =>
        rw [hd] at hp h1
        simp only [Option.map_some] at hp
        simp only at h1
        split at h1
        · cases h1
        rename_i hlen
        simp only [Decidable.not_not] at hlen
        cases h1
        have hsz := h.sizes d p hd
        obtain ⟨f1, f2, f3⟩ := applyLoop_frame c s p.txs fs
        refine ⟨?_, ?_⟩
        · simp only [Ledger.next, hp]
          refine ⟨?_, ?_⟩
          · intro d'
            simp only
            split
            · rfl
            · rw [f2]; exact h.pending d'
          · intro d' q hq
            simp only at hq
            split at hq
            · cases hq
            · rw [f2] at hq; exact h.sizes d' q hq
        · simp only [decidedIds, hp, Option.getD_some, List.append_nil]
          rw [applyLoop_completed c p.txs s fs hlen]
          conv => lhs; rw [← view_map_tx p.txs p.results hsz, List.filterMap_map]
          rfl
  | discard d =>
    simp only [step, Option.some.injEq, Prod.mk.injEq] at hs
    obtain ⟨rfl, rfl⟩ := hs
    simp only [discardDtx, Ledger.next]
    split
    · exact ⟨⟨h.pending, h.sizes⟩, rfl⟩
    · exact ⟨h, rfl⟩
  | stop =>
    simp only [step, Option.some.injEq, Prod.mk.injEq] at hs
    obtain ⟨rfl, rfl⟩ := hs
    exact ⟨⟨h.pending, h.sizes⟩, rfl⟩

theorem tracks_run (c : Cfg) (rs : List Req) :
    ∀ (l : Ledger) (s : State) (as : List Resp) (s' : State), Tracks l s →
      run c s rs = some (s', as) →
      s'.completed = (s.completed.addAll (decidedIds c l rs as)).1 := by
  induction rs with
  | nil =>
    intro l s as s' h hr
    simp only [run, Option.some.injEq, Prod.mk.injEq] at hr
    obtain ⟨rfl, rfl⟩ := hr
    rfl
  | cons r rs ih =>
    intro l s as s' h hr
    obtain ⟨s1, a, as', h1, h2, rfl⟩ := run_cons c s r rs s' as hr
    obtain ⟨t1, t2⟩ := tracks_step c l s h r s1 a h1
    rw [ih _ s1 as' s' t1 h2, t2, ← addAll_append]
    simp [decidedIds]

end Verif.LockingShard
