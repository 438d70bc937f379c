import Verif.LockingShard.Lemmas

/-! What a shard's coins are after a batch, told without the order of its transactions. -/
namespace Verif.LockingShard

open Verif.Tx

/-- Some completed transaction of the batch creates `x`. -/
def BatchCreates (c : Cfg) (b : List InFlight) (fs : List Bool) (x : Hash) : Prop :=
  ∃ (j : Nat) (t : InFlight), b[j]? = some t ∧ fs[j]? = some true ∧ Creates c t.tx x

/-- Some completed transaction of the batch spends `x`. -/
def BatchSpends (c : Cfg) (b : List InFlight) (fs : List Bool) (x : Hash) : Prop :=
  ∃ (j : Nat) (t : InFlight), b[j]? = some t ∧ fs[j]? = some true ∧ Spends c t.tx x

/-- What completed transactions of the batch create is not there yet, and created once. -/
def NewIn (c : Cfg) (b : List InFlight) (fs : List Bool) (coins : Hash → Prop) : Prop :=
  ∀ (j : Nat) (t : InFlight) (x : Hash), b[j]? = some t → fs[j]? = some true → Creates c t.tx x →
    ¬ coins x ∧ ∀ (j' : Nat) (t' : InFlight), b[j']? = some t' → fs[j']? = some true →
      Creates c t'.tx x → j' = j

theorem batchCreates_cons (c : Cfg) (t : InFlight) (b : List InFlight) (f : Bool) (fs : List Bool)
    (x : Hash) : BatchCreates c (t :: b) (f :: fs) x ↔
      (f = true ∧ Creates c t.tx x) ∨ BatchCreates c b fs x := by
  constructor
  · rintro ⟨j, u, h1, h2, h3⟩
    cases j with
    | zero =>
      simp only [List.getElem?_cons_zero, Option.some.injEq] at h1 h2
      subst h1 h2; exact .inl ⟨rfl, h3⟩
    | succ j => exact .inr ⟨j, u, by simpa using h1, by simpa using h2, h3⟩
  · rintro (⟨rfl, h⟩ | ⟨j, u, h1, h2, h3⟩)
    · exact ⟨0, t, rfl, rfl, h⟩
    · exact ⟨j + 1, u, by simpa using h1, by simpa using h2, h3⟩

theorem batchSpends_cons (c : Cfg) (t : InFlight) (b : List InFlight) (f : Bool) (fs : List Bool)
    (x : Hash) : BatchSpends c (t :: b) (f :: fs) x ↔
      (f = true ∧ Spends c t.tx x) ∨ BatchSpends c b fs x := by
  constructor
  · rintro ⟨j, u, h1, h2, h3⟩
    cases j with
    | zero =>
      simp only [List.getElem?_cons_zero, Option.some.injEq] at h1 h2
      subst h1 h2; exact .inl ⟨rfl, h3⟩
    | succ j => exact .inr ⟨j, u, by simpa using h1, by simpa using h2, h3⟩
  · rintro (⟨rfl, h⟩ | ⟨j, u, h1, h2, h3⟩)
    · exact ⟨0, t, rfl, rfl, h⟩
    · exact ⟨j + 1, u, by simpa using h1, by simpa using h2, h3⟩

theorem newIn_tail {c : Cfg} {t : InFlight} {b : List InFlight} {fs : List Bool}
    {coins : Hash → Prop} (h : NewIn c (t :: b) (true :: fs) coins) :
    NewIn c b fs (takeEffect c t.tx coins) := by
  intro j u x h1 h2 h3
  obtain ⟨g1, g2⟩ := h (j + 1) u x (by simpa using h1) (by simpa using h2) h3
  refine ⟨?_, fun j' u' k1 k2 k3 => ?_⟩
  · rintro (⟨h4, -⟩ | h4)
    · exact g1 h4
    · have := g2 0 t rfl rfl h4
      omega
  · have := g2 (j' + 1) u' (by simpa using k1) (by simpa using k2) k3
    omega

theorem newIn_skip {c : Cfg} {t : InFlight} {b : List InFlight} {fs : List Bool}
    {coins : Hash → Prop} (h : NewIn c (t :: b) (false :: fs) coins) : NewIn c b fs coins := by
  intro j u x h1 h2 h3
  obtain ⟨g1, g2⟩ := h (j + 1) u x (by simpa using h1) (by simpa using h2) h3
  refine ⟨g1, fun j' u' k1 k2 k3 => ?_⟩
  have := g2 (j' + 1) u' (by simpa using k1) (by simpa using k2) k3
  omega

theorem newIn_fresh (c : Cfg) (b : List InFlight) :
    ∀ (fs : List Bool) (coins : Hash → Prop), NewIn c b fs coins → FreshBatch c b fs coins := by
  induction b with
  | nil => intro fs coins _; cases fs <;> trivial
  | cons t b ih =>
    intro fs coins h
    rcases fs with _ | ⟨_ | _, fs⟩
    · trivial
    · exact ih fs coins (newIn_skip h)
    · exact ⟨fun x hx => (h 0 t x rfl rfl hx).1, ih fs _ (newIn_tail h)⟩

/-- The coins after a batch: those before and those created, without those spent.  Everything
spent was there before or is created by the batch. -/
theorem settle_char (c : Cfg) (b : List InFlight) (x : Hash) :
    ∀ (fs : List Bool) (coins : Hash → Prop), LegalBatch c b fs coins → NewIn c b fs coins →
      (settle c b fs coins x ↔
        (coins x ∨ BatchCreates c b fs x) ∧ ¬ BatchSpends c b fs x) ∧
      (BatchSpends c b fs x → coins x ∨ BatchCreates c b fs x) := by
  induction b with
  | nil => intro fs coins _ _; cases fs <;> simp [settle, BatchCreates, BatchSpends]
  | cons t b ih =>
    intro fs coins hl hn
    rcases fs with _ | ⟨_ | _, fs⟩
    · simp [settle, BatchCreates, BatchSpends]
    · obtain ⟨h1, h2⟩ := ih fs coins hl (newIn_skip hn)
      simp only [settle, batchCreates_cons, batchSpends_cons, h1, Bool.false_eq_true, false_and,
        false_or, true_and]
      exact h2
    · obtain ⟨h1, h2⟩ := ih fs _ hl.2 (newIn_tail hn)
      simp only [settle, batchCreates_cons, batchSpends_cons, h1, true_and]
      have hs : Spends c t.tx x → coins x := hl.1 x
      have hc : Creates c t.tx x → ¬ coins x := fun h => (hn 0 t x rfl rfl h).1
      have hb : BatchCreates c b fs x → ¬ coins x := by
        rintro ⟨j, u, k1, k2, k3⟩
        exact (hn (j + 1) u x (by simpa using k1) (by simpa using k2) k3).1
      simp only [takeEffect] at h2 ⊢
      by_cases a1 : Spends c t.tx x <;> by_cases a2 : Creates c t.tx x <;>
        by_cases a3 : BatchCreates c b fs x <;> by_cases a4 : BatchSpends c b fs x <;>
        by_cases a5 : coins x <;> simp_all

/-! ### The shard's own view -/

/-- A ledger read off the shard. -/
def obs (s : State) : Ledger where
  coins x := s.uhs x = true ∨ s.locked x = true
  born _ := True
  pending d := (s.prepared d).map fun p => view p.txs p.results

theorem refines_obs {c : Cfg} {l : Ledger} {s : State} (h : Refines c l s) :
    Refines c (obs s) s := by
  have hp : l.pending = (obs s).pending := by funext d; exact h.pending d
  exact ⟨fun _ => Iff.rfl, h.disjoint, fun x => by rw [h.held x, Held, Held, hp],
    fun _ => rfl, h.sizes, fun d b hb => h.apart d b (by rw [hp]; exact hb),
    fun d d' b b' hne h1 h2 => h.cross d d' b b' hne (by rw [hp]; exact h1) (by rw [hp]; exact h2)⟩

theorem lockLoop_attested (c : Cfg) (ts : List CompactTx) :
    ∀ (s : State) (j : Nat) (t : CompactTx), ts[j]? = some t →
      (lockLoop c s ts).2[j]? = some true → c.attested t = true := by
  induction ts with
  | nil => intro s j t h; simp at h
  | cons u ts ih =>
    intro s j t h hr
    cases j with
    | zero =>
      simp only [List.getElem?_cons_zero, Option.some.injEq, lockLoop] at h hr
      subst h
      exact ((checkAndLockTx_granted c s u).mp hr).1
    | succ j =>
      simp only [List.getElem?_cons_succ, lockLoop] at h hr
      exact ih _ j t h hr

theorem view_get (txs : List CompactTx) (res : List Bool) (j : Nat) (u : InFlight) :
    (view txs res)[j]? = some u ↔ txs[j]? = some u.tx ∧ res[j]? = some u.granted := by
  rw [view, List.getElem?_map, Option.map_eq_some_iff]
  constructor
  · rintro ⟨⟨a, b⟩, h, rfl⟩
    exact List.getElem?_zip_eq_some.mp h
  · rintro ⟨h1, h2⟩
    exact ⟨(u.tx, u.granted), List.getElem?_zip_eq_some.mpr ⟨h1, h2⟩, rfl⟩

/-- An input of a granted transaction of a prepared batch is locked. -/
theorem granted_locked {c : Cfg} {s : State} (h : Refines c (obs s) s) {d : Hash} {b : Prepared}
    (hb : s.prepared d = some b) {j : Nat} {t : CompactTx} (ht : b.txs[j]? = some t)
    (hr : b.results[j]? = some true) {x : Hash} (hx : Spends c t x) : s.locked x = true := by
  rw [h.held x]
  refine ⟨d, view b.txs b.results, by simp [obs, hb], ⟨t, true⟩, ?_, rfl, hx⟩
  exact List.mem_of_getElem? ((view_get _ _ j _).mpr ⟨ht, hr⟩)

/-- Two granted transactions that are prepared and have an owned input in common are the same. -/
theorem granted_apart {c : Cfg} {s : State} (h : Refines c (obs s) s) {d d' : Hash}
    {b b' : Prepared} (hb : s.prepared d = some b) (hb' : s.prepared d' = some b') {j j' : Nat}
    {t t' : CompactTx} (ht : b.txs[j]? = some t) (hr : b.results[j]? = some true)
    (ht' : b'.txs[j']? = some t') (hr' : b'.results[j']? = some true) {x : Hash}
    (hx : Spends c t x) (hx' : Spends c t' x) : d = d' ∧ j = j' := by
  have h1 := (view_get b.txs b.results j ⟨t, true⟩).mpr ⟨ht, hr⟩
  have h2 := (view_get b'.txs b'.results j' ⟨t', true⟩).mpr ⟨ht', hr'⟩
  have hd : d = d' := by
    refine Classical.byContradiction fun hne => ?_
    exact h.cross d d' _ _ hne (by simp [obs, hb]) (by simp [obs, hb']) x
      ⟨_, List.mem_of_getElem? h1, rfl, hx⟩ ⟨_, List.mem_of_getElem? h2, rfl, hx'⟩
  refine ⟨hd, ?_⟩
  subst hd
  rw [hb, Option.some.injEq] at hb'
  subst hb'
  have ha := h.apart d _ (by simp [obs, hb]; rfl)
  rw [Apart, List.pairwise_iff_getElem] at ha
  obtain ⟨l1, e1⟩ := List.getElem?_eq_some_iff.mp h1
  obtain ⟨l2, e2⟩ := List.getElem?_eq_some_iff.mp h2
  rcases Nat.lt_trichotomy j j' with hlt | he | hlt
  · exact absurd hx' (ha j j' l1 l2 hlt (by rw [e1]) (by rw [e2]) x (by rw [e1]; exact hx) |> fun g => by rwa [e2] at g)
  · exact he
  · exact absurd hx (ha j' j l2 l1 hlt (by rw [e2]) (by rw [e1]) x (by rw [e2]; exact hx') |> fun g => by rwa [e1] at g)

end Verif.LockingShard
