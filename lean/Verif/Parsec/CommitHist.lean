import Verif.Parsec.BrokerProps
import Verif.Parsec.BrokerTicket

/-!
# The PArSEC broker and a user who keeps the order of the calls

What the requests of one attempt tell about each other if the user asks for all
locks before asking to commit and does nothing but repeat a rollback once it was
asked for.
-/
namespace Verif.Parsec.Broker

/-- Some shard was asked to roll back `t` in the current attempt. -/
def RollbackAsked (t : Tn) (h : Hist) : Prop := ∃ i c, Asked t h (.rollback i t c)

/-- Shard `i` was asked to lock `k` for `t` in the current attempt. -/
def KeyAsked (t : Tn) (h : Hist) (i : Nat) (k : Key) : Prop :=
  ∃ ty f cb, Asked t h (.tryLock i t k ty f cb)

/-- In the current attempt the user asked to commit `t` with the update `u`. -/
def UserCommit (t : Tn) (h : Hist) (u : List (Key × Value)) : Prop :=
  ∃ x ∈ attempt t h, ∃ cb p, x.1 = .commit cb t u p

/-- The order in which the user calls the broker: locks are asked for before
shards are asked to prepare, and after a rollback was asked for neither locks nor
a commit. -/
def Orderly (h : Hist) : Event → Prop
  | .foundKey _ t _ _ _ _ => (∀ i, ¬PrepareAsked t h i) ∧ ¬RollbackAsked t h
  | .commit _ t _ _ => ¬RollbackAsked t h
  | _ => True

/-- `u'` is what `u` says about the keys which shard `i` was asked to lock. -/
def Part (t : Tn) (h : Hist) (i : Nat) (u u' : List (Key × Value)) : Prop :=
  ∀ k, (KeyAsked t h i k → u'.lookup k = u.lookup k) ∧ (¬KeyAsked t h i k → u'.lookup k = none)

/-- The shard is being rolled back, or was. -/
def rolling (e : Nat × Sh) : Prop := e.2.state = .rollingBack ∨ e.2.state = .rolledBack

/-- What is known about a ticket of an orderly user. -/
structure BInv (t : Tn) (h : Hist) (tk : Ticket) : Prop where
  early : tk.state = .begun ∨ tk.state = .aborted →
    ∀ i c, ¬Asked t h (.commit i t c) ∧ ¬Asked t h (.finish i t c)
  rolling : tk.state = .begun → RollbackAsked t h → ∃ e ∈ tk.shards, rolling e
  straight : tk.state ≠ .begun → ¬RollbackAsked t h
  undone : tk.state = .begun → ∀ e ∈ tk.shards, e.2.state = .rolledBack →
    ∃ x ∈ attempt t h, ∃ c p, x.1 = .rolledBack c t e.1 none p
  asked : ¬RollbackAsked t h → ∀ i k, KeyAsked t h i k →
    ∃ e ∈ tk.shards, e.1 = i ∧ (e.2.keys.lookup k).isSome
  locked : tk.state ≠ .aborted → ∀ e ∈ tk.shards, ∀ q ∈ e.2.keys, q.2.locked = true → KeyAsked t h e.1 q.1

theorem KeyAsked.mono {t : Tn} {h : Hist} {x : Event × Out} (hx : x.2.said.any (Said.aborts t) = false)
    {i : Nat} {k : Key} (ha : KeyAsked t h i k) : KeyAsked t (x :: h) i k := by
  obtain ⟨ty, f, cb, ha⟩ := ha
  exact ⟨ty, f, cb, ha.mono hx⟩

theorem RollbackAsked.mono {t : Tn} {h : Hist} {x : Event × Out} (hx : x.2.said.any (Said.aborts t) = false)
    (ha : RollbackAsked t h) : RollbackAsked t (x :: h) := by
  obtain ⟨i, c, ha⟩ := ha
  exact ⟨i, c, ha.mono hx⟩

theorem not_asked_aborted {t : Tn} {h : Hist} {tk : Ticket} (inv : TInv t h tk) (hs : tk.state = .aborted)
    {c : Call} {i : Nat} (hc : c.ticket = some (i, t)) : ¬Asked t h c := by
  intro ha
  rcases inv.quiet hs c ha with h1 | ⟨j, y, h1, h2⟩
  · rw [hc] at h1; cases h1
  · rw [hc] at h1
    simp only [Option.some.injEq, Prod.mk.injEq] at h1
    exact h2 h1.2.symm

theorem BInv.step {t : Tn} {h : Hist} {tk tk' : Ticket} (inv : BInv t h tk) (tinv : TInv t h tk) {x : Event × Out}
    (hx : x.2.said.any (Said.aborts t) = false)
    (he : tk'.state = .begun ∨ tk'.state = .aborted → (tk.state = .begun ∨ tk.state = .aborted) ∧
      ∀ i c, Call.commit i t c ∉ x.2.calls ∧ Call.finish i t c ∉ x.2.calls)
    (hr : tk'.state = .begun → (∃ i c, Call.rollback i t c ∈ x.2.calls) ∨
      (RollbackAsked t h ∧ tk.state = .begun ∧ ∃ e ∈ tk.shards, Broker.rolling e) →
      ∃ e ∈ tk'.shards, Broker.rolling e)
    (hs : tk'.state ≠ .begun → (∀ i c, Call.rollback i t c ∉ x.2.calls) ∧
      (tk.state = .begun → ¬RollbackAsked t h))
    (hu : tk'.state = .begun → ∀ e ∈ tk'.shards, e.2.state = .rolledBack →
      (tk.state = .begun ∧ ∃ e' ∈ tk.shards, e'.1 = e.1 ∧ e'.2.state = .rolledBack) ∨
      ∃ c p, x.1 = .rolledBack c t e.1 none p)
    (ha : ¬RollbackAsked t (x :: h) → ∀ i k, (∃ ty f cb, Call.tryLock i t k ty f cb ∈ x.2.calls) ∨
      (tk.state ≠ .aborted ∧ ∃ e ∈ tk.shards, e.1 = i ∧ (e.2.keys.lookup k).isSome) →
      ∃ e ∈ tk'.shards, e.1 = i ∧ (e.2.keys.lookup k).isSome)
    (hl : tk'.state ≠ .aborted → ∀ e ∈ tk'.shards, ∀ q ∈ e.2.keys, q.2.locked = true →
      (tk.state ≠ .aborted ∧ ∃ e' ∈ tk.shards, e'.1 = e.1 ∧ ∃ q' ∈ e'.2.keys, q'.1 = q.1 ∧ q'.2.locked = true) ∨
      KeyAsked t h e.1 q.1) : BInv t (x :: h) tk' where
  early := by
    intro h1 i c
    obtain ⟨h2, h3⟩ := he h1
    constructor <;> intro hk <;> rcases hk.cases with hk | hk
    · exact (h3 i c).1 hk
    · exact (inv.early h2 i c).1 hk
    · exact (h3 i c).2 hk
    · exact (inv.early h2 i c).2 hk
  rolling := by
    rintro h1 ⟨i, c, hk⟩
    rcases hk.cases with hk | hk
    · exact hr h1 (.inl ⟨i, c, hk⟩)
    · by_cases h2 : tk.state = .begun
      · exact hr h1 (.inr ⟨⟨i, c, hk⟩, h2, inv.rolling h2 ⟨i, c, hk⟩⟩)
      · exact absurd ⟨i, c, hk⟩ (inv.straight h2)
  straight := by
    rintro h1 ⟨i, c, hk⟩
    obtain ⟨h2, h3⟩ := hs h1
    rcases hk.cases with hk | hk
    · exact h2 i c hk
    · by_cases h4 : tk.state = .begun
      · exact h3 h4 ⟨i, c, hk⟩
      · exact inv.straight h4 ⟨i, c, hk⟩
  undone := by
    intro h1 e h2 h3
    rw [attempt_cons hx]
    rcases hu h1 e h2 h3 with ⟨h4, e', h5, h6, h7⟩ | ⟨c, p, h4⟩
    · obtain ⟨y, h8, h9⟩ := inv.undone h4 e' h5 h7
      rw [h6] at h9
      exact ⟨y, List.mem_cons_of_mem _ h8, h9⟩
    · exact ⟨x, List.mem_cons_self, c, p, h4⟩
  asked := by
    intro h1 i k ⟨ty, f, cb, hk⟩
    refine ha h1 i k ?_
    rcases hk.cases with hk | hk
    · exact .inl ⟨ty, f, cb, hk⟩
    · by_cases h2 : tk.state = .aborted
      · exact absurd hk (not_asked_aborted tinv h2 rfl)
      · exact .inr ⟨h2, inv.asked (fun h3 => h1 (h3.mono hx)) i k ⟨ty, f, cb, hk⟩⟩
  locked := by
    intro h1 e h2 q h3 h4
    rcases hl h1 e h2 q h3 h4 with ⟨h5, e', h6, h7, q', h8, h9, h10⟩ | h5
    · have := inv.locked h5 e' h6 q' h8 h10
      rw [h7, h9] at this
      exact this.mono hx
    · exact h5.mono hx

/-- The ticket does not change and nothing is asked. -/
theorem BInv.same {t : Tn} {h : Hist} {tk : Ticket} (inv : BInv t h tk) (tinv : TInv t h tk) {x : Event × Out}
    (hx : x.2.said.any (Said.aborts t) = false) (hc : ∀ c ∈ x.2.calls, ∀ i, c.ticket ≠ some (i, t)) :
    BInv t (x :: h) tk := by
  refine inv.step tinv hx ?_ ?_ ?_ ?_ ?_ ?_
  · exact fun h1 => ⟨h1, fun i c => ⟨fun h2 => hc _ h2 i rfl, fun h2 => hc _ h2 i rfl⟩⟩
  · rintro _ (⟨i, c, h2⟩ | ⟨_, _, h2⟩)
    · exact absurd rfl (hc _ h2 i)
    · exact h2
  · exact fun h1 => ⟨fun i c h2 => hc _ h2 i rfl, fun h2 => absurd h2 h1⟩
  · exact fun h1 e h2 h3 => .inl ⟨h1, e, h2, rfl, h3⟩
  · rintro _ i k (⟨ty, f, cb, h2⟩ | ⟨_, h2⟩)
    · exact absurd rfl (hc _ h2 i)
    · exact h2
  · exact fun h1 e h2 q h3 h4 => .inl ⟨h1, e, h2, rfl, q, h3, rfl, h4⟩

/-- Every element of `l'` comes from one of `l` or is new and empty; elements of `l` do not
disappear; keys stay as they are. -/
structure Like (l l' : List (Nat × Sh)) : Prop where
  back : ∀ e ∈ l', (∃ e' ∈ l, e'.1 = e.1 ∧ e'.2.keys = e.2.keys) ∨ e.2.keys = []
  to : ∀ e ∈ l, ∃ e' ∈ l', e'.1 = e.1 ∧ e'.2.keys = e.2.keys

theorem Like.refl (l : List (Nat × Sh)) : Like l l :=
  ⟨fun e h => .inl ⟨e, h, rfl, rfl⟩, fun e h => ⟨e, h, rfl, rfl⟩⟩

theorem Like.trans {l l' l'' : List (Nat × Sh)} (h : Like l l') (h' : Like l' l'') : Like l l'' where
  back := by
    intro e he
    rcases h'.back e he with ⟨e', h1, h2, h3⟩ | h1
    · rcases h.back e' h1 with ⟨e'', h4, h5, h6⟩ | h4
      · exact .inl ⟨e'', h4, h5.trans h2, h6.trans h3⟩
      · exact .inr (by rw [← h3, h4])
    · exact .inr h1
  to := by
    intro e he
    obtain ⟨e', h1, h2, h3⟩ := h.to e he
    obtain ⟨e'', h4, h5, h6⟩ := h'.to e' h1
    exact ⟨e'', h4, h5.trans h2, h6.trans h3⟩

theorem like_touch (l : List (Nat × Sh)) (i : Nat) : Like l (touch l i) where
  back := by
    intro e he
    rcases mem_touch he with h1 | h1
    · exact .inl ⟨e, h1, rfl, rfl⟩
    · exact .inr (by rw [h1])
  to := by
    intro e he
    refine ⟨e, ?_, rfl, rfl⟩
    unfold touch
    split
    · exact he
    · exact List.mem_append_left _ he

theorem like_setState (l : List (Nat × Sh)) (i : Nat) (x : SState) : Like l (setState l i x) where
  back := by
    intro e he
    obtain ⟨a, h1, rfl⟩ := List.mem_map.mp he
    refine .inl ⟨a, h1, ?_⟩
    split <;> exact ⟨rfl, rfl⟩
  to := by
    intro e he
    refine ⟨_, List.mem_map.mpr ⟨e, he, rfl⟩, ?_⟩
    split <;> exact ⟨rfl, rfl⟩

theorem like_mark (l : List (Nat × Sh)) (skip : SState → Bool) (x : SState) (p : Option Stop) :
    Like l (mark l skip x p) where
  back := by
    intro e he
    obtain ⟨a, h1, rfl⟩ := List.mem_map.mp he
    refine .inl ⟨a, h1, ?_⟩
    split <;> exact ⟨rfl, rfl⟩
  to := by
    intro e he
    refine ⟨_, List.mem_map.mpr ⟨e, he, rfl⟩, ?_⟩
    split <;> exact ⟨rfl, rfl⟩

/-- Shards in a rollback stay there; nothing is new there. -/
structure Rolls (l l' : List (Nat × Sh)) : Prop where
  to : ∀ e ∈ l, rolling e → ∃ e' ∈ l', rolling e'
  back : ∀ e ∈ l', e.2.state = .rolledBack → ∃ e' ∈ l, e'.1 = e.1 ∧ e'.2.state = .rolledBack

theorem Rolls.trans {l l' l'' : List (Nat × Sh)} (h : Rolls l l') (h' : Rolls l' l'') : Rolls l l'' where
  to := by
    intro e h1 h2
    obtain ⟨e', h3, h4⟩ := h.to e h1 h2
    exact h'.to e' h3 h4
  back := by
    intro e h1 h2
    obtain ⟨e', h3, h4, h5⟩ := h'.back e h1 h2
    obtain ⟨e'', h6, h7, h8⟩ := h.back e' h3 h5
    exact ⟨e'', h6, h7.trans h4, h8⟩

theorem rolls_touch (l : List (Nat × Sh)) (i : Nat) : Rolls l (touch l i) where
  to := by
    intro e he hr
    refine ⟨e, ?_, hr⟩
    unfold touch
    split
    · exact he
    · exact List.mem_append_left _ he
  back := by
    intro e he hs
    rcases mem_touch he with h1 | h1
    · exact ⟨e, h1, rfl, hs⟩
    · rw [h1] at hs; cases hs

theorem rolls_setState {l : List (Nat × Sh)} (hk : Keyed l) {i : Nat} {x : SState}
    (h1 : stateOf l i ≠ .rollingBack) (h2 : stateOf l i ≠ .rolledBack) (hx : x ≠ .rolledBack) :
    Rolls l (setState l i x) where
  to := by
    intro e he hr
    refine ⟨e, ?_, hr⟩
    refine List.mem_map.mpr ⟨e, he, if_neg ?_⟩
    intro hi
    have := hk.stateOf (i := e.1) (sh := e.2) he
    rw [hi] at this
    rcases hr with hr | hr
    · exact h1 (by rw [this, hr])
    · exact h2 (by rw [this, hr])
  back := by
    intro e he hs
    rcases mem_setState he with ⟨_, h3⟩ | ⟨_, h3, _⟩
    · exact ⟨e, h3, rfl, hs⟩
    · rw [h3] at hs; exact absurd hs hx

/-- Nothing is asked, the state of the ticket stays, keys stay. -/
theorem BInv.shards {t : Tn} {h : Hist} {tk : Ticket} (inv : BInv t h tk) (tinv : TInv t h tk) {x : Event × Out}
    (hx : x.2.said.any (Said.aborts t) = false) (hc : ∀ c ∈ x.2.calls, ∀ i, c.ticket ≠ some (i, t))
    {l : List (Nat × Sh)} (hl : Like tk.shards l) (hr : tk.state = .begun → Rolls tk.shards l) :
    BInv t (x :: h) { tk with shards := l } := by
  refine inv.step tinv hx ?_ ?_ ?_ ?_ ?_ ?_
  · exact fun h1 => ⟨h1, fun i c => ⟨fun h2 => hc _ h2 i rfl, fun h2 => hc _ h2 i rfl⟩⟩
  · rintro h1 (⟨i, c, h2⟩ | ⟨_, _, e, h2, h3⟩)
    · exact absurd rfl (hc _ h2 i)
    · exact (hr h1).to e h2 h3
  · exact fun h1 => ⟨fun i c h2 => hc _ h2 i rfl, fun h2 => absurd h2 h1⟩
  · exact fun h1 e h2 h3 => .inl ⟨h1, (hr h1).back e h2 h3⟩
  · rintro _ i k (⟨ty, f, cb, h2⟩ | ⟨_, e, h2, h3, h4⟩)
    · exact absurd rfl (hc _ h2 i)
    · obtain ⟨e', h5, h6, h7⟩ := hl.to e h2
      exact ⟨e', h5, h6.trans h3, by rw [h7]; exact h4⟩
  · intro h1 e h2 q h3 h4
    rcases hl.back e h2 with ⟨e', h5, h6, h7⟩ | h5
    · exact .inl ⟨h1, e', h5, h6, q, by rw [h7]; exact h3, rfl, h4⟩
    · rw [h5] at h3; cases h3

/-- A loop of requests which belong to later phases. -/
theorem BInv.late {t : Tn} {h : Hist} {tk : Ticket} (inv : BInv t h tk) (tinv : TInv t h tk) {x : Event × Out}
    (hx : x.2.said.any (Said.aborts t) = false) (hb : tk.state = .prepared ∨ tk.state = .committed)
    (hc : ∀ c ∈ x.2.calls, (∃ i d, c = .commit i t d) ∨ ∃ i d, c = .finish i t d)
    {l : List (Nat × Sh)} (hl : Like tk.shards l) : BInv t (x :: h) { tk with shards := l } := by
  refine inv.step tinv hx ?_ ?_ ?_ ?_ ?_ ?_
  · intro h1
    dsimp only at h1
    rcases h1 with h1 | h1 <;> rw [h1] at hb <;> rcases hb with hb | hb <;> cases hb
  · intro h1
    dsimp only at h1
    rw [h1] at hb
    rcases hb with hb | hb <;> cases hb
  · intro h1
    refine ⟨fun i c h2 => ?_, fun h2 => absurd h2 h1⟩
    rcases hc _ h2 with ⟨_, _, h3⟩ | ⟨_, _, h3⟩ <;> cases h3
  · intro h1
    dsimp only at h1
    rw [h1] at hb
    rcases hb with hb | hb <;> cases hb
  · rintro _ i k (⟨ty, f, cb, h2⟩ | ⟨_, e, h2, h3, h4⟩)
    · rcases hc _ h2 with ⟨_, _, h3⟩ | ⟨_, _, h3⟩ <;> cases h3
    · obtain ⟨e', h5, h6, h7⟩ := hl.to e h2
      exact ⟨e', h5, h6.trans h3, by rw [h7]; exact h4⟩
  · intro h1 e h2 q h3 h4
    rcases hl.back e h2 with ⟨e', h5, h6, h7⟩ | h5
    · exact .inl ⟨h1, e', h5, h6, q, by rw [h7]; exact h3, rfl, h4⟩
    · rw [h5] at h3; cases h3

/-- The ticket enters a later phase; requests as before. -/
theorem BInv.advance {t : Tn} {h : Hist} {tk : Ticket} (inv : BInv t h tk) (tinv : TInv t h tk) {x : Event × Out}
    (hx : x.2.said.any (Said.aborts t) = false) {st : TState} (hb : st = .prepared ∨ st = .committed)
    (ha : tk.state ≠ .aborted) (hn : tk.state = .begun → ¬RollbackAsked t h)
    (hc : ∀ c ∈ x.2.calls, (∃ i d, c = .commit i t d) ∨ ∃ i d, c = .finish i t d)
    {l : List (Nat × Sh)} (hl : Like tk.shards l) : BInv t (x :: h) ⟨st, l⟩ := by
  refine inv.step tinv hx ?_ ?_ ?_ ?_ ?_ ?_
  · intro h1
    dsimp only at h1
    rcases h1 with h1 | h1 <;> rw [h1] at hb <;> rcases hb with hb | hb <;> cases hb
  · intro h1
    dsimp only at h1
    rw [h1] at hb
    rcases hb with hb | hb <;> cases hb
  · intro h1
    refine ⟨fun i c h2 => ?_, hn⟩
    rcases hc _ h2 with ⟨_, _, h3⟩ | ⟨_, _, h3⟩ <;> cases h3
  · intro h1
    dsimp only at h1
    rw [h1] at hb
    rcases hb with hb | hb <;> cases hb
  · rintro _ i k (⟨ty, f, cb, h2⟩ | ⟨_, e, h2, h3, h4⟩)
    · rcases hc _ h2 with ⟨_, _, h3⟩ | ⟨_, _, h3⟩ <;> cases h3
    · obtain ⟨e', h5, h6, h7⟩ := hl.to e h2
      exact ⟨e', h5, h6.trans h3, by rw [h7]; exact h4⟩
  · intro h1 e h2 q h3 h4
    rcases hl.back e h2 with ⟨e', h5, h6, h7⟩ | h5
    · exact .inl ⟨ha, e', h5, h6, q, by rw [h7]; exact h3, rfl, h4⟩
    · rw [h5] at h3; cases h3

theorem lookup_isSome_iff {β : Type} (l : List (Key × β)) (k : Key) :
    (l.lookup k).isSome ↔ ∃ q ∈ l, q.1 = k := by
  induction l with
  | nil => simp
  | cons a l ih =>
    rw [List.lookup_cons]
    by_cases hk : k = a.1
    · subst hk
      simp only [beq_self_eq_true, Option.isSome_some, true_iff]
      exact ⟨a, List.mem_cons_self, rfl⟩
    · have hb : (k == a.1) = false := by simpa using hk
      rw [hb]
      simp only
      rw [ih]
      constructor
      · rintro ⟨q, h1, h2⟩
        exact ⟨q, List.mem_cons_of_mem _ h1, h2⟩
      · rintro ⟨q, h1, h2⟩
        rcases List.mem_cons.mp h1 with rfl | h1
        · exact absurd h2.symm hk
        · exact ⟨q, h1, h2⟩

theorem mem_locking {ks : List (Key × KeySt)} {k : Key} {ty : LockType} {q : Key × KeySt}
    (h : q ∈ locking ks k ty) (hl : q.2.locked = true) : q ∈ ks := by
  unfold locking at h
  split at h
  · rcases List.mem_append.mp h with h1 | h1
    · exact h1
    · rw [List.mem_singleton.mp h1] at hl; cases hl
  · obtain ⟨a, h1, h2⟩ := List.mem_map.mp h
    split at h2
    · rw [← h2] at hl; cases hl
    · rw [← h2]; exact h1

theorem locking_isSome {ks : List (Key × KeySt)} {k x : Key} (ty : LockType)
    (h : x = k ∨ (ks.lookup x).isSome) : ((locking ks k ty).lookup x).isSome := by
  rw [lookup_isSome_iff]
  unfold locking
  split
  · rcases h with rfl | h
    · exact ⟨_, List.mem_append_right _ (List.mem_singleton.mpr rfl), rfl⟩
    · obtain ⟨q, h1, h2⟩ := (lookup_isSome_iff _ _).mp h
      exact ⟨q, List.mem_append_left _ h1, h2⟩
  · rename_i y hy
    have h' : (ks.lookup x).isSome := by
      rcases h with rfl | h
      · rw [hy]; rfl
      · exact h
    obtain ⟨q, h1, h2⟩ := (lookup_isSome_iff _ _).mp h'
    refine ⟨_, List.mem_map.mpr ⟨q, h1, rfl⟩, ?_⟩
    split
    · rename_i hk; dsimp only; rw [← hk]; exact h2
    · exact h2

theorem touch_to {l : List (Nat × Sh)} {i : Nat} {e : Nat × Sh} (h : e ∈ l) : e ∈ touch l i := by
  unfold touch
  split
  · exact h
  · exact List.mem_append_left _ h

theorem binv_foundKey {t : Tn} {h : Hist} {tk tk' : Ticket} (inv : BInv t h tk) (tinv : TInv t h tk) {o : Out}
    {cb : Nat} {k : Key} {ty : LockType} {r : Option Nat} {ok : Bool}
    (hx : o.said.any (Said.aborts t) = false)
    (hn : (next (.foundKey cb t k ty r ok) (some tk)).1 = some tk')
    (hc : o.calls = (next (.foundKey cb t k ty r ok) (some tk)).2.1) :
    BInv t ((.foundKey cb t k ty r ok, o) :: h) tk' := by
  cases r with
  | none =>
    simp only [next, stay, Option.some.injEq] at hn hc
    subst hn
    exact inv.same tinv hx (by rw [hc]; simp)
  | some i =>
    simp only [next] at hn hc
    by_cases hb : tk.state = .begun
    · simp only [if_pos hb] at hn hc
      by_cases hca : (cached ((touch tk.shards i).lookup i |>.getD {}) k ty).isSome
      · simp only [if_pos hca, stay, Option.some.injEq] at hn hc
        subst hn
        exact inv.shards tinv hx (by rw [hc]; simp) (like_touch _ _) (fun _ => rolls_touch _ _)
      · rw [if_neg hca] at hn hc
        simp only [Option.some.injEq] at hn hc
        subst hn
        have hcalls : ∀ c ∈ o.calls, ∃ f, c = .tryLock i t k ty f cb := by
          intro c h1
          rw [hc] at h1
          split at h1
          · exact ⟨_, List.mem_singleton.mp h1⟩
          · cases h1
        refine inv.step tinv hx ?_ ?_ ?_ ?_ ?_ ?_
        · refine fun h1 => ⟨.inl hb, fun j c => ⟨fun h2 => ?_, fun h2 => ?_⟩⟩ <;>
          · obtain ⟨_, h3⟩ := hcalls _ h2
            cases h3
        · rintro _ (⟨j, c, h2⟩ | ⟨_, _, e, h2, h3⟩)
          · obtain ⟨_, h3⟩ := hcalls _ h2
            cases h3
          · refine ⟨_, List.mem_map.mpr ⟨e, touch_to h2, rfl⟩, ?_⟩
            split
            · exact h3
            · exact h3
        · exact fun h1 => absurd hb h1
        · intro _ e h2 h3
          refine .inl ⟨hb, ?_⟩
          dsimp only at h2
          rcases mem_update h2 with ⟨_, h4⟩ | ⟨h4, sh, h5, h6⟩
          · exact (rolls_touch _ _).back e h4 h3
          · rw [h6] at h3
            obtain ⟨e', h7, h8, h9⟩ := (rolls_touch _ _).back (i, sh) h5 h3
            exact ⟨e', h7, by rw [h8, h4], h9⟩
        · rintro _ j x (⟨ty', f, cb', h2⟩ | ⟨_, e, h2, h3, h4⟩)
          · obtain ⟨_, h3⟩ := hcalls _ h2
            simp only [Call.tryLock.injEq, true_and] at h3
            obtain ⟨e, h5, h6⟩ := has_touch_self tk.shards i
            refine ⟨_, List.mem_map.mpr ⟨e, h5, rfl⟩, ?_⟩
            rw [if_pos h6]
            exact ⟨h6.trans h3.1.symm, locking_isSome _ (.inl h3.2.1)⟩
          · refine ⟨_, List.mem_map.mpr ⟨e, touch_to h2, rfl⟩, ?_⟩
            split
            · exact ⟨h3, locking_isSome _ (.inr h4)⟩
            · exact ⟨h3, h4⟩
        · intro _ e h2 q h3 h4
          refine .inl ⟨by rw [hb]; simp, ?_⟩
          dsimp only at h2
          rcases mem_update h2 with ⟨_, h5⟩ | ⟨h5, sh, h6, h7⟩
          · rcases (like_touch tk.shards i).back e h5 with ⟨e', h8, h9, h10⟩ | h8
            · exact ⟨e', h8, h9, q, by rw [h10]; exact h3, rfl, h4⟩
            · rw [h8] at h3; cases h3
          · rw [h7] at h3
            have h3' := mem_locking h3 h4
            rcases (like_touch tk.shards i).back _ h6 with ⟨e', h8, h9, h10⟩ | h8
            · exact ⟨e', h8, by rw [h9, h5], q, by rw [h10]; exact h3', rfl, h4⟩
            · dsimp only at h8
              rw [h8] at h3'; cases h3'
    · simp only [if_neg hb, stay, Option.some.injEq] at hn hc
      subst hn
      exact inv.same tinv hx (by rw [hc]; simp)

theorem binv_locked {t : Tn} {h : Hist} {tk tk' : Ticket} (inv : BInv t h tk) (tinv : TInv t h tk) {o : Out}
    {cb i : Nat} {k : Key} {r : Answer} (hx : o.said.any (Said.aborts t) = false)
    (hp : Plain h (.locked cb t k i r))
    (hn : (next (.locked cb t k i r) (some tk)).1 = some tk')
    (hc : o.calls = (next (.locked cb t k i r) (some tk)).2.1) :
    BInv t ((.locked cb t k i r, o) :: h) tk' := by
  obtain ⟨ty, f, hask⟩ := hp
  have hna : tk.state ≠ .aborted := fun h1 => not_asked_aborted tinv h1 rfl hask
  cases r with
  | error e =>
    simp only [next, stay, Option.some.injEq] at hn hc
    subst hn
    exact inv.same tinv hx (by rw [hc]; simp)
  | value v =>
    simp only [next] at hn hc
    cases hk : ((touch tk.shards i).lookup i |>.getD {}).keys.lookup k with
    | none =>
      simp only [hk, stay, Option.some.injEq] at hn hc
      subst hn
      exact inv.shards tinv hx (by rw [hc]; simp) (like_touch _ _) (fun _ => rolls_touch _ _)
    | some q =>
      simp only [hk] at hn hc
      by_cases hq : q.locked = true
      · simp only [if_pos hq, stay, Option.some.injEq] at hn hc
        subst hn
        exact inv.shards tinv hx (by rw [hc]; simp) (like_touch _ _) (fun _ => rolls_touch _ _)
      · rw [if_neg hq] at hn hc
        simp only [stay, Option.some.injEq] at hn hc
        subst hn
        refine inv.step tinv hx ?_ ?_ ?_ ?_ ?_ ?_
        · exact fun h1 => ⟨h1, fun j c => by rw [hc]; simp⟩
        · rintro _ (⟨j, c, h2⟩ | ⟨_, _, e, h2, h3⟩)
          · rw [hc] at h2; cases h2
          · refine ⟨_, List.mem_map.mpr ⟨e, touch_to h2, rfl⟩, ?_⟩
            split
            · exact h3
            · exact h3
        · exact fun h1 => ⟨fun j c => by rw [hc]; simp, fun h2 => absurd h2 h1⟩
        · intro hb e h2 h3
          refine .inl ⟨hb, ?_⟩
          dsimp only at h2
          rcases mem_update h2 with ⟨_, h4⟩ | ⟨h4, sh, h5, h6⟩
          · exact (rolls_touch _ _).back e h4 h3
          · rw [h6] at h3
            obtain ⟨e', h7, h8, h9⟩ := (rolls_touch _ _).back (i, sh) h5 h3
            exact ⟨e', h7, by rw [h8, h4], h9⟩
        · rintro _ j x (⟨ty', f, cb', h2⟩ | ⟨_, e, h2, h3, h4⟩)
          · rw [hc] at h2; cases h2
          · refine ⟨_, List.mem_map.mpr ⟨e, touch_to h2, rfl⟩, ?_⟩
            split
            · refine ⟨h3, ?_⟩
              obtain ⟨a, h5, h6⟩ := (lookup_isSome_iff _ _).mp h4
              refine (lookup_isSome_iff _ _).mpr ⟨_, List.mem_map.mpr ⟨a, h5, rfl⟩, ?_⟩
              split
              · rename_i h7; dsimp only; rw [← h7]; exact h6
              · exact h6
            · exact ⟨h3, h4⟩
        · intro _ e h2 q' h3 h4
          dsimp only at h2
          rcases mem_update h2 with ⟨_, h5⟩ | ⟨h5, sh, h6, h7⟩
          · rcases (like_touch tk.shards i).back e h5 with ⟨e', h8, h9, h10⟩ | h8
            · exact .inl ⟨hna, e', h8, h9, q', by rw [h10]; exact h3, rfl, h4⟩
            · rw [h8] at h3; cases h3
          · rw [h7] at h3
            obtain ⟨a, h8, h9⟩ := List.mem_map.mp h3
            split at h9
            · refine .inr ?_
              rw [← h9, h5]
              exact ⟨ty, f, cb, hask⟩
            · rw [h9] at h8
              rcases (like_touch tk.shards i).back _ h6 with ⟨e', h10, h11, h12⟩ | h10
              · exact .inl ⟨hna, e', h10, by rw [h11, h5], q', by rw [h12]; exact h8, rfl, h4⟩
              · dsimp only at h10
                rw [h10] at h8; cases h8

theorem binv_commit {t : Tn} {h : Hist} {tk tk' : Ticket} (inv : BInv t h tk) (tinv : TInv t h tk) {o : Out}
    {cb : Nat} {u : List (Key × Value)} {p : Option Stop} (hx : o.said.any (Said.aborts t) = false)
    (ho : Orderly h (.commit cb t u p))
    (hn : (next (.commit cb t u p) (some tk)).1 = some tk')
    (hc : o.calls = (next (.commit cb t u p) (some tk)).2.1) :
    BInv t ((.commit cb t u p, o) :: h) tk' := by
  simp only [next, Ticket.commit, Option.some.injEq] at hn hc
  cases hce : tk.commitError u with
  | some e =>
    simp only [hce] at hn hc
    subst hn
    exact inv.same tinv hx (by rw [hc]; simp)
  | none =>
    simp only [hce] at hn hc
    by_cases hp : tk.state = .prepared
    · rw [if_pos hp] at hn hc
      simp only [Ticket.doCommit] at hn hc
      subst hn
      refine inv.late tinv hx (.inl hp) ?_ (like_mark _ _ _ _)
      intro c h1
      rw [hc] at h1
      obtain ⟨e, _, rfl⟩ := List.mem_map.mp h1
      exact .inl ⟨_, _, rfl⟩
    · rw [if_neg hp] at hn hc
      have hb : tk.state = .begun := by
        unfold Ticket.commitError at hce
        cases hst : tk.state <;> simp [hst] at hce hp ⊢
      simp only [Ticket.doPrepare] at hn hc
      subst hn
      have hcalls : ∀ c ∈ o.calls, ∃ i v d, c = .prepare i t v d := by
        intro c h1
        rw [hc] at h1
        obtain ⟨e, _, rfl⟩ := List.mem_map.mp h1
        exact ⟨_, _, _, rfl⟩
      refine inv.step tinv hx ?_ ?_ ?_ ?_ ?_ ?_
      · refine fun h1 => ⟨.inl hb, fun j c => ⟨fun h2 => ?_, fun h2 => ?_⟩⟩ <;>
        · obtain ⟨_, _, _, h3⟩ := hcalls _ h2
          cases h3
      · rintro _ (⟨j, c, h2⟩ | ⟨h2, _⟩)
        · obtain ⟨_, _, _, h3⟩ := hcalls _ h2
          cases h3
        · exact absurd h2 ho
      · exact fun h1 => absurd hb h1
      · intro _ e h2 h3
        refine .inl ⟨hb, ?_⟩
        dsimp only at h2
        rcases mem_mark h2 with h4 | ⟨sh, _, _, _, h4⟩
        · exact ⟨e, h4, rfl, h3⟩
        · rw [h4] at h3; cases h3
      · rintro _ i k (⟨ty, f, cb, h2⟩ | ⟨_, e, h2, h3, h4⟩)
        · obtain ⟨_, _, _, h3⟩ := hcalls _ h2
          cases h3
        · dsimp only
          obtain ⟨e', h5, h6, h7⟩ := (like_mark tk.shards _ _ _).to e h2
          exact ⟨e', h5, h6.trans h3, by rw [h7]; exact h4⟩
      · intro h1 e h2 q h3 h4
        dsimp only at h2
        rcases (like_mark _ _ _ _).back e h2 with ⟨e', h5, h6, h7⟩ | h5
        · exact .inl ⟨h1, e', h5, h6, q, by rw [h7]; exact h3, rfl, h4⟩
        · rw [h5] at h3; cases h3

theorem binv_prepared {t : Tn} {h : Hist} {tk tk' : Ticket} (inv : BInv t h tk) (tinv : TInv t h tk) {o : Out}
    {c : Cont} {i : Nat} {r : Option ShardError} {p : Option Stop} (hx : o.said.any (Said.aborts t) = false)
    (hn : (next (.prepared c t i r p) (some tk)).1 = some tk')
    (hc : o.calls = (next (.prepared c t i r p) (some tk)).2.1) :
    BInv t ((.prepared c t i r p, o) :: h) tk' := by
  simp only [next] at hn hc
  by_cases hb : tk.state = .begun
  · simp only [if_pos hb, Ticket.handlePrepare, Option.some.injEq] at hn hc
    by_cases h1 : stateOf (touch tk.shards i) i ≠ .preparing
    · rw [if_pos h1] at hn hc
      subst hn
      exact inv.shards tinv hx (by rw [hc]; simp) (like_touch _ _) (fun _ => rolls_touch _ _)
    · rw [if_neg h1] at hn hc
      have h1 : stateOf (touch tk.shards i) i = .preparing := Classical.not_not.mp h1
      have hrolls : ∀ x, x ≠ .rolledBack → Rolls tk.shards (setState (touch tk.shards i) i x) := fun x hx' =>
        (rolls_touch _ _).trans (rolls_setState (tinv.keyed.touch i) (by rw [h1]; simp) (by rw [h1]; simp) hx')
      have hlike : ∀ x, Like tk.shards (setState (touch tk.shards i) i x) := fun x =>
        (like_touch _ _).trans (like_setState _ _ _)
      cases r with
      | some e =>
        simp only at hn hc
        split at hn
        · split at hn
          · subst hn
            exact inv.shards tinv hx (by rw [hc]; simp [*]) (like_touch _ _) (fun _ => rolls_touch _ _)
          · subst hn
            exact inv.shards tinv hx (by rw [hc]; simp [*]) (hlike _) (fun _ => hrolls _ (by simp))
        · subst hn
          exact inv.shards tinv hx (by rw [hc]; simp [*]) (like_touch _ _) (fun _ => rolls_touch _ _)
      | none =>
        simp only at hn hc
        split at hn
        · rename_i hall
          rw [if_pos hall] at hc
          simp only [Ticket.doCommit] at hn hc
          subst hn
          refine inv.advance tinv hx (.inl rfl) (by rw [hb]; simp) ?_ ?_ ((hlike _).trans (like_mark _ _ _ _))
          · intro _ hra
            obtain ⟨e, h2, h3⟩ := inv.rolling hb hra
            obtain ⟨e', h4, h5⟩ := (hrolls .prepared (by simp)).to e h2 h3
            have := List.all_eq_true.mp hall e' h4
            rw [decide_eq_true_eq] at this
            rcases h5 with h5 | h5 <;> rw [h5] at this <;> cases this
          · intro c h1
            rw [hc] at h1
            obtain ⟨e, _, rfl⟩ := List.mem_map.mp h1
            exact .inl ⟨_, _, rfl⟩
        · rename_i hall
          rw [if_neg hall] at hc
          subst hn
          exact inv.shards tinv hx (by rw [hc]; simp) (hlike _) (fun _ => hrolls _ (by simp))
  · simp only [if_neg hb, stay, Option.some.injEq] at hn hc
    subst hn
    exact inv.same tinv hx (by rw [hc]; simp)

theorem binv_committed {t : Tn} {h : Hist} {tk tk' : Ticket} (inv : BInv t h tk) (tinv : TInv t h tk) {o : Out}
    {c : Cont} {i : Nat} {r : Option ShardError} {p : Option Stop} (hx : o.said.any (Said.aborts t) = false)
    (hn : (next (.committed c t i r p) (some tk)).1 = some tk')
    (hc : o.calls = (next (.committed c t i r p) (some tk)).2.1) :
    BInv t ((.committed c t i r p, o) :: h) tk' := by
  simp only [next] at hn hc
  by_cases hb : tk.state = .prepared
  · have hnb : tk.state ≠ .begun := by rw [hb]; simp
    simp only [if_pos hb] at hn hc
    by_cases h1 : stateOf (touch tk.shards i) i ≠ .committing
    · rw [if_pos h1] at hn hc
      simp only [stay, Option.some.injEq] at hn hc
      subst hn
      exact inv.shards tinv hx (by rw [hc]; simp) (like_touch _ _) (fun h2 => absurd h2 hnb)
    · rw [if_neg h1] at hn hc
      by_cases h2 : r.isSome = true
      · rw [if_pos h2] at hn hc
        simp only [stay, Option.some.injEq] at hn hc
        subst hn
        exact inv.same tinv hx (by rw [hc]; simp)
      · rw [if_neg h2] at hn hc
        have hl : Like tk.shards (setState (touch tk.shards i) i .committed) :=
          (like_touch _ _).trans (like_setState _ _ _)
        split at hn
        · rename_i hall
          rw [if_pos hall] at hc
          simp only [stay, Option.some.injEq] at hn hc
          subst hn
          exact inv.advance tinv hx (.inr rfl) (by rw [hb]; simp) (fun h3 => absurd h3 hnb) (by rw [hc]; simp) hl
        · rename_i hall
          rw [if_neg hall] at hc
          simp only [stay, Option.some.injEq] at hn hc
          subst hn
          exact inv.shards tinv hx (by rw [hc]; simp) hl (fun h3 => absurd h3 hnb)
  · simp only [if_neg hb, stay, Option.some.injEq] at hn hc
    subst hn
    exact inv.same tinv hx (by rw [hc]; simp)

theorem binv_rollback {t : Tn} {h : Hist} {tk tk' : Ticket} (inv : BInv t h tk) (tinv : TInv t h tk) {o : Out}
    {cb : Nat} {p : Option Stop}
    (hn : (next (.rollback cb t p) (some tk)).1 = some tk')
    (hs : o.said.any (Said.aborts t) = (next (.rollback cb t p) (some tk)).2.2)
    (hc : o.calls = (next (.rollback cb t p) (some tk)).2.1) :
    BInv t ((.rollback cb t p, o) :: h) tk' := by
  simp only [next] at hn hc hs
  by_cases hb : tk.state = .begun
  · simp only [if_pos hb] at hn hc hs
    by_cases he : tk.shards.isEmpty = true
    · rw [if_pos he] at hn hc hs
      simp only [Option.some.injEq] at hn hc hs
      subst hn
      have hatt : attempt t ((.rollback cb t p, o) :: h) = [] := attempt_end hs
      have hnone : ∀ c, ¬Asked t ((.rollback cb t p, o) :: h) c := by
        rintro c ⟨y, hy, _⟩
        rw [hatt] at hy; cases hy
      refine ⟨fun _ i c => ⟨hnone _, hnone _⟩, by simp, ?_, by simp, ?_, by simp⟩
      · rintro _ ⟨i, c, h1⟩; exact hnone _ h1
      · rintro _ i k ⟨_, _, _, h1⟩; exact absurd h1 (hnone _)
    · rw [if_neg he] at hn hc hs
      simp only [Option.some.injEq, Ticket.rollback] at hn hc hs
      subst hn
      have hcalls : ∀ c ∈ o.calls, ∃ i d, c = .rollback i t d := by
        intro c h1
        rw [hc] at h1
        obtain ⟨e, _, rfl⟩ := List.mem_map.mp h1
        exact ⟨_, _, rfl⟩
      refine inv.step tinv hs ?_ ?_ ?_ ?_ ?_ ?_
      · refine fun h1 => ⟨.inl hb, fun j c => ⟨fun h2 => ?_, fun h2 => ?_⟩⟩ <;>
        · obtain ⟨_, _, h3⟩ := hcalls _ h2
          cases h3
      · rintro _ (⟨j, c, h2⟩ | ⟨_, _, e, h2, h3⟩)
        · dsimp only at h2
          rw [hc] at h2
          obtain ⟨e, h3, _⟩ := List.mem_map.mp h2
          obtain ⟨h4, h5⟩ := List.mem_filter.mp h3
          simp only [Bool.and_eq_true, Bool.not_eq_true'] at h5
          refine ⟨_, List.mem_map.mpr ⟨e, h4, rfl⟩, ?_⟩
          rw [if_pos]
          · exact .inl rfl
          · simp only [h5.1, Bool.not_false, Bool.true_and]
            revert h5
            cases stops tk.shards (fun x => decide (x = .rolledBack)) p with
            | none => exact fun _ => rfl
            | some q =>
              rintro ⟨_, h6⟩
              simp only [passed, Bool.and_eq_true] at h6
              simp [visited, h6.2]
        · refine ⟨_, List.mem_map.mpr ⟨e, h2, rfl⟩, ?_⟩
          split
          · exact .inl rfl
          · exact h3
      · exact fun h1 => absurd hb h1
      · intro _ e h2 h3
        refine .inl ⟨hb, ?_⟩
        dsimp only at h2
        rcases mem_mark h2 with h4 | ⟨sh, _, _, _, h4⟩
        · exact ⟨e, h4, rfl, h3⟩
        · rw [h4] at h3; cases h3
      · rintro _ i k (⟨ty, f, cb, h2⟩ | ⟨_, e, h2, h3, h4⟩)
        · obtain ⟨_, _, h3⟩ := hcalls _ h2
          cases h3
        · dsimp only
          obtain ⟨e', h5, h6, h7⟩ := (like_mark tk.shards _ _ _).to e h2
          exact ⟨e', h5, h6.trans h3, by rw [h7]; exact h4⟩
      · intro h1 e h2 q h3 h4
        dsimp only at h2
        rcases (like_mark _ _ _ _).back e h2 with ⟨e', h5, h6, h7⟩ | h5
        · exact .inl ⟨h1, e', h5, h6, q, by rw [h7]; exact h3, rfl, h4⟩
        · rw [h5] at h3; cases h3
  · simp only [if_neg hb, stay, Option.some.injEq] at hn hc hs
    subst hn
    exact inv.same tinv hs (by rw [hc]; simp)

theorem binv_rolledBack {t : Tn} {h : Hist} {tk tk' : Ticket} (inv : BInv t h tk) (tinv : TInv t h tk) {o : Out}
    {c : Cont} {i : Nat} {r : Option ShardError} {p : Option Stop} (hp : Plain h (.rolledBack c t i r p))
    (hn : (next (.rolledBack c t i r p) (some tk)).1 = some tk')
    (hs : o.said.any (Said.aborts t) = (next (.rolledBack c t i r p) (some tk)).2.2)
    (hc : o.calls = (next (.rolledBack c t i r p) (some tk)).2.1) :
    BInv t ((.rolledBack c t i r p, o) :: h) tk' := by
  have hra : RollbackAsked t h := ⟨_, _, hp.2⟩
  simp only [next] at hn hc hs
  by_cases hb : tk.state = .begun
  · simp only [if_pos hb] at hn hc hs
    by_cases h1 : stateOf (touch tk.shards i) i ≠ .rollingBack
    · rw [if_pos h1] at hn hc hs
      simp only [stay, Option.some.injEq] at hn hc hs
      subst hn
      exact inv.shards tinv hs (by rw [hc]; simp) (like_touch _ _) (fun _ => rolls_touch _ _)
    · rw [if_neg h1] at hn hc hs
      by_cases h2 : r.isSome = true
      · rw [if_pos h2] at hn hc hs
        simp only [stay, Option.some.injEq] at hn hc hs
        subst hn
        exact inv.same tinv hs (by rw [hc]; simp)
      · have hr : r = none := by cases r <;> simp_all
        subst hr
        rw [if_neg h2] at hn hc hs
        split at hn
        · rename_i hall
          rw [if_pos hall] at hc hs
          simp only [Option.some.injEq] at hn hc hs
          subst hn
          have hatt : attempt t ((.rolledBack c t i none p, o) :: h) = [] := attempt_end hs
          have hnone : ∀ d, ¬Asked t ((.rolledBack c t i none p, o) :: h) d := by
            rintro d ⟨y, hy, _⟩
            rw [hatt] at hy; cases hy
          refine ⟨fun _ i c => ⟨hnone _, hnone _⟩, by simp, ?_, by simp, ?_, by simp⟩
          · rintro _ ⟨i, c, h1⟩; exact hnone _ h1
          · rintro _ i k ⟨_, _, _, h1⟩; exact absurd h1 (hnone _)
        · rename_i hall
          rw [if_neg hall] at hc hs
          simp only [stay, Option.some.injEq] at hn hc hs
          subst hn
          have hra' : RollbackAsked t ((.rolledBack c t i none p, o) :: h) := hra.mono hs
          refine inv.step tinv hs ?_ ?_ ?_ ?_ ?_ ?_
          · exact fun h3 => ⟨h3, fun j c => by rw [hc]; simp⟩
          · rintro _ _
            obtain ⟨e, h5, h6⟩ := has_touch_self tk.shards i
            refine ⟨_, List.mem_map.mpr ⟨e, h5, rfl⟩, ?_⟩
            rw [if_pos h6]
            exact .inr rfl
          · exact fun h3 => absurd hb h3
          · intro _ e h3 h4
            dsimp only at h3
            rcases mem_update h3 with ⟨_, h5⟩ | ⟨h5, _⟩
            · exact .inl ⟨hb, (rolls_touch _ _).back e h5 h4⟩
            · exact .inr ⟨c, p, by rw [h5]⟩
          · exact fun h3 => absurd hra' h3
          · intro h3 e h4 q h5 h6
            dsimp only at h4
            rcases mem_update h4 with ⟨_, h7⟩ | ⟨_, sh, _, h7⟩
            · rcases (like_touch tk.shards i).back e h7 with ⟨e', h8, h9, h10⟩ | h8
              · exact .inl ⟨h3, e', h8, h9, q, by rw [h10]; exact h5, rfl, h6⟩
              · rw [h8] at h5; cases h5
            · rw [h7] at h5; cases h5
  · simp only [if_neg hb, stay, Option.some.injEq] at hn hc hs
    subst hn
    exact inv.same tinv hs (by rw [hc]; simp)

theorem binv_finish {t : Tn} {h : Hist} {tk tk' : Ticket} (inv : BInv t h tk) (tinv : TInv t h tk) {o : Out}
    {cb : Nat} {p : Option Stop} (hx : o.said.any (Said.aborts t) = false)
    (hn : (next (.finish cb t p) (some tk)).1 = some tk')
    (hc : o.calls = (next (.finish cb t p) (some tk)).2.1) :
    BInv t ((.finish cb t p, o) :: h) tk' := by
  simp only [next] at hn hc
  cases hb : tk.state with
  | aborted => simp only [hb, stay] at hn; cases hn
  | committed =>
    simp only [hb, Ticket.finish, Option.some.injEq] at hn hc
    subst hn
    refine inv.advance tinv hx (.inr rfl) (by rw [hb]; simp) (fun h1 => by rw [hb] at h1; cases h1) ?_ (like_mark _ _ _ _)
    intro c h1
    rw [hc] at h1
    obtain ⟨e, _, rfl⟩ := List.mem_map.mp h1
    exact .inr ⟨_, _, rfl⟩
  | begun =>
    simp only [hb, stay, Option.some.injEq] at hn hc
    subst hn
    exact inv.same tinv hx (by rw [hc]; simp)
  | prepared =>
    simp only [hb, stay, Option.some.injEq] at hn hc
    subst hn
    exact inv.same tinv hx (by rw [hc]; simp)

theorem binv_finished {t : Tn} {h : Hist} {tk tk' : Ticket} (inv : BInv t h tk) (tinv : TInv t h tk) {o : Out}
    {c : Cont} {i : Nat} {r : Option ShardError} (hx : o.said.any (Said.aborts t) = false)
    (hn : (next (.finished c t i r) (some tk)).1 = some tk')
    (hc : o.calls = (next (.finished c t i r) (some tk)).2.1) :
    BInv t ((.finished c t i r, o) :: h) tk' := by
  simp only [next] at hn hc
  by_cases hb : tk.state = .committed
  · have hnb : tk.state ≠ .begun := by rw [hb]; simp
    simp only [if_pos hb] at hn hc
    by_cases h1 : stateOf (touch tk.shards i) i ≠ .finishing
    · rw [if_pos h1] at hn hc
      simp only [stay, Option.some.injEq] at hn hc
      subst hn
      exact inv.shards tinv hx (by rw [hc]; simp) (like_touch _ _) (fun h2 => absurd h2 hnb)
    · rw [if_neg h1] at hn hc
      by_cases h2 : r.isSome = true
      · rw [if_pos h2] at hn hc
        simp only [stay, Option.some.injEq] at hn hc
        subst hn
        exact inv.same tinv hx (by rw [hc]; simp)
      · rw [if_neg h2] at hn hc
        split at hn
        · simp only [stay] at hn; cases hn
        · rename_i hall
          rw [if_neg hall] at hc
          simp only [stay, Option.some.injEq] at hn hc
          subst hn
          exact inv.shards tinv hx (by rw [hc]; simp) ((like_touch _ _).trans (like_setState _ _ _))
            (fun h3 => absurd h3 hnb)
  · simp only [if_neg hb, stay, Option.some.injEq] at hn hc
    subst hn
    exact inv.same tinv hx (by rw [hc]; simp)

theorem binv_tryLock {t : Tn} {h : Hist} {tk tk' : Ticket} (inv : BInv t h tk) (tinv : TInv t h tk) {o : Out}
    {cb : Nat} {ok : Bool} (hx : o.said.any (Said.aborts t) = false)
    (hn : (next (.tryLock cb t ok) (some tk)).1 = some tk')
    (hc : o.calls = (next (.tryLock cb t ok) (some tk)).2.1) :
    BInv t ((.tryLock cb t ok, o) :: h) tk' := by
  simp only [next, stay, Option.some.injEq] at hn hc
  by_cases hb : tk.state = .aborted
  · rw [if_pos hb] at hn
    subst hn
    refine inv.step tinv hx ?_ ?_ ?_ ?_ ?_ ?_
    · exact fun _ => ⟨.inr hb, fun j c => by rw [hc]; simp⟩
    · rintro _ (⟨j, c, h2⟩ | ⟨_, h2, _⟩)
      · rw [hc] at h2; cases h2
      · rw [hb] at h2; cases h2
    · exact fun h1 => absurd rfl h1
    · intro _ e h1; cases h1
    · rintro _ j x (⟨ty', f, cb', h2⟩ | ⟨h2, _⟩)
      · rw [hc] at h2; cases h2
      · exact absurd hb h2
    · intro _ e h1; cases h1
  · rw [if_neg hb] at hn
    subst hn
    exact inv.same tinv hx (by rw [hc]; simp)

/-- What is known about a broker with an orderly user. -/
structure BAll (h : Hist) (s : State) : Prop where
  ticket : ∀ t tk, s.tickets.lookup t = some tk → BInv t h tk
  gone : ∀ t, s.tickets.lookup t = none → ¬RollbackAsked t h
  parts : ∀ t i u' c, Asked t h (.prepare i t u' c) → ∃ u, UserCommit t h u ∧ Part t h i u u' ∧
    ∀ q ∈ u, ∃ j, KeyAsked t h j q.1

/-- The event of a ticket which the broker knows. -/
theorem binv_own {h : Hist} {s s' : State} {e : Event} {o : Out} {t : Tn} {tk tk' : Ticket}
    (inv : BInv t h tk) (tinv : TInv t h tk) (hp : Plain h e) (ho : Orderly h e) (ht : e.ticket = some t)
    (hst : Steps s e t (s', o)) (hl : s.tickets.lookup t = some tk)
    (hl' : s'.tickets.lookup t = some tk') : BInv t ((e, o) :: h) tk' := by
  have hn := hst.own
  have hc := hst.calls
  have hs := hst.said
  rw [hl] at hn hc hs
  dsimp only at hn hc hs
  rw [hl'] at hn
  have hfalse : (next e (some tk)).2.2 = false → o.said.any (Said.aborts t) = false := fun h1 => hs.trans h1
  cases e with
  | ticketNumber cb r =>
    cases r with
    | none => cases ht
    | some q =>
      simp only [next, stay, Option.some.injEq, Option.getD_some] at hn hc hs
      subst hn
      exact inv.same tinv hs (by rw [hc]; simp)
  | tryLock cb t' ok => cases ht; exact binv_tryLock inv tinv hs hn.symm hc
  | foundKey cb t' k ty r ok =>
    cases ht
    refine binv_foundKey inv tinv (hfalse ?_) hn.symm hc
    cases r with
    | none => rfl
    | some i => simp only [next]; split <;> (try split) <;> rfl
  | locked cb t' k i r =>
    cases ht
    refine binv_locked inv tinv (hfalse ?_) hp hn.symm hc
    cases r with
    | error e => rfl
    | value v =>
      simp only [next]
      split
      · rfl
      · split <;> rfl
  | commit cb t' u p => cases ht; exact binv_commit inv tinv (hfalse rfl) ho hn.symm hc
  | prepared c t' i r p =>
    cases ht
    refine binv_prepared inv tinv (hfalse ?_) hn.symm hc
    simp only [next]; split <;> rfl
  | committed c t' i r p =>
    cases ht
    refine binv_committed inv tinv (hfalse ?_) hn.symm hc
    simp only [next]; repeat' split
    all_goals rfl
  | rollback cb t' p => cases ht; exact binv_rollback inv tinv hn.symm hs hc
  | rolledBack c t' i r p => cases ht; exact binv_rolledBack inv tinv hp hn.symm hs hc
  | finish cb t' p =>
    cases ht
    refine binv_finish inv tinv (hfalse ?_) hn.symm hc
    simp only [next]; split <;> rfl
  | finished c t' i r =>
    cases ht
    refine binv_finished inv tinv (hfalse ?_) hn.symm hc
    simp only [next]; repeat' split
    all_goals rfl
  | recover cb => cases ht
  | gotTickets cb i r p => cases ht

theorem next_none (e : Event) : (next e none).2.1 = [] ∧ (next e none).2.2 = false ∧
    ((next e none).1 = none ∨ ∃ cb q, e = .ticketNumber cb (some q) ∧ (next e none).1 = some {}) := by
  cases e with
  | ticketNumber cb r => cases r <;> simp [next, stay]
  | foundKey cb t k ty r ok => cases r <;> simp [next, stay]
  | locked cb t k i r => cases r <;> simp [next, stay]
  | _ => simp [next, stay]

/-- Which requests an event makes. -/
inductive Makes (t : Tn) (tk : Ticket) : Event → Option Ticket → Call → Prop
  | tryLock {cb : Nat} {k : Key} {ty : LockType} {i : Nat} {ok f : Bool} {x : Option Ticket} (hb : tk.state = .begun) :
      Makes t tk (.foundKey cb t k ty (some i) ok) x (.tryLock i t k ty f cb)
  | prepare {cb : Nat} {u : List (Key × Value)} {p : Option Stop} {i : Nat} {sh : Sh} {x : Option Ticket}
      (hb : tk.state = .begun) (he : tk.commitError u = none) (hm : (i, sh) ∈ tk.shards) :
      Makes t tk (.commit cb t u p) x (.prepare i t (shardUpdates sh u) ⟨cb, false⟩)
  | commit {e : Event} {tk' : Ticket} {i : Nat} {d : Cont} (hb : tk.state = .begun ∨ tk.state = .prepared)
      (hs : tk'.state = .prepared) : Makes t tk e (some tk') (.commit i t d)
  | rollback {cb i : Nat} {p : Option Stop} {x : Option Ticket} (hb : tk.state = .begun) :
      Makes t tk (.rollback cb t p) x (.rollback i t ⟨cb, false⟩)
  | finish {cb i : Nat} {p : Option Stop} {x : Option Ticket} (hb : tk.state = .committed) :
      Makes t tk (.finish cb t p) x (.finish i t ⟨cb, false⟩)

theorem next_makes {e : Event} {tk : Ticket} {t : Tn} (ht : e.ticket = some t) {c : Call}
    (hc : c ∈ (next e (some tk)).2.1) : Makes t tk e (next e (some tk)).1 c := by
  cases e with
  | ticketNumber cb r =>
    cases r with
    | none => cases ht
    | some q => simp [next, stay] at hc
  | tryLock cb t' ok => simp [next, stay] at hc
  | foundKey cb t' k ty r ok =>
    cases ht
    cases r with
    | none => simp [next, stay] at hc
    | some i =>
      by_cases hb : tk.state = .begun
      · simp only [next, if_pos hb] at hc
        split at hc
        · simp [stay] at hc
        · dsimp only at hc
          split at hc
          · rw [List.mem_singleton.mp hc]
            exact .tryLock hb
          · cases hc
      · simp [next, stay, hb] at hc
  | locked cb t' k i r =>
    cases r with
    | error e => simp [next, stay] at hc
    | value v =>
      simp only [next] at hc
      repeat' split at hc
      all_goals simp [stay] at hc
  | commit cb t' u p =>
    cases ht
    simp only [next, Ticket.commit] at hc ⊢
    cases hce : tk.commitError u with
    | some e => simp [hce] at hc
    | none =>
      simp only [hce] at hc ⊢
      by_cases hp : tk.state = .prepared
      · rw [if_pos hp] at hc ⊢
        simp only [Ticket.doCommit] at hc ⊢
        obtain ⟨e, _, rfl⟩ := List.mem_map.mp hc
        exact .commit (.inr hp) hp
      · rw [if_neg hp] at hc ⊢
        have hb : tk.state = .begun := by
          unfold Ticket.commitError at hce
          cases hst : tk.state <;> simp [hst] at hce hp ⊢
        simp only [Ticket.doPrepare] at hc ⊢
        obtain ⟨e, he, rfl⟩ := List.mem_map.mp hc
        exact .prepare hb hce (List.mem_filter.mp he).1
  | prepared c' t' i r p =>
    cases ht
    simp only [next] at hc ⊢
    by_cases hb : tk.state = .begun
    · simp only [if_pos hb, Ticket.handlePrepare] at hc ⊢
      by_cases h1 : stateOf (touch tk.shards i) i ≠ .preparing
      · rw [if_pos h1] at hc; cases hc
      · rw [if_neg h1] at hc ⊢
        cases r with
        | some e =>
          simp only at hc
          repeat' split at hc
          all_goals cases hc
        | none =>
          simp only at hc ⊢
          split at hc
          · rename_i hall
            rw [if_pos hall]
            simp only [Ticket.doCommit] at hc ⊢
            obtain ⟨e, _, rfl⟩ := List.mem_map.mp hc
            exact .commit (.inl hb) rfl
          · cases hc
    · simp [if_neg hb, stay] at hc
  | committed c' t' i r p =>
    simp only [next] at hc
    repeat' split at hc
    all_goals simp [stay] at hc
  | rollback cb t' p =>
    cases ht
    simp only [next] at hc
    split at hc
    · rename_i hb
      split at hc
      · cases hc
      · simp only [Ticket.rollback] at hc
        obtain ⟨e, _, rfl⟩ := List.mem_map.mp hc
        exact .rollback hb
    · simp [stay] at hc
  | rolledBack c' t' i r p =>
    simp only [next] at hc
    repeat' split at hc
    all_goals simp [stay] at hc
  | finish cb t' p =>
    cases ht
    simp only [next] at hc
    cases hb : tk.state with
    | aborted => simp [hb, stay] at hc
    | begun => simp [hb, stay] at hc
    | prepared => simp [hb, stay] at hc
    | committed =>
      simp only [hb, Ticket.finish] at hc
      obtain ⟨e, _, rfl⟩ := List.mem_map.mp hc
      exact .finish hb
  | finished c' t' i r =>
    simp only [next] at hc
    repeat' split at hc
    all_goals simp [stay] at hc
  | recover cb => cases ht
  | gotTickets cb i r p => cases ht

/-- Only tickets which were rolled back or committed are removed. -/
theorem next_gone {e : Event} {tk : Ticket} (hn : (next e (some tk)).1 = none) : tk.state ≠ .begun := by
  cases e with
  | ticketNumber cb r => cases r <;> simp [next, stay] at hn
  | foundKey cb t k ty r ok =>
    cases r with
    | none => simp [next, stay] at hn
    | some i =>
      simp only [next] at hn
      repeat' split at hn
      all_goals simp [stay] at hn
  | locked cb t k i r =>
    cases r with
    | error e => simp [next, stay] at hn
    | value v =>
      simp only [next] at hn
      repeat' split at hn
      all_goals simp [stay] at hn
  | finish cb t p =>
    intro hb
    simp [next, hb, stay] at hn
  | finished c t i r =>
    intro hb
    simp [next, hb, stay] at hn
  | tryLock cb t ok => simp [next, stay] at hn
  | recover cb => simp [next, stay] at hn
  | gotTickets cb i r p => simp [next, stay] at hn
  | commit cb t u p => simp [next] at hn
  | prepared c t i r p =>
    simp only [next] at hn
    split at hn <;> simp [stay] at hn
  | committed c t i r p =>
    simp only [next] at hn
    repeat' split at hn
    all_goals simp [stay] at hn
  | rollback cb t p =>
    simp only [next] at hn
    repeat' split at hn
    all_goals simp [stay] at hn
  | rolledBack c t i r p =>
    simp only [next] at hn
    repeat' split at hn
    all_goals simp [stay] at hn

theorem lookup_filter_fst {β : Type} (p : Key → Bool) (u : List (Key × β)) (k : Key) :
    (u.filter fun q => p q.1).lookup k = if p k then u.lookup k else none := by
  induction u with
  | nil => simp
  | cons a u ih =>
    by_cases hk : k = a.1
    · subst hk
      cases hp : p a.1 with
      | true =>
        obtain ⟨a, b⟩ := a
        rw [List.filter_cons_of_pos (by exact hp)]
        simp [List.lookup_cons]
      | false => rw [List.filter_cons_of_neg (by simp [hp]), ih, hp]; simp
    · have hb : (k == a.1) = false := by simpa using hk
      cases hp : p a.1 with
      | true => rw [List.filter_cons_of_pos (by exact hp), List.lookup_cons, List.lookup_cons, hb]; exact ih
      | false => rw [List.filter_cons_of_neg (by simp [hp]), List.lookup_cons, hb]; exact ih

theorem Keyed.eq {l : List (Nat × Sh)} (h : Keyed l) {i : Nat} {a b : Sh} (ha : (i, a) ∈ l) (hb : (i, b) ∈ l) :
    a = b := by
  unfold Keyed at h
  induction l with
  | nil => cases ha
  | cons e l ih =>
    rw [List.map_cons, List.nodup_cons] at h
    rcases List.mem_cons.mp ha with h1 | h1 <;> rcases List.mem_cons.mp hb with h2 | h2
    · rw [← h1] at h2; simpa using h2.symm
    · exact absurd (List.mem_map.mpr ⟨_, h2, by rw [← h1]⟩) h.1
    · exact absurd (List.mem_map.mpr ⟨_, h1, by rw [← h2]⟩) h.1
    · exact ih h.2 h1 h2

/-- What a shard is asked to prepare is the part of the update for the keys it was asked to lock. -/
theorem part_new {t : Tn} {h : Hist} {tk : Ticket} (inv : BInv t h tk) (tinv : TInv t h tk) (hr : ¬RollbackAsked t h)
    {u : List (Key × Value)} (hb : tk.state = .begun) (he : tk.commitError u = none) {i : Nat} {sh : Sh}
    (hm : (i, sh) ∈ tk.shards) : Part t h i u (shardUpdates sh u) ∧ ∀ q ∈ u, ∃ j, KeyAsked t h j q.1 := by
  unfold Ticket.commitError at he
  rw [if_neg (by rw [hb]; simp), if_neg (by rw [hb]; simp)] at he
  by_cases h1 : (tk.shards.any fun e => e.2.keys.any fun q => !q.2.locked) = true
  · rw [if_pos h1] at he; cases he
  rw [if_neg h1] at he
  by_cases h2 : (u.any fun q => !tk.shards.any fun e => (e.2.keys.lookup q.1).isSome) = true
  · rw [if_pos h2] at he; cases he
  have hlock : ∀ e ∈ tk.shards, ∀ k, (e.2.keys.lookup k).isSome → KeyAsked t h e.1 k := by
    intro e h3 k h4
    obtain ⟨q, h5, rfl⟩ := (lookup_isSome_iff _ _).mp h4
    refine inv.locked (by rw [hb]; simp) e h3 q h5 ?_
    cases hq : q.2.locked with
    | true => rfl
    | false => exact absurd (List.any_eq_true.mpr ⟨e, h3, List.any_eq_true.mpr ⟨q, h5, by simp [hq]⟩⟩) h1
  refine ⟨fun k => ⟨fun h3 => ?_, fun h3 => ?_⟩, fun q h3 => ?_⟩
  · obtain ⟨e, h4, h5, h6⟩ := inv.asked hr i k h3
    have h7 : e = (i, sh) := by
      obtain ⟨a, b⟩ := e
      dsimp only at h5
      subst h5
      rw [tinv.keyed.eq h4 hm]
    unfold shardUpdates
    rw [lookup_filter_fst (fun k => (sh.keys.lookup k).isSome) u k, if_pos (by rw [h7] at h6; exact h6)]
  · unfold shardUpdates
    rw [lookup_filter_fst (fun k => (sh.keys.lookup k).isSome) u k, if_neg]
    exact fun h4 => h3 (hlock _ hm k h4)
  · by_cases h4 : (tk.shards.any fun e => (e.2.keys.lookup q.1).isSome) = true
    · obtain ⟨e, h5, h6⟩ := List.any_eq_true.mp h4
      exact ⟨e.1, hlock e h5 q.1 h6⟩
    · exact absurd (List.any_eq_true.mpr ⟨q, h3, by simpa using h4⟩) h2

/-- Of other tickets nothing is asked. -/
theorem calls_ticket {h : Hist} {s s' : State} {e : Event} {o : Out} {t : Tn} (inv : Inv h s) (hp : Plain h e)
    (ht : e.ticket = some t) (hs : step s e = some (s', o)) : ∀ c ∈ o.calls, ∃ i, c.ticket = some (i, t) := by
  rcases good_step inv hp hs with ⟨_, h1, _⟩ | ⟨t', h1, hg⟩
  · rw [ht] at h1; cases h1
  · rw [ht] at h1
    cases h1
    exact hg.calls

theorem no_ticket {h : Hist} {s s' : State} {e : Event} {o : Out} (inv : Inv h s) (hp : Plain h e)
    (ht : e.ticket = none) (hs : step s e = some (s', o)) :
    s' = s ∧ o.calls = [] ∧ ∀ x, o.said.any (Said.aborts x) = false := by
  rcases good_step inv hp hs with ⟨h1, _, h2, h3⟩ | ⟨t', h1, hg⟩
  · exact ⟨h1, h2, h3⟩
  · rw [ht] at h1; cases h1

/-- `o` neither asks something for `t` nor reports its rollback. -/
def Out.quiet (t : Tn) (o : Out) : Prop :=
  (∀ c ∈ o.calls, ∀ i, c.ticket ≠ some (i, t)) ∧ o.said.any (Said.aborts t) = false

theorem asked_quiet {t : Tn} {h : Hist} {x : Event × Out} (hq : x.2.quiet t) {c : Call} {i : Nat}
    (hc : c.ticket = some (i, t)) : Asked t (x :: h) c ↔ Asked t h c := by
  refine ⟨fun h1 => ?_, fun h1 => h1.mono hq.2⟩
  rcases h1.cases with h2 | h2
  · exact absurd hc (hq.1 c h2 i)
  · exact h2

theorem keyAsked_quiet {t : Tn} {h : Hist} {x : Event × Out} (hq : x.2.quiet t) {i : Nat} {k : Key} :
    KeyAsked t (x :: h) i k ↔ KeyAsked t h i k := by
  unfold KeyAsked
  simp only [asked_quiet hq (c := .tryLock i t k _ _ _) rfl]

theorem rollbackAsked_quiet {t : Tn} {h : Hist} {x : Event × Out} (hq : x.2.quiet t) :
    RollbackAsked t (x :: h) ↔ RollbackAsked t h := by
  unfold RollbackAsked
  simp only [asked_quiet hq (c := .rollback _ t _) rfl]

theorem UserCommit.mono {t : Tn} {h : Hist} {x : Event × Out} (hx : x.2.said.any (Said.aborts t) = false)
    {u : List (Key × Value)} (hu : UserCommit t h u) : UserCommit t (x :: h) u := by
  obtain ⟨y, h1, h2⟩ := hu
  exact ⟨y, by rw [attempt_cons hx]; exact List.mem_cons_of_mem _ h1, h2⟩

/-- Parts stay parts as long as no further locks are asked for. -/
theorem parts_mono {t : Tn} {h : Hist} {x : Event × Out} (hx : x.2.said.any (Said.aborts t) = false)
    (hk : ∀ i k, KeyAsked t (x :: h) i k ↔ KeyAsked t h i k) {i : Nat} {u' : List (Key × Value)}
    (hu : ∃ u, UserCommit t h u ∧ Part t h i u u' ∧ ∀ q ∈ u, ∃ j, KeyAsked t h j q.1) :
    ∃ u, UserCommit t (x :: h) u ∧ Part t (x :: h) i u u' ∧ ∀ q ∈ u, ∃ j, KeyAsked t (x :: h) j q.1 := by
  obtain ⟨u, h1, h2, h3⟩ := hu
  refine ⟨u, h1.mono hx, fun k => ?_, fun q hq => ?_⟩
  · rw [hk]; exact h2 k
  · obtain ⟨j, h4⟩ := h3 q hq
    exact ⟨j, (hk j q.1).mpr h4⟩

theorem not_asked_end {t : Tn} {h : Hist} {x : Event × Out} (hx : x.2.said.any (Said.aborts t) = true) (c : Call) :
    ¬Asked t (x :: h) c := by
  rintro ⟨y, hy, _⟩
  rw [attempt_end hx] at hy; cases hy

theorem ball_step {h : Hist} {s s' : State} {e : Event} {o : Out} (inv : Inv h s) (ball : BAll h s)
    (hp : Plain h e) (ho : Orderly h e) (hs : step s e = some (s', o)) : BAll ((e, o) :: h) s' := by
  cases ht : e.ticket with
  | none =>
    obtain ⟨rfl, h2, h3⟩ := no_ticket inv hp ht hs
    have hq : ∀ t, o.quiet t := fun t => ⟨by rw [h2]; simp, h3 t⟩
    refine ⟨fun t tk hl => ?_, fun t hl => ?_, fun t i u' c ha => ?_⟩
    · exact (ball.ticket t tk hl).same (inv.ticket t tk hl) (hq t).2 (hq t).1
    · rw [rollbackAsked_quiet (hq t)]; exact ball.gone t hl
    · rw [asked_quiet (hq t) rfl] at ha
      exact parts_mono (hq t).2 (fun i k => keyAsked_quiet (hq t)) (ball.parts t i u' c ha)
  | some t0 =>
    have hst := step_next hp.plain ht hs
    have hct := calls_ticket inv hp ht hs
    have hq : ∀ t, t ≠ t0 → o.quiet t := by
      refine fun t hne => ⟨fun c hc i hi => ?_, hst.saidOther t hne⟩
      obtain ⟨j, hj⟩ := hct c hc
      rw [hi] at hj
      simp only [Option.some.injEq, Prod.mk.injEq] at hj
      exact hne hj.2
    have hnone : s.tickets.lookup t0 = none → o.quiet t0 := by
      intro hl
      have h1 := hst.calls
      have h2 := hst.said
      rw [hl] at h1 h2
      dsimp only at h1 h2
      rw [(next_none e).1] at h1
      rw [(next_none e).2.1] at h2
      exact ⟨by rw [h1]; simp, h2⟩
    refine ⟨fun t tk hl => ?_, fun t hl => ?_, fun t i u' c ha => ?_⟩
    · by_cases hne : t = t0
      · subst hne
        cases hl0 : s.tickets.lookup t with
        | some tk0 => exact binv_own (ball.ticket t tk0 hl0) (inv.ticket t tk0 hl0) hp ho ht hst hl0 hl
        | none =>
          have h1 := hst.own
          rw [hl0] at h1
          dsimp only at h1
          rw [hl] at h1
          rcases (next_none e).2.2 with h2 | ⟨cb, q, h2, h3⟩
          · rw [h2] at h1; cases h1
          · rw [h3] at h1
            cases h1
            subst h2
            cases ht
            have hno : ∀ c i, c.ticket = some (i, q.1) → ¬Asked q.1 ((.ticketNumber cb (some q), o) :: h) c := by
              intro c i hci ha
              rw [asked_quiet (hnone hl0) hci] at ha
              obtain ⟨x, h4, h5⟩ := ha
              exact hp (inv.called x (attempt_subset h4) c h5 i _ hci)
            refine ⟨fun _ i c => ⟨hno _ i rfl, hno _ i rfl⟩, ?_, by simp, by simp, ?_, by simp⟩
            · rintro _ ⟨i, c, h4⟩; exact absurd h4 (hno _ i rfl)
            · rintro _ i k ⟨_, _, _, h4⟩; exact absurd h4 (hno _ i rfl)
      · have h1 := hst.other t hne
        dsimp only at h1
        rw [h1] at hl
        exact (ball.ticket t tk hl).same (inv.ticket t tk hl) (hq t hne).2 (hq t hne).1
    · by_cases hne : t = t0
      · subst hne
        cases hl0 : s.tickets.lookup t with
        | none => rw [rollbackAsked_quiet (hnone hl0)]; exact ball.gone t hl0
        | some tk0 =>
          have h1 := hst.own
          rw [hl0] at h1
          dsimp only at h1
          rw [hl] at h1
          have h2 := hst.calls
          have h3 := hst.said
          rw [hl0] at h2 h3
          dsimp only at h2 h3
          have hst0 : tk0.state ≠ .begun := next_gone h1.symm
          rintro ⟨i, c, h4⟩
          rcases h4.cases with h4 | h4
          · dsimp only at h4
            rw [h2] at h4
            have hm := next_makes ht h4
            generalize (next e (some tk0)).1 = nx at hm
            cases hm with
            | rollback hb => exact hst0 hb
          · exact (ball.ticket t tk0 hl0).straight hst0 ⟨i, c, h4⟩
      · have h1 := hst.other t hne
        dsimp only at h1
        rw [h1] at hl
        rw [rollbackAsked_quiet (hq t hne)]
        exact ball.gone t hl
    · by_cases hne : t = t0
      · subst hne
        cases hx : o.said.any (Said.aborts t) with
        | true => exact absurd ha (not_asked_end hx _)
        | false =>
          cases hl0 : s.tickets.lookup t with
          | none =>
            rw [asked_quiet (hnone hl0) rfl] at ha
            exact parts_mono hx (fun i k => keyAsked_quiet (hnone hl0)) (ball.parts t i u' c ha)
          | some tk0 =>
            have h2 := hst.calls
            rw [hl0] at h2
            dsimp only at h2
            have hk : (∃ cb u p, e = .commit cb t u p) ∨ Asked t h (.prepare i t u' c) →
                ∀ i k, KeyAsked t ((e, o) :: h) i k ↔ KeyAsked t h i k := by
              intro h3 j k
              refine ⟨fun ⟨ty, f, cb, h4⟩ => ?_, fun h4 => h4.mono hx⟩
              rcases h4.cases with h5 | h5
              · exfalso
                dsimp only at h5
                rw [h2] at h5
                have hm := next_makes ht h5
                generalize (next e (some tk0)).1 = nx at hm
                cases hm with
                | tryLock hb =>
                  rcases h3 with ⟨cb, u, p, h3⟩ | h3
                  · cases h3
                  · exact ho.1 i ⟨_, _, h3⟩
              · exact ⟨ty, f, cb, h5⟩
            rcases ha.cases with ha | ha
            · dsimp only at ha
              rw [h2] at ha
              have hm := next_makes ht ha
              generalize (next e (some tk0)).1 = nx at hm
              cases hm with
              | @prepare cb u p _ sh _ hb he hm =>
                obtain ⟨h3, h4⟩ := part_new (ball.ticket t tk0 hl0) (inv.ticket t tk0 hl0) ho hb he hm
                have hk := hk (.inl ⟨_, _, _, rfl⟩)
                refine ⟨u, ⟨_, by rw [attempt_cons hx]; exact List.mem_cons_self, cb, p, rfl⟩, fun k => ?_, fun q hq => ?_⟩
                · rw [hk]; exact h3 k
                · obtain ⟨j, h5⟩ := h4 q hq
                  exact ⟨j, (hk j q.1).mpr h5⟩
            · exact parts_mono hx (hk (.inr ha)) (ball.parts t i u' c ha)
      · rw [asked_quiet (hq t hne) rfl] at ha
        exact parts_mono (hq t hne).2 (fun i k => keyAsked_quiet (hq t hne)) (ball.parts t i u' c ha)

end Verif.Parsec.Broker
