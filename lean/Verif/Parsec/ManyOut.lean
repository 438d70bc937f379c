import Verif.Parsec.ManyTold

/-!
# What the decided transactions write
-/
namespace Verif.Parsec.Broker

/-- Some shard was asked to prepare a decided transaction. -/
theorem decided_prepare {n : Nat} {own : Tn → Prop} {w : World} (hl : Link n own w) {t : Tn} (hc : CommitAsked t w.h) :
    ∃ i, PrepareAsked t w.h i := by
  obtain ⟨_, _, h1⟩ := hl.decided t hc
  obtain ⟨x, h2, i, c, h3⟩ := hc
  obtain ⟨_, post, d, p, o, pre, h4, u, y, h5, h6⟩ := h1 i c ⟨x, h2, h3⟩
  exact ⟨i, u, d, y, by rw [h4]; exact List.mem_append_right _ (List.mem_cons_of_mem _ h5), h6⟩

/-- The user asked to commit a decided transaction. -/
theorem decided_user {n : Nat} {own : Tn → Prop} {w : World} (hl : Link n own w) {t : Tn} (hc : CommitAsked t w.h) :
    ∃ u, UserUpdate w t u := by
  obtain ⟨i, u', c, h1⟩ := decided_prepare hl hc
  obtain ⟨u, h2, _, h3⟩ := hl.ball.parts t i u' c h1
  exact ⟨u, h2, h3⟩

/-- No locks are asked for after the decision. -/
theorem decided_keys {n me : Nat} {own : Tn → Prop} {w : World} (hr : Runs n me own Orderly w) {e : Event} {s : State}
    {o : Out} (hp : Plain w.h e) (ho : Orderly w.h e) (hs : step w.b e = some (s, o)) {t : Tn}
    (hc : CommitAsked t w.h) {i : Nat} {k : Key} {ty : LockType} {f : Bool} {cb : Nat} :
    Asked t ((e, o) :: w.h) (.tryLock i t k ty f cb) ↔ Asked t w.h (.tryLock i t k ty f cb) := by
  have hep := decided_epoch hr hp hs hc.mono
  constructor
  · intro ha
    rcases ha.cases with h1 | h1
    · exfalso
      obtain ⟨t0, tk, j, ht, _, hj, _, hcalls⟩ := calls_next hr.link.run.inv hp hs h1
      cases hj
      dsimp only at h1
      rw [hcalls] at h1
      have hm := next_makes ht h1
      generalize (next e (some tk)).1 = nx at hm
      cases hm with
      | tryLock _ =>
        obtain ⟨j, h2⟩ := decided_prepare hr.link hc
        exact ho.1 j h2
    · exact h1
  · exact fun ha => ha.mono hep

/-- `e` writes what the user asked for. -/
structure Writes (h : Hist) (e : Many.Txn) : Prop where
  touched : ∀ i, Touched e.ticket h i → ∃ u, UserCommit e.ticket h u ∧ (∀ q ∈ u, ∃ j, KeyAsked e.ticket h j q.1) ∧
    ∀ k, (KeyAsked e.ticket h i k → e.writes i k = u.lookup k) ∧ (¬KeyAsked e.ticket h i k → e.writes i k = none)
  other : ∀ i, ¬Touched e.ticket h i → ∀ k, e.writes i k = none

theorem Writes.cons {e : Many.Txn} {h : Hist} {x : Event × Out} (hw : Writes h e)
    (hx : x.2.said.any (Said.aborts e.ticket) = false)
    (hk : ∀ i k ty f cb, Asked e.ticket (x :: h) (.tryLock i e.ticket k ty f cb) ↔
      Asked e.ticket h (.tryLock i e.ticket k ty f cb)) : Writes (x :: h) e := by
  have h1 : ∀ i k, KeyAsked e.ticket (x :: h) i k ↔ KeyAsked e.ticket h i k := by
    intro i k
    exact exists_congr fun _ => exists_congr fun _ => exists_congr fun _ => hk ..
  have h2 : ∀ i, Touched e.ticket (x :: h) i ↔ Touched e.ticket h i := by
    intro i
    exact exists_congr fun _ => exists_congr fun _ => exists_congr fun _ => exists_congr fun _ => hk ..
  constructor
  · intro i hi
    obtain ⟨u, ⟨y, h3, h4⟩, h5, h6⟩ := hw.touched i ((h2 i).mp hi)
    refine ⟨u, ⟨y, by rw [attempt_cons hx]; exact List.mem_cons_of_mem _ h3, h4⟩, ?_, ?_⟩
    · intro q hq
      obtain ⟨j, h7⟩ := h5 q hq
      exact ⟨j, (h1 _ _).mpr h7⟩
    · intro k
      rw [h1]
      exact h6 k
  · intro i hi
    exact hw.other i (fun h3 => hi ((h2 i).mpr h3))

namespace Many

/-- At the moment of the decision. -/
theorem decided_writes {n me : Nat} {own : Tn → Prop} {w : World} (hr : Runs n me own Orderly w) {t : Tn}
    (hc : CommitAsked t w.h) (hno : ∀ i, ¬Committed w i t) : Writes w.h (snapshot w.shard t) where
  touched := by
    intro i hi
    obtain ⟨h1, h2, _⟩ := hr.link.decided t hc
    obtain ⟨_, _, _, u, h3, h4⟩ := reported_kept hr.link (hr.held i) (h2 i hi) h1
    refine ⟨u, h3.1, h3.2, ?_⟩
    rcases h4 with ⟨_, tk, h5, h6, h7⟩ | ⟨_, a, h5, h6, _⟩
    · intro k
      have : (snapshot w.shard t).writes i k = tk.update.lookup k := by
        show pendingWrite (w.shard i) t k = _
        unfold pendingWrite
        rw [h5]
        simp [h6]
      rw [this]
      exact h7 k
    · exact absurd ⟨a, h5, h6⟩ (hno i)
  other := by
    intro i hi k
    show pendingWrite (w.shard i) t k = none
    refine pending_none ?_ k
    rintro ⟨tk, h1, _⟩
    exact hi (decided_record hr hc (by rw [h1]; simp)).1

def OutInv (M : Many) : Prop := ∀ e ∈ M.order, ∀ b, CommitAsked e.ticket (M.h b) → Writes (M.h b) e

theorem outInv {n : Nat} {own : Nat → Tn → Prop} {base : Nat → Key → Value} (hd : Disjoint own) {M : Many}
    (hr : ManyRuns n own base M) : OutInv M := by
  induction hr with
  | start h =>
    intro e h1
    rw [h.order] at h1
    cases h1
  | @step M M' hr h ih =>
    have hv := view_runs hd hr
    have horder := orderInv hd hr
    cases h with
    | @event b e s o hp ho hj hg hn hs =>
      intro x hx0 a hc
      have h5 : Runs n b (own b) Orderly ((M.view b).event e s o) := .step (hv b) (.event hp ho hj hn hs)
      rcases List.mem_append.mp (show x ∈ M.order ++ (decides (M.h b) o).toList.map (snapshot M.shard) from hx0)
        with hx | hx
      · by_cases ha : a = b
        · subst ha
          rw [hist_event_same] at hc ⊢
          have hold : CommitAsked x.ticket (M.h a) := by
            obtain ⟨a', h1⟩ := (horder.decided x.ticket).mp ⟨x, hx, rfl⟩
            have h2 := h1.own (hv a').link
            have h3 : own a x.ticket := CommitAsked.own h5.link hc
            have := hd _ _ _ h2 h3
            subst this
            exact h1
          exact (ih x hx a hold).cons (decided_epoch (hv a) hp hs hc)
            fun i k ty f cb => decided_keys (hv a) hp ho hs hold
        · rw [hist_event_other M ha] at hc ⊢
          exact ih x hx a hc
      · obtain ⟨t, h4, rfl⟩ := List.mem_map.mp hx
        rw [Option.mem_toList] at h4
        obtain ⟨h6, i, c, h7⟩ := decides_some h4
        have hca : CommitAsked t ((M.view b).event e s o).h := ⟨_, List.mem_cons_self, i, c, h7⟩
        by_cases ha : a = b
        · subst ha
          rw [hist_event_same]
          refine decided_writes h5 hca fun i h8 => h6 ?_
          have h9 : Committed (M.view a) i t := h8
          obtain ⟨c, h10⟩ := h9.asked (hv a).link
          exact asked_commit h10
        · rw [hist_event_other M ha] at hc
          exact absurd hc (decides_new hd hv hp ho hj hn hs h4 a)
    | @serve b i r rest op s o hn ho he =>
      intro x hx a hc
      rw [hist_serve] at hc ⊢
      exact ih x hx a hc
    | lose hl => exact ih

end Many
end Verif.Parsec.Broker
