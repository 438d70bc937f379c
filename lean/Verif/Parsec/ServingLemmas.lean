import Verif.Parsec.ServingSpec

/-! Lemmas for C124. -/
namespace Verif.Parsec.Agent

/-- An event reports at most one result. -/
theorem one_result {cfg : Config} {p : Can} {a : Agent} (rest : Rest a) (e : Event) :
    ((step cfg p a e).2.filterMap asResult = [] ∧ (step cfg p a e).2.reverse.findSome? asResult = none) ∨
    ∃ r, (step cfg p a e).2.filterMap asResult = [r] ∧ (step cfg p a e).2.reverse.findSome? asResult = some r := by
  have key := outcome (cfg := cfg) (p := p) rest e
  generalize Agent.step cfg p a e = m at key
  cases key with
  | idle hf hs ht hr ho => exact .inl ⟨ho.results, ho.owed⟩
  | run t hst hs ht ho => exact .inl ⟨ho.results, ho.owed⟩
  | fall t hf hm =>
    cases hm with
    | sent q hs ht hfl hq ho =>
      rw [ho]
      refine .inl ⟨by rw [List.filterMap_append, hq.results]; rfl, ?_⟩
      simp [List.findSome?_cons, asResult, hq.owed]
    | stuck q hs ht hfl hq ho =>
      rw [ho]
      refine .inr ⟨_, by rw [List.filterMap_append, hq.results]; rfl, ?_⟩
      simp [List.findSome?_cons, asResult]
  | begun hb hst hs hw hk ho => rw [ho]; exact .inl ⟨rfl, rfl⟩
  | get t hst hs ht hw k w ho => rw [ho]; exact .inl ⟨rfl, rfl⟩
  | commit t u ha hst hs ht hr ho => rw [ho]; exact .inl ⟨rfl, rfl⟩
  | finish t ha hf hs ht hr ho => rw [ho]; exact .inl ⟨rfl, rfl⟩
  | beginFailed hst hs hw hk x hx ho => rw [ho]; exact .inr ⟨_, rfl, rfl⟩
  | finishFailed t ha hf hs ht x hx hr ho => rw [ho]; exact .inr ⟨_, rfl, rfl⟩
  | complete t r ha hf hs ht hr hr' ho => rw [ho]; exact .inr ⟨_, rfl, rfl⟩
  | rollbackFailed t ha hf hs ht hr ho => rw [ho]; exact .inr ⟨_, rfl, rfl⟩
  | retry t ha hf hs ht hr ho => rw [ho]; exact .inr ⟨_, rfl, rfl⟩
  | crash hf hm => rw [hm]; exact .inl ⟨rfl, rfl⟩

/-- An agent that waits for nobody has reported, or is to be run. -/
structure Said (h : Trace) (a : Agent) : Prop where
  owes : a.state = .init ∨ a.state = .rollbackComplete → owed h = true
  final : final a.state = true → finals h ≠ []

theorem Run.said {cfg : Config} {h : Trace} {a : Agent} (r : Run cfg h a) (sv : Served h) : Said h a := by
  induction r with
  | start => exact ⟨fun _ => rfl, fun h => (nomatch h)⟩
  | @step h a r ha p e ih =>
    have inv := (r.served sv.2.2).1
    have met := inv.met sv
    have ih := ih sv.2.2
    have hx := met.exec
    have key := outcome (cfg := cfg) (p := p) (r.rest ha) e
    generalize Agent.step cfg p a e = m at key
    have hfin : ∀ {q : List Out} {x : Result}, Quiet q → m.2 = q ++ [.result x] → x ≠ .error .retry →
        finals ((e, m.2) :: h) ≠ [] := by
      intro q x hq ho hne
      unfold finals
      rw [results_cons, ho, List.filterMap_append, hq.results]
      simp [asResult, List.filterMap_cons, hne]
    cases key with
    | idle hf hs ht hr ho =>
      refine ⟨fun h1 => ?_, fun h1 => ?_⟩
      · rw [hs] at h1
        have he : e ≠ .exec := by
          rintro rfl
          rcases h1 with h1 | h1 <;> simp [Foreign, h1] at hf
        simp only [owed, ho.owed, if_neg he]
        exact ih.owes h1
      · rw [hs] at h1
        unfold finals
        rw [results_cons, ho.results]
        exact ih.final h1
    | run t hst hs ht ho => exact ⟨by simp [hs], by simp [hs, Agent.final]⟩
    | fall t hf hm =>
      cases hm with
      | sent q hs ht hfl hq ho => exact ⟨by simp [hs], by simp [hs, Agent.final]⟩
      | stuck q hs ht hfl hq ho => exact ⟨by simp [hs], fun _ => hfin hq ho (by simp)⟩
    | begun hb hst hs hw hk ho => exact ⟨by simp [hs], by simp [hs, Agent.final]⟩
    | get t hst hs ht hw k w ho => exact ⟨by simp [hs], by simp [hs, Agent.final]⟩
    | commit t u ha hst hs ht hr ho => exact ⟨by simp [hs], by simp [hs, Agent.final]⟩
    | finish t ha hf hs ht hr ho => exact ⟨by simp [hs], by simp [hs, Agent.final]⟩
    | beginFailed hst hs hw hk x hx' ho =>
      exact ⟨by simp [hs], fun _ => hfin .nil ho (by rcases hx' with rfl | rfl <;> simp)⟩
    | finishFailed t ha hf hs ht x hx' hr ho =>
      exact ⟨by simp [hs], fun _ => hfin .nil ho (by rcases hx' with rfl | rfl <;> simp)⟩
    | complete t x ha' hf hs ht hr hr' ho =>
      obtain ⟨r', hr1, hr2⟩ := (r.rest ha).finishing (.inl hf.1)
      rw [hr] at hr1
      cases hr1
      exact ⟨by simp [hs], fun _ => hfin .nil ho hr2⟩
    | rollbackFailed t ha hf hs ht hr ho => exact ⟨by simp [hs], fun _ => hfin .nil ho (by simp)⟩
    | retry t ha hf hs ht hr ho => exact ⟨fun _ => by simp [owed, ho, asResult], by simp [hs, Agent.final]⟩
    | crash hf hm =>
      obtain ⟨h1, rfl⟩ := hf
      rcases hx rfl with h2 | h2 <;> simp [h2] at h1

/-- An agent that is to be run reports nothing. -/
theorem nothing_owed {cfg : Config} {p : Can} {a : Agent} (rest : Rest a) {e : Event} (he : e ≠ .exec)
    (ha : a.state = .init ∨ a.state = .rollbackComplete) : (step cfg p a e).2.filterMap asResult = [] := by
  have key := outcome (cfg := cfg) (p := p) rest e
  generalize Agent.step cfg p a e = m at key
  cases key with
  | idle hf hs ht hr ho => exact ho.results
  | run t hst hs ht ho => exact ho.results
  | fall t hf hm =>
    exfalso
    rcases hf with (⟨h, _⟩ | ⟨h, h', _⟩) | ⟨_, ⟨h, _⟩ | h | ⟨h, _⟩ | ⟨h | h, _⟩⟩
    · rcases ha with ha | ha <;> simp [ha] at h
    · exact he h'
    all_goals rcases ha with ha | ha <;> simp [ha] at h
  | begun hb hst hs hw hk ho => exact absurd hb he
  | get t hst hs ht hw k w ho => rw [ho]; rfl
  | commit t u ha hst hs ht hr ho => rw [ho]; rfl
  | finish t ha hf hs ht hr ho => rw [ho]; rfl
  | beginFailed hst hs hw hk x hx ho =>
    exfalso
    rcases hst with ⟨h, _⟩ | ⟨_, h⟩
    · exact he h
    · rcases ha with ha | ha <;> simp [ha] at h
  | finishFailed t _ hf hs ht x hx hr ho =>
    exfalso
    rcases hf with (⟨h, _⟩ | ⟨h, _, _⟩ | ⟨h | h, _⟩) | ⟨h, _⟩ <;> rcases ha with ha | ha <;> simp [ha] at h
  | complete t r _ hf hs ht hr hr' ho =>
    exfalso
    have h := hf.1
    rcases ha with ha | ha <;> simp [ha] at h
  | rollbackFailed t _ hf hs ht hr ho =>
    exfalso
    have h := hf.1
    rcases ha with ha | ha <;> simp [ha] at h
  | retry t _ hf hs ht hr ho =>
    exfalso
    have h := hf.1
    rcases ha with ha | ha <;> simp [ha] at h
  | crash hf hm => exact absurd hf.2 he

/-- A result `ok` is reported by an agent whose destruction is harmless; so it stays. -/
theorem Run.done {cfg : Config} {h : Trace} {a : Agent} (r : Run cfg h a) (sv : Served h) {u : Update}
    (hu : Result.ok u ∈ finals h) : a.state = .finishComplete := by
  induction r with
  | start => simp [finals, results] at hu
  | @step h a r ha p e ih =>
    have inv := (r.served sv.2.2).1
    have met := inv.met sv
    have ih := ih sv.2.2
    have hx := met.exec
    have hans := met.answer
    have key := outcome (cfg := cfg) (p := p) (r.rest ha) e
    generalize Agent.step cfg p a e = m at key hu
    have hstay : m.1.state = a.state → Result.ok u ∈ finals h → m.1.state = .finishComplete := fun h1 h2 => by
      rw [h1]; exact ih h2
    have hold : ∀ {q : List Out} {x : Err}, Quiet q → m.2 = q ++ [.result (.error x)] → Result.ok u ∈ finals h := by
      intro q x hq ho
      unfold finals at hu ⊢
      rw [results_cons, ho, List.filterMap_append, hq.results] at hu
      simpa [asResult, List.filterMap_cons] using hu
    have hnone : (m.2.filterMap asResult) = [] → Result.ok u ∈ finals h := by
      intro ho
      unfold finals at hu ⊢
      rwa [results_cons, ho] at hu
    have hno : ∀ {P : Prop}, Result.ok u ∈ finals h → a.state ≠ .finishComplete → P := fun h1 h2 => absurd (ih h1) h2
    cases key with
    | idle hf hs ht hr ho => exact hstay hs (hnone ho.results)
    | run t hst hs ht ho =>
      refine hno (hnone ho.results) ?_
      rcases hst with (⟨h, _⟩ | ⟨h, _, _⟩) | ⟨h, _, _⟩ <;> simp [h]
    | fall t hf hm =>
      have hne : a.state ≠ .finishComplete := by
        rcases hf with (⟨h, _⟩ | ⟨h, _, _⟩) | ⟨_, ⟨h, _⟩ | h | ⟨h, _⟩ | ⟨h | h, _⟩⟩ <;> simp [h]
      cases hm with
      | sent q hs ht hfl hq ho =>
        exact hno (hnone (by rw [ho, List.filterMap_append, hq.results]; rfl)) hne
      | stuck q hs ht hfl hq ho => exact hno (hold hq ho) hne
    | begun hb hst hs hw hk ho =>
      refine hno (hnone (by rw [ho]; rfl)) ?_
      rcases hst with h | h | h <;> simp [h]
    | get t hst hs ht hw k w ho =>
      refine hno (hnone (by rw [ho]; rfl)) ?_
      rcases hst with ⟨h, _⟩ | ⟨h, _, _⟩ <;> simp [h]
    | commit t u ha hst hs ht hr ho =>
      refine hno (hnone (by rw [ho]; rfl)) ?_
      rcases hst with ⟨h, _⟩ | ⟨h, _, _⟩ <;> simp [h]
    | finish t ha hf hs ht hr ho =>
      refine hno (hnone (by rw [ho]; rfl)) ?_
      rcases hf with ⟨h, _⟩ | ⟨h, _, _⟩ | ⟨h | h, _⟩ <;> simp [h]
    | beginFailed hst hs hw hk x hx' ho =>
      refine hno (hold .nil ho) ?_
      rcases hst with ⟨_, h | h | h⟩ | ⟨_, h⟩ <;> simp [h]
    | finishFailed t ha hf hs ht x hx' hr ho =>
      refine hno (hold .nil ho) ?_
      rcases hf with (⟨h, _⟩ | ⟨h, _, _⟩ | ⟨h | h, _⟩) | ⟨h, _⟩ <;> simp [h]
    | complete t x ha' hf hs ht hr hr' ho => exact hs
    | rollbackFailed t ha hf hs ht hr ho => exact hno (hold .nil ho) (by simp [hf.1])
    | retry t ha hf hs ht hr ho => exact hno (hold .nil ho) (by simp [hf.1])
    | crash hf hm =>
      obtain ⟨h1, rfl⟩ := hf
      rcases hx rfl with h2 | h2 <;> simp [h2] at h1

end Verif.Parsec.Agent

namespace Verif.Parsec.Serving

open Agent

/-- The agent was to be destroyed. -/
def disposed (fl : Flavor) (h : Trace) : Bool := (finals h).any (disposes fl)

/-- What holds for each number. -/
structure At (fl : Flavor) (cfg : Nat → Config) (s : Server) (id : Nat) : Prop where
  run : Run (cfg id) (s.tr id) (s.ag id)
  served : Served (s.tr id)
  born : s.tr id = [] ↔ s.next ≤ id
  ans : toldTo s id = finals (s.tr id)
  again : s.retry.count id + (if s.retrying = some id then 1 else 0) =
    if s.tr id ≠ [] ∧ owed (s.tr id) = true then 1 else 0
  clean : s.cleanup.count id ≤ if disposed fl (s.tr id) = true then 1 else 0
  keep : s.kept.count id = if id < s.next ∧ disposed fl (s.tr id) = false then 1 else s.cleanup.count id

theorem resultsOf_eq (o : List Out) : resultsOf o = o.filterMap asResult := by
  unfold resultsOf
  congr 1

/-- What an event at an agent does to the server. -/
structure Reacted (fl : Flavor) (cfg : Nat → Config) (id : Nat) (p : Can) (e : Agent.Event) (s s' : Server) : Prop where
  next : s'.next = s.next
  kept : s'.kept = s.kept
  retrying : s'.retrying = s.retrying
  ag : s'.ag = fun j => if j = id then (Agent.step (cfg id) p (s.ag id) e).1 else s.ag j
  tr : s'.tr = fun j => if j = id then (e, (Agent.step (cfg id) p (s.ag id) e).2) :: s.tr id else s.tr j
  ended : s'.ended = if Out.crash ∈ (Agent.step (cfg id) p (s.ag id) e).2 then some .agent else s.ended
  does : (((Agent.step (cfg id) p (s.ag id) e).2.filterMap asResult = [] ∧
        (Agent.step (cfg id) p (s.ag id) e).2.reverse.findSome? asResult = none ∧
        s'.retry = s.retry ∧ s'.cleanup = s.cleanup ∧ s'.told = s.told) ∨
      ((Agent.step (cfg id) p (s.ag id) e).2.filterMap asResult = [.error .retry] ∧
        (Agent.step (cfg id) p (s.ag id) e).2.reverse.findSome? asResult = some (.error .retry) ∧
        s'.retry = s.retry ++ [id] ∧ s'.cleanup = s.cleanup ∧ s'.told = s.told)) ∨
    ∃ r, r ≠ .error .retry ∧ (Agent.step (cfg id) p (s.ag id) e).2.filterMap asResult = [r] ∧
      (Agent.step (cfg id) p (s.ag id) e).2.reverse.findSome? asResult = some r ∧
      s'.retry = s.retry ∧ s'.cleanup = (if disposes fl r then s.cleanup ++ [id] else s.cleanup) ∧
      s'.told = (id, r) :: s.told

theorem reacted (fl : Flavor) (cfg : Nat → Config) (id : Nat) (p : Can) (e : Agent.Event) (s : Server)
    (rest : Rest (s.ag id)) : Reacted fl cfg id p e s (react fl cfg id p e s) := by
  rcases one_result (cfg := cfg id) (p := p) rest e with ⟨h1, h2⟩ | ⟨r, h1, h2⟩
  · have hr : react fl cfg id p e s = { s with
        ag := fun j => if j = id then (Agent.step (cfg id) p (s.ag id) e).1 else s.ag j
        tr := fun j => if j = id then (e, (Agent.step (cfg id) p (s.ag id) e).2) :: s.tr id else s.tr j
        ended := if Out.crash ∈ (Agent.step (cfg id) p (s.ag id) e).2 then some .agent else s.ended } := by
      unfold react
      simp only [resultsOf_eq, h1, List.foldl_nil]
    rw [hr]
    exact ⟨rfl, rfl, rfl, rfl, rfl, rfl, .inl (.inl ⟨h1, h2, rfl, rfl, rfl⟩)⟩
  · by_cases hret : r = .error .retry
    · subst hret
      have hr : react fl cfg id p e s = { s with
          ag := fun j => if j = id then (Agent.step (cfg id) p (s.ag id) e).1 else s.ag j
          tr := fun j => if j = id then (e, (Agent.step (cfg id) p (s.ag id) e).2) :: s.tr id else s.tr j
          ended := if Out.crash ∈ (Agent.step (cfg id) p (s.ag id) e).2 then some .agent else s.ended
          retry := s.retry ++ [id] } := by
        unfold react
        simp only [resultsOf_eq, h1, List.foldl_cons, List.foldl_nil, heard, if_true]
      rw [hr]
      exact ⟨rfl, rfl, rfl, rfl, rfl, rfl, .inl (.inr ⟨h1, h2, rfl, rfl, rfl⟩)⟩
    · have hr : react fl cfg id p e s = { s with
          ag := fun j => if j = id then (Agent.step (cfg id) p (s.ag id) e).1 else s.ag j
          tr := fun j => if j = id then (e, (Agent.step (cfg id) p (s.ag id) e).2) :: s.tr id else s.tr j
          ended := if Out.crash ∈ (Agent.step (cfg id) p (s.ag id) e).2 then some .agent else s.ended
          told := (id, r) :: s.told
          cleanup := if disposes fl r then s.cleanup ++ [id] else s.cleanup } := by
        unfold react
        simp only [resultsOf_eq, h1, List.foldl_cons, List.foldl_nil, heard, if_neg hret]
      rw [hr]
      exact ⟨rfl, rfl, rfl, rfl, rfl, rfl, .inr ⟨r, hret, h1, h2, rfl, rfl, rfl⟩⟩

theorem finals_cons (e : Agent.Event) (o : List Out) (h : Trace) :
    finals ((e, o) :: h) = ((o.filterMap asResult).filter fun r => r ≠ .error .retry) ++ finals h := by
  unfold finals
  rw [results_cons, List.filter_append]

/-- The others do not notice. -/
theorem Reacted.other {fl : Flavor} {cfg : Nat → Config} {id : Nat} {p : Can} {e : Agent.Event} {s s' : Server}
    (h : Reacted fl cfg id p e s s') {j : Nat} (hj : j ≠ id) (ha : At fl cfg s j) : At fl cfg s' j := by
  have htr : s'.tr j = s.tr j := by rw [h.tr]; simp [hj]
  have hag : s'.ag j = s.ag j := by rw [h.ag]; simp [hj]
  have hj' : ¬ id = j := fun h => hj h.symm
  have key : s'.retry.count j = s.retry.count j ∧ s'.cleanup.count j = s.cleanup.count j ∧ toldTo s' j = toldTo s j := by
    rcases h.does with (⟨_, _, h1, h2, h3⟩ | ⟨_, _, h1, h2, h3⟩) | ⟨r, _, _, _, h1, h2, h3⟩
    · unfold toldTo; rw [h1, h2, h3]; exact ⟨rfl, rfl, rfl⟩
    · unfold toldTo; rw [h1, h2, h3]; exact ⟨by simp [hj'], rfl, rfl⟩
    · unfold toldTo; rw [h1, h2, h3]
      refine ⟨rfl, ?_, by simp [hj']⟩
      split
      · simp [hj']
      · rfl
  exact ⟨by rw [htr, hag]; exact ha.run, by rw [htr]; exact ha.served, by rw [htr, h.next]; exact ha.born,
    by rw [htr, key.2.2]; exact ha.ans, by rw [htr, key.1, h.retrying]; exact ha.again,
    by rw [htr, key.2.1]; exact ha.clean, by rw [htr, key.2.1, h.kept, h.next]; exact ha.keep⟩

/-- The agent itself. -/
theorem Reacted.self {fl : Flavor} {cfg : Nat → Config} {id : Nat} {p : Can} {e : Agent.Event} {s s' : Server}
    (h : Reacted fl cfg id p e s s') (run : Run (cfg id) (s.tr id) (s.ag id)) (served : Served (s.tr id))
    (hnext : id < s.next) (ans : toldTo s id = finals (s.tr id))
    (again : s.retry.count id + (if s.retrying = some id then 1 else 0) =
      if e ≠ .exec ∧ s.tr id ≠ [] ∧ owed (s.tr id) = true then 1 else 0)
    (hne : e ≠ .exec → s.tr id ≠ [])
    (clean : s.cleanup.count id ≤ if disposed fl (s.tr id) = true then 1 else 0)
    (keep : s.kept.count id = if id < s.next ∧ disposed fl (s.tr id) = false then 1 else s.cleanup.count id)
    (hx : e = .exec → owed (s.tr id) = true) (ha : ∀ k, answers e = some k → pending (s.tr id) = some k) :
    At fl cfg s' id ∧ s'.ended = s.ended := by
  have htr : s'.tr id = (e, (Agent.step (cfg id) p (s.ag id) e).2) :: s.tr id := by rw [h.tr]; simp
  have hag : s'.ag id = (Agent.step (cfg id) p (s.ag id) e).1 := by rw [h.ag]; simp
  have hrun : Run (cfg id) (s'.tr id) (s'.ag id) := by
    rw [htr, hag]; exact .step run (run.served served).2 p e
  have hsv : Served (s'.tr id) := by rw [htr]; exact ⟨hx, ha, served⟩
  have inv := (hrun.served hsv).1
  have hcr : Out.crash ∉ (Agent.step (cfg id) p (s.ag id) e).2 :=
    (hrun.served hsv).2 (e, (Agent.step (cfg id) p (s.ag id) e).2) (by rw [htr]; simp)
  refine ⟨?_, by rw [h.ended, if_neg hcr]⟩
  have hborn : s'.tr id = [] ↔ s'.next ≤ id := by
    rw [htr, h.next]
    simp only [List.cons_ne_nil, false_iff]
    omega
  rcases h.does with (⟨h1, h2, h3, h4, h5⟩ | ⟨h1, h2, h3, h4, h5⟩) | ⟨r, hr, h1, h2, h3, h4, h5⟩
  · have hf : finals (s'.tr id) = finals (s.tr id) := by rw [htr, finals_cons, h1]; rfl
    have ho : owed (s'.tr id) = if e = .exec then false else owed (s.tr id) := by
      rw [htr]; simp only [owed, h2]
    refine ⟨hrun, hsv, hborn, ?_, ?_, ?_, ?_⟩
    · unfold toldTo at ans ⊢; rw [h5, hf, ans]
    · rw [h3, h.retrying, again, ho]
      by_cases he : e = .exec
      · simp [he]
      · rw [htr]; simp [he, hne he]
    · unfold disposed at clean ⊢; rw [h4, hf]; exact clean
    · unfold disposed at keep ⊢; rw [h4, hf, h.kept, h.next]; exact keep
  · have hf : finals (s'.tr id) = finals (s.tr id) := by rw [htr, finals_cons, h1]; rfl
    have ho : owed (s'.tr id) = true := by rw [htr]; simp only [owed, h2, decide_true]
    refine ⟨hrun, hsv, hborn, ?_, ?_, ?_, ?_⟩
    · unfold toldTo at ans ⊢; rw [h5, hf, ans]
    · -- it was not to be run again before
      have h0 : ¬ (e ≠ .exec ∧ s.tr id ≠ [] ∧ owed (s.tr id) = true) := by
        rintro ⟨he, _, how⟩
        have := nothing_owed (cfg := cfg id) (p := p) (run.rest (run.served served).2) he ((run.served served).1.owe how)
        rw [h1] at this
        cases this
      rw [if_neg h0] at again
      rw [h3, h.retrying, ho, List.count_append, htr]
      simp
      omega
    · unfold disposed at clean ⊢; rw [h4, hf]; exact clean
    · unfold disposed at keep ⊢; rw [h4, hf, h.kept, h.next]; exact keep
  · have hf : finals (s'.tr id) = r :: finals (s.tr id) := by rw [htr, finals_cons, h1]; simp [hr]
    have ho : owed (s'.tr id) = false := by rw [htr]; simp [owed, h2, hr]
    have hold : finals (s.tr id) = [] := by
      have := inv.once
      rw [hf] at this
      exact List.length_eq_zero_iff.mp (by simpa using this)
    have hd0 : disposed fl (s.tr id) = false := by unfold disposed; rw [hold]; rfl
    have hd1 : disposed fl (s'.tr id) = disposes fl r := by unfold disposed; rw [hf, hold]; simp
    rw [hd0] at clean keep
    have hc0 : s.cleanup.count id = 0 := by simpa using clean
    rw [if_pos ⟨hnext, rfl⟩] at keep
    refine ⟨hrun, hsv, hborn, ?_, ?_, ?_, ?_⟩
    · unfold toldTo at ans ⊢; rw [h5, hf, ← ans]; simp
    · have h0 : ¬ (e ≠ .exec ∧ s.tr id ≠ [] ∧ owed (s.tr id) = true) := by
        rintro ⟨he, _, how⟩
        have := nothing_owed (cfg := cfg id) (p := p) (run.rest (run.served served).2) he ((run.served served).1.owe how)
        rw [h1] at this
        cases this
      rw [if_neg h0] at again
      rw [h3, h.retrying, again, ho]
      simp
    · rw [h4, hd1]
      cases disposes fl r <;> simp [hc0]
    · rw [h4, hd1, h.kept, h.next, keep]
      cases disposes fl r <;> simp [hc0, hnext]

theorem smallest_mem {l : List Nat} {x : Nat} (h : smallest l = some x) : x ∈ l ∧ ∀ y ∈ l, x ≤ y := by
  induction l generalizing x with
  | nil => cases h
  | cons a l ih =>
    rw [smallest] at h
    cases hs : smallest l with
    | none =>
      rw [hs] at h
      cases h
      refine ⟨List.mem_cons_self, fun y hy => ?_⟩
      rcases List.mem_cons.mp hy with rfl | hy
      · exact Nat.le_refl _
      · cases l with
        | nil => cases hy
        | cons b l =>
          rw [smallest] at hs
          split at hs <;> cases hs
    | some b =>
      rw [hs] at h
      dsimp only at h
      cases h
      obtain ⟨h1, h2⟩ := ih hs
      refine ⟨?_, fun y hy => ?_⟩
      · rcases Nat.le_total a b with hab | hab
        · rw [Nat.min_eq_left hab]; exact List.mem_cons_self
        · rw [Nat.min_eq_right hab]; exact List.mem_cons_of_mem _ h1
      · rcases List.mem_cons.mp hy with rfl | hy
        · exact Nat.min_le_left _ _
        · exact Nat.le_trans (Nat.min_le_right _ _) (h2 y hy)

/-- An agent to be run again is there. -/
theorem At.there {fl : Flavor} {cfg : Nat → Config} {s : Server} {id : Nat} (h : At fl cfg s id)
    (hr : s.retry.count id + (if s.retrying = some id then 1 else 0) ≠ 0) :
    id < s.next ∧ s.tr id ≠ [] ∧ owed (s.tr id) = true ∧ id ∈ s.kept ∧ finals (s.tr id) = [] := by
  have hc : s.tr id ≠ [] ∧ owed (s.tr id) = true := by
    by_cases hc : s.tr id ≠ [] ∧ owed (s.tr id) = true
    · exact hc
    · rw [h.again, if_neg hc] at hr; exact absurd rfl hr
  have hn : id < s.next := by
    rcases Nat.lt_or_ge id s.next with hlt | hge
    · exact hlt
    · exact absurd (h.born.mpr hge) hc.1
  have inv := (h.run.served h.served).1
  have hf : finals (s.tr id) = [] := by
    by_cases hf : finals (s.tr id) = []
    · exact hf
    · have h1 := inv.ended hf
      rcases inv.owe hc.2 with h2 | h2 <;> rw [h2] at h1 <;> cases h1
  refine ⟨hn, hc.1, hc.2, ?_, hf⟩
  have hk := h.keep
  rw [if_pos ⟨hn, by unfold disposed; rw [hf]; rfl⟩] at hk
  exact List.count_pos_iff.mp (by omega)

/-- The invariant: every number is in order, and only a destructor has ended the process, after a
result that is not a success. -/
structure Fine (fl : Flavor) (cfg : Nat → Config) (s : Server) : Prop where
  all : ∀ id, At fl cfg s id
  ended : s.ended = none ∨ (fl = .lua ∧ s.ended = some .destructor)

theorem fine_step {fl : Flavor} {cfg : Nat → Config} {s : Server} (hf : Fine fl cfg s) (hl : s.ended = none) {e : Event}
    (ok : Allowed s e) : Fine fl cfg (step fl cfg s e) := by
  have rest : ∀ id, Rest (s.ag id) := fun id =>
    (hf.all id).run.rest ((hf.all id).run.served (hf.all id).served).2
  cases e with
  | request p =>
    have hx := hf.all s.next
    have htr : s.tr s.next = [] := hx.born.mpr (Nat.le_refl _)
    have hr := reacted fl cfg s.next p .exec { s with next := s.next + 1, kept := s.kept ++ [s.next] } (rest s.next)
    have hfin : finals (s.tr s.next) = [] := by rw [htr]; rfl
    have hd : disposed fl (s.tr s.next) = false := by unfold disposed; rw [hfin]; rfl
    have hcl : s.cleanup.count s.next = 0 := by simpa [hd] using hx.clean
    have hk : s.kept.count s.next = 0 := by rw [hx.keep, hcl, if_neg (by omega)]
    have hself := hr.self hx.run hx.served (Nat.lt_succ_self _) hx.ans
      (by have := hx.again; rw [htr] at this; simpa using this) (fun h => absurd rfl h) hx.clean
      (by simp [hd, hk]) (fun _ => by show owed (s.tr s.next) = true; rw [htr]; rfl) (fun k hk => by cases hk)
    refine ⟨fun id => ?_, .inl (by show (react ..).ended = none; rw [hself.2]; exact hl)⟩
    by_cases hid : id = s.next
    · rw [hid]; exact hself.1
    · refine hr.other hid ?_
      have h := hf.all id
      have hid' : ¬ s.next = id := fun h => hid h.symm
      refine ⟨h.run, h.served, ?_, h.ans, h.again, h.clean, ?_⟩
      · rw [h.born]
        constructor
        · intro hle
          show s.next + 1 ≤ id
          omega
        · intro (hle : s.next + 1 ≤ id)
          omega
      · show (s.kept ++ [s.next]).count id = _
        rw [List.count_append, h.keep]
        have : (id < s.next + 1) ↔ id < s.next := by omega
        simp [hid', this]
  | agent id p e =>
    have hx := hf.all id
    have hr := reacted fl cfg id p e s (rest id)
    obtain ⟨ok1, ok2, ok3⟩ := ok
    have hpos : 0 < s.kept.count id := List.count_pos_iff.mpr ok1
    have hn : id < s.next := by
      rcases Nat.lt_or_ge id s.next with hlt | hge
      · exact hlt
      · have h1 := hx.keep
        have h2 := hx.clean
        have h3 : disposed fl (s.tr id) = false := by rw [hx.born.mpr hge]; rfl
        rw [h3] at h2
        rw [if_neg (by omega)] at h1
        simp at h2
        omega
    have htr : s.tr id ≠ [] := fun h => by have := hx.born.mp h; omega
    have hself := hr.self hx.run hx.served hn hx.ans (by rw [hx.again]; simp [ok2]) (fun _ => htr) hx.clean hx.keep
      (fun h => absurd h ok2) ok3
    refine ⟨fun j => ?_, .inl (by show (react ..).ended = none; rw [hself.2]; exact hl)⟩
    by_cases hid : j = id
    · rw [hid]; exact hself.1
    · exact hr.other hid (hf.all j)
  | pop =>
    simp only [step]
    cases hr : s.retrying with
    | some j => exact hf
    | none =>
      cases hs : smallest s.retry with
      | none => exact hf
      | some id =>
        dsimp only
        have hm := (smallest_mem hs).1
        have hpos : 0 < s.retry.count id := List.count_pos_iff.mpr hm
        have hth := (hf.all id).there (by omega)
        rw [if_pos hth.2.2.2.1]
        refine ⟨fun j => ?_, .inl hl⟩
        have h := hf.all j
        refine ⟨h.run, h.served, h.born, h.ans, ?_, h.clean, h.keep⟩
        have ha := h.again
        rw [hr] at ha
        show (s.retry.erase id).count j + (if some id = some j then 1 else 0) = _
        rw [← ha, List.count_erase]
        by_cases hij : id = j
        · subst hij
          simp
          omega
        · have hij' : ¬ j = id := fun h => hij h.symm
          simp [hij]
  | rerun p =>
    simp only [step]
    cases hr : s.retrying with
    | none => exact hf
    | some id =>
      dsimp only
      have hx := hf.all id
      have hth := hx.there (by simp [hr])
      have hre := reacted fl cfg id p .exec { s with retrying := none } (rest id)
      have hag := hx.again
      rw [if_pos hr, if_pos ⟨hth.2.1, hth.2.2.1⟩] at hag
      have hself := hre.self hx.run hx.served hth.1 hx.ans (by simpa using hag) (fun h => absurd rfl h) hx.clean hx.keep
        (fun _ => hth.2.2.1) (fun k hk => by cases hk)
      refine ⟨fun j => ?_, .inl (by rw [hself.2]; exact hl)⟩
      by_cases hid : j = id
      · rw [hid]; exact hself.1
      · refine hre.other hid ?_
        have h := hf.all j
        have hid' : ¬ id = j := fun h => hid h.symm
        refine ⟨h.run, h.served, h.born, h.ans, ?_, h.clean, h.keep⟩
        have ha := h.again
        rw [hr] at ha
        simpa [hid'] using ha
  | clean =>
    simp only [step]
    cases hc : s.cleanup with
    | nil => exact hf
    | cons id rest' =>
      dsimp only
      have hx := hf.all id
      have hcl := hx.clean
      rw [hc, List.count_cons_self] at hcl
      have hd : disposed fl (s.tr id) = true := by
        cases hd : disposed fl (s.tr id) with
        | true => rfl
        | false => rw [hd] at hcl; simp at hcl
      rw [hd] at hcl
      have h0 : rest'.count id = 0 := by simpa using hcl
      refine ⟨fun j => ?_, ?_⟩
      · have h := hf.all j
        by_cases hij : j = id
        · subst hij
          refine ⟨h.run, h.served, h.born, h.ans, h.again, ?_, ?_⟩
          · show rest'.count j ≤ _; omega
          · show (s.kept.erase j).count j = _
            have hk := h.keep
            rw [hd, hc, List.count_cons_self, h0] at hk
            rw [List.count_erase_self, hk, hd, h0]
            simp
        · have hij' : ¬ id = j := fun h => hij h.symm
          have hcj : rest'.count j = s.cleanup.count j := by rw [hc]; simp [List.count_cons, hij']
          refine ⟨h.run, h.served, h.born, h.ans, h.again, ?_, ?_⟩
          · show rest'.count j ≤ _; rw [hcj]; exact h.clean
          · show (s.kept.erase id).count j = if _ then 1 else rest'.count j
            rw [hcj, List.count_erase_of_ne hij]
            exact h.keep
      · show (if _ then _ else _) = none ∨ _
        cases fl with
        | lua =>
          split
          · exact .inr ⟨rfl, rfl⟩
          · exact .inl hl
        | evm =>
          refine .inl ?_
          rw [if_neg, hl]
          unfold disposed at hd
          rw [List.any_eq_true] at hd
          obtain ⟨r, hr, hr2⟩ := hd
          cases r with
          | error x => cases hr2
          | ok u =>
            have := hx.run.done hx.served hr
            simp [destroyFatal, this]

theorem fine {fl : Flavor} {cfg : Nat → Config} {s : Server} (r : Reach fl cfg s) : Fine fl cfg s := by
  induction r with
  | start =>
    refine ⟨fun id => ⟨.start, trivial, by simp, rfl, rfl, by simp, by simp⟩, .inl rfl⟩
  | step r alive e ok ih => exact fine_step ih alive ok

end Verif.Parsec.Serving
