import Verif.Threads.Inv
/-!
# C111: the thread pool
-/
namespace Verif.Threads

/-! ### Specification -/

/-- The states the pool can be in. -/
def Reachable (s : State) : Prop := ∃ es, run init es = some s

/-- The destructor has not been called, and the process runs. -/
def Open (s : State) : Prop :=
  s.dead = false ∧ s.gone = false ∧ ∀ h, s.lock = some h → h.job.isSome

/-- The function waits in the queue of a thread. -/
def Queued (s : State) (j : Nat) : Prop := ∃ w ∈ s.workers, j ∈ w.queue

/-- Nothing is left to be done: no call of `push` is under way, no function waits and none runs. -/
def Idle (s : State) : Prop :=
  s.waiting = [] ∧ s.lock = none ∧ (∀ j, ¬ Queued s j) ∧ ∀ w ∈ s.workers, ∀ j, w.place ≠ .inside j

/-- Steps of the pool itself: the calls of `push` under way go on and the threads take what they
have been given, but no function returns. -/
def Event.isOwn : Event → Bool
  | .acquire _ => true
  | .hold => true
  | .take _ => true
  | _ => false

/-- Steps that end the pool: those of the destructor and of its threads; functions return. -/
def Event.isEnding : Event → Bool
  | .hold => true
  | .ret _ => true
  | .take _ => true
  | .free _ => true
  | _ => false

/-- The functions that were given to the pool and of which the thread is not yet free for
another one. -/
def unfinished (s : State) : Nat :=
  s.pushed - s.returned.length - s.dropped.length +
    s.workers.countP (fun w => w.place == .after)

/-- The greatest number of unfinished functions at one time. -/
def most : State → List Event → Nat
  | s, [] => unfinished s
  | s, e :: es => max (unfinished s) (match step s e with
    | some s' => most s' es
    | none => 0)

/-! ### Lemmas -/

theorem Reachable.inv {s : State} (h : Reachable s) : Inv s := by
  obtain ⟨es, h⟩ := h; exact inv_run inv_init h

theorem run_append {s s' : State} {es es' : List Event} (h : run s es = some s') :
    run s (es ++ es') = run s' es' := by
  induction es generalizing s with
  | nil => simp [run] at h; subst h; rfl
  | cons e es ih =>
    simp only [run, Option.bind_eq_some_iff] at h
    obtain ⟨s₁, h1, h2⟩ := h
    simp only [List.cons_append, run, h1, Option.bind_some]
    exact ih h2

theorem queued_iff {s : State} {j : Nat} : Queued s j ↔ j ∈ s.workers.flatMap (·.queue) := by
  simp [Queued, List.mem_flatMap]

/-- A step is possible only in a pool and a process that are there. -/
theorem step_live {s s' : State} {e : Event} (h : step s e = some s') :
    s.dead = false ∧ s.gone = false := by
  unfold step at h; split at h
  · cases h
  · next x => simpa using x

/-- Nothing is thrown away before the destructor clears the first queue. -/
theorem kept_step {s s' : State} {e : Event} (hs : Inv s)
    (hk : closedTo s = 0 → s.dropped = []) (h : step s e = some s') :
    closedTo s' = 0 → s'.dropped = [] := by
  intro h0
  have hlive := step_live h
  have hgone := hlive.2
  unfold step at h
  rw [if_neg (by simp [hlive.1, hlive.2])] at h
  cases e with
  | hold =>
    simp only at h
    split at h
    case h_2 => cases h
    next hd hl =>
    have hlock := hs.lock hd hl
    unfold hold at h
    obtain ⟨who, job, stage⟩ := hd
    cases stage with
    | look i =>
      have : s.dropped = [] := hk (by simp [closedTo, hgone, hl])
      simp only at h
      split at h
      · injection h with h; subst h; exact this
      · split at h <;> (injection h with h; subst h; exact this)
    | mark i =>
      injection h with h; subst h; exact hk (by simp [closedTo, hgone, hl])
    | hand i =>
      injection h with h; subst h; exact hk (by simp [closedTo, hgone, hl])
    | clear i =>
      simp only [LockOk] at hlock
      simp only at h
      split at h
      · next hn =>
        have := List.getElem?_eq_none_iff.mp hn
        injection h with h; subst h
        simp [closedTo] at h0
        exact hk (by simp [closedTo, hgone, hl]; simp [h0] at hlock; exact hlock.2)
      · injection h with h; subst h
        simp [closedTo, hgone] at h0
    | join i =>
      simp only at h
      split at h
      · injection h with h; subst h
        exact hk h0
      · split at h
        case h_2 => cases h
        split at h
        case isFalse => cases h
        injection h with h; subst h
        simp [closedTo, hgone] at h0
  | call c =>
    simp only at h; split at h
    · injection h with h; subst h; exact hk h0
    · cases h
  | acquire c =>
    simp only at h
    split at h
    · next hl _ => injection h with h; subst h; exact hk (by simp [closedTo, hgone, hl])
    · cases h
  | destroy c =>
    simp only at h; split at h
    · next hc =>
      simp only [Bool.and_eq_true, Option.isNone_iff_eq_none] at hc
      injection h with h; subst h; exact hk (by simp [closedTo, hgone, hc.2])
    · cases h
  | take i =>
    simp only [take] at h
    split at h
    case h_2 => cases h
    split at h
    case isFalse => cases h
    split at h
    · injection h with h; subst h; exact hk (by simpa [closedTo, hgone] using h0)
    · split at h
      · injection h with h; subst h; exact hk (by simpa [closedTo, hgone] using h0)
      · cases h
  | ret i =>
    simp only at h
    split at h
    case h_2 => cases h
    split at h
    case h_2 => cases h
    split at h
    · injection h with h; subst h; exact hk (by simpa [closedTo, hgone] using h0)
    · cases h
  | throws i =>
    simp only at h; split at h
    · injection h with h; subst h; exact hk h0
    · cases h
  | free i =>
    simp only at h
    split at h
    case h_2 => cases h
    split at h
    · injection h with h; subst h; exact hk (by simpa [closedTo, hgone] using h0)
    · cases h

theorem kept_run {s s' : State} {es : List Event} (hs : Inv s)
    (hk : closedTo s = 0 → s.dropped = []) (h : run s es = some s') :
    closedTo s' = 0 → s'.dropped = [] := by
  induction es generalizing s with
  | nil => simp [run] at h; subst h; exact hk
  | cons e es ih =>
    simp only [run, Option.bind_eq_some_iff] at h
    obtain ⟨s₁, h1, h2⟩ := h
    exact ih (inv_step hs h1) (kept_step hs hk h1) h2

theorem Open.closedTo {s : State} (hs : Inv s) (ho : Open s) : closedTo s = 0 := by
  unfold Threads.closedTo
  rw [if_neg (by simp [ho.2.1])]
  split
  · next hl => have h1 := ho.2.2 _ hl; have h2 := (hs.lock _ hl).1; simp_all
  · next hl => have h1 := ho.2.2 _ hl; have h2 := (hs.lock _ hl).1; simp_all
  · rfl

theorem Reachable.kept {s : State} (h : Reachable s) (ho : Open s) : s.dropped = [] := by
  have hi := h.inv
  obtain ⟨es, h⟩ := h
  exact kept_run inv_init (fun _ => rfl) h (ho.closedTo hi)

/-! #### A function that waits in a queue can be taken -/

theorem take_queued {s : State} (hs : Inv s) (ho : Open s) {i j : Nat} {w : Worker}
    (hw : s.workers[i]? = some w) (hj : j ∈ w.queue) :
    ∃ s', step s (.take i) = some s' ∧ s'.begun = j :: s.begun := by
  have hok := hs.worker i w hw
  have hq : w.queue ≠ [] := List.ne_nil_of_mem hj
  have hp := hok.popping hq
  have h1 := hok.one
  obtain ⟨x, q, hxq⟩ := List.exists_cons_of_ne_nil hq
  have : q = [] := by rw [hxq] at h1; simpa using h1
  subst this
  have : x = j := by rw [hxq] at hj; simp at hj; exact hj.symm
  subst this
  have e : step s (.take i) = take s i := by
    unfold step; rw [if_neg (by simp [ho.1, ho.2.1])]
  rw [e]
  simp only [take, hw, hp, hxq, if_true]
  exact ⟨_, rfl, rfl⟩

/-! #### A call of `push` that has the mutex goes on -/

/-- How many steps a call of `push` still has to make with the mutex. -/
def rank (s : State) : Nat :=
  match s.lock with
  | some ⟨_, _, .look i⟩ => s.workers.length - i + 3
  | some ⟨_, _, .mark _⟩ => 2
  | some ⟨_, _, .hand _⟩ => 1
  | _ => 0

/-- One step with the mutex: either it is the last one, or there are fewer left. -/
theorem hold_push {s : State} (hs : Inv s) (hl : s.dead = false ∧ s.gone = false) {h : Holder}
    {j : Nat} (hh : s.lock = some h) (hj : h.job = some j) :
    ∃ s', step s .hold = some s' ∧ s'.waiting = s.waiting ∧ s'.pushed = s.pushed ∧
      s'.dead = false ∧ s'.gone = false ∧
      ((s'.lock = none ∧ Queued s' j) ∨
        (∃ h', s'.lock = some h' ∧ h'.job = some j ∧ rank s' < rank s)) := by
  have hlk := hs.lock h hh
  have e : step s .hold = hold s h := by
    unfold step; rw [if_neg (by simp [hl.1, hl.2])]; simp only [hh]
  rw [e]
  obtain ⟨who, job, stage⟩ := h
  simp only at hj; subst hj
  cases stage with
  | look i =>
    simp only [hold]
    cases hw : s.workers[i]? with
    | none =>
      refine ⟨_, rfl, rfl, rfl, hl.1, hl.2, Or.inr ⟨_, rfl, rfl, ?_⟩⟩
      simp [rank, hh]
    | some w =>
      have hlt := (List.getElem?_eq_some_iff.mp hw).1
      by_cases hr : w.running
      · simp only [hr, if_true]
        refine ⟨_, rfl, rfl, rfl, hl.1, hl.2, Or.inr ⟨_, rfl, rfl, ?_⟩⟩
        simp [rank, hh]; omega
      · simp only [hr]
        refine ⟨_, rfl, rfl, rfl, hl.1, hl.2, Or.inr ⟨_, rfl, rfl, ?_⟩⟩
        simp [rank, hh]
  | mark i =>
    refine ⟨_, rfl, rfl, rfl, hl.1, hl.2, Or.inr ⟨_, rfl, rfl, ?_⟩⟩
    simp [rank, hh]
  | hand i =>
    obtain ⟨_, w, hw, _, _, _⟩ := hlk
    refine ⟨_, rfl, rfl, rfl, hl.1, hl.2, Or.inl ⟨rfl, ?_⟩⟩
    refine ⟨{ w with queue := w.queue ++ [j], wake := true }, ?_, by simp⟩
    refine List.mem_of_getElem? (i := i) ?_
    simp only [Option.toList]
    rw [modify_get hw]; simp
  | clear i => simp [LockOk] at hlk
  | join i => simp [LockOk] at hlk

/-- A call of `push` that has the mutex can be completed. -/
theorem push_completes {s : State} (hs : Inv s) (hl : s.dead = false ∧ s.gone = false) {h : Holder}
    {j : Nat} (hh : s.lock = some h) (hj : h.job = some j) :
    ∃ es s', (∀ e ∈ es, e = Event.hold) ∧ run s es = some s' ∧ s'.lock = none ∧ Queued s' j ∧
      s'.waiting = s.waiting ∧ s'.pushed = s.pushed ∧ s'.dead = false ∧ s'.gone = false := by
  induction hn : rank s using Nat.strongRecOn generalizing s h with
  | _ n ih =>
    obtain ⟨s₁, h1, hw, hp, hd, hg, hor⟩ := hold_push hs hl hh hj
    rcases hor with ⟨hno, hq⟩ | ⟨h', hl', hj', hr⟩
    · exact ⟨[.hold], s₁, by simp, by simp [run, h1], hno, hq, hw, hp, hd, hg⟩
    · obtain ⟨es, s', he, hrun, a, b, c, d, e', f⟩ :=
        ih (rank s₁) (by omega) (inv_step hs h1) ⟨hd, hg⟩ hl' hj' rfl
      exact ⟨.hold :: es, s', by simpa using he, by simp [run, h1, hrun], a, b, c.trans hw,
        d.trans hp, e', f⟩

theorem starts_queued {s : State} (hs : Inv s) (ho : Open s) {j : Nat} (hq : Queued s j) :
    ∃ es s', (∀ e ∈ es, Event.isOwn e = true) ∧ run s es = some s' ∧ j ∈ s'.begun := by
  obtain ⟨w, hw, hj⟩ := hq
  obtain ⟨i, hi⟩ := List.getElem?_of_mem hw
  obtain ⟨s', h1, h2⟩ := take_queued hs ho hi hj
  exact ⟨[.take i], s', by simp [Event.isOwn], by simp [run, h1], by simp [h2]⟩

theorem starts_held {s : State} (hs : Inv s) (hl : s.dead = false ∧ s.gone = false) {h : Holder}
    {j : Nat} (hh : s.lock = some h) (hj : h.job = some j) :
    ∃ es s', (∀ e ∈ es, Event.isOwn e = true) ∧ run s es = some s' ∧ j ∈ s'.begun := by
  obtain ⟨es, s₁, he, hr, hn, hq, _, _, hd, hg⟩ := push_completes hs hl hh hj
  obtain ⟨es', s', he', hr', hb⟩ :=
    starts_queued (inv_run hs hr) ⟨hd, hg, fun h hh => by rw [hn] at hh; cases hh⟩ hq
  refine ⟨es ++ es', s', ?_, by rw [run_append hr]; exact hr', hb⟩
  intro e hm
  rcases List.mem_append.mp hm with hm | hm
  · rw [he e hm]; rfl
  · exact he' e hm

theorem find_waiting {l : List (Caller × Nat)} {c : Caller} {j : Nat}
    (hn : (l.map (·.1)).Nodup) (h : (c, j) ∈ l) : l.find? (·.1 == c) = some (c, j) := by
  induction l with
  | nil => cases h
  | cons x xs ih =>
    simp only [List.map_cons, List.nodup_cons] at hn
    by_cases e : x.1 = c
    · rcases List.mem_cons.mp h with h | h
      · subst h; simp
      · exact absurd (List.mem_map.mpr ⟨(c, j), h, e.symm⟩) hn.1
    · rcases List.mem_cons.mp h with h | h
      · subst h; exact absurd rfl e
      · simp [e, ih hn.2 h]

theorem starts_waiting {s : State} (hs : Inv s) (hl : s.dead = false ∧ s.gone = false)
    (hh : s.lock = none) {j : Nat} (hj : j ∈ s.waiting.map (·.2)) :
    ∃ es s', (∀ e ∈ es, Event.isOwn e = true) ∧ run s es = some s' ∧ j ∈ s'.begun := by
  obtain ⟨⟨c, j'⟩, hm, rfl⟩ := List.mem_map.mp hj
  have hf := find_waiting hs.callers hm
  obtain ⟨s₁, h1, h2, h3⟩ : ∃ s₁, step s (.acquire c) = some s₁ ∧
      (s₁.dead = false ∧ s₁.gone = false) ∧ s₁.lock = some ⟨c, some j', .look 0⟩ := by
    have : step s (.acquire c) = some { s with
          lock := some ⟨c, some j', .look 0⟩
          waiting := s.waiting.filter (·.1 != c) } := by
      unfold step; rw [if_neg (by simp [hl.1, hl.2])]; simp only [hh, hf]
    exact ⟨_, this, hl, rfl⟩
  obtain ⟨es, s', he, hr, hb⟩ := starts_held (inv_step hs h1) h2 h3 rfl
  exact ⟨.acquire c :: es, s', by simpa [Event.isOwn] using he, by simp [run, h1, hr], hb⟩

/-! #### Where a function is -/

/-- The call of `push` for the function is over. -/
def Placed (s : State) (j : Nat) : Prop :=
  j < s.pushed ∧ j ∉ s.waiting.map (·.2) ∧ j ∉ lockJob s

theorem placed_iff {s : State} (hs : Inv s) {j : Nat} :
    Placed s j ↔ Queued s j ∨ j ∈ s.begun ∨ j ∈ s.dropped := by
  have hm : j < s.pushed ↔ j ∈ s.waiting.map (·.2) ++ lockJob s ++
      s.workers.flatMap (·.queue) ++ s.begun ++ s.dropped := by
    rw [← hs.jobs.mem_iff]; simp
  have hn := (hs.jobs.nodup_iff).mp List.nodup_range
  rw [queued_iff]
  simp only [List.append_assoc] at hm hn
  simp only [List.mem_append] at hm
  rw [List.nodup_append] at hn
  obtain ⟨_, hn2, hd1⟩ := hn
  rw [List.nodup_append] at hn2
  obtain ⟨_, _, hd2⟩ := hn2
  constructor
  · rintro ⟨a, b, c⟩
    rcases hm.mp a with h | h | h
    · exact absurd h b
    · exact absurd h c
    · exact h
  · intro h
    refine ⟨hm.mpr (Or.inr (Or.inr h)), ?_, ?_⟩
    · intro h'
      exact hd1 j h' j (by simp only [List.mem_append]; exact Or.inr h) rfl
    · intro h'
      exact hd2 j h' j (by simp only [List.mem_append]; exact h) rfl

theorem placed_step {s s' : State} {e : Event} {j : Nat} (hp : Placed s j)
    (h : step s e = some s') : Placed s' j := by
  obtain ⟨h1, h2, h3⟩ := hp
  have hlive := step_live h
  unfold step at h
  rw [if_neg (by simp [hlive.1, hlive.2])] at h
  cases e with
  | hold =>
    simp only at h
    split at h
    case h_2 => cases h
    next hd hl =>
    have h3' : j ∉ hd.job.toList := by simpa [lockJob, hl] using h3
    unfold hold at h
    obtain ⟨who, job, stage⟩ := hd
    cases stage <;> simp only at h
    · split at h
      · injection h with h; subst h; exact ⟨h1, h2, h3'⟩
      · split at h <;> (injection h with h; subst h; exact ⟨h1, h2, h3'⟩)
    · injection h with h; subst h; exact ⟨h1, h2, h3'⟩
    · injection h with h; subst h; exact ⟨h1, h2, by simp [lockJob]⟩
    · split at h
      · injection h with h; subst h; exact ⟨h1, h2, by simp [lockJob]⟩
      · injection h with h; subst h; exact ⟨h1, h2, h3'⟩
    · split at h
      · injection h with h; subst h; exact ⟨h1, h2, h3⟩
      · split at h
        · split at h
          · injection h with h; subst h; exact ⟨h1, h2, h3'⟩
          · cases h
        · cases h
  | call c =>
    simp only at h; split at h
    · injection h with h; subst h
      refine ⟨Nat.lt_succ_of_lt h1, ?_, h3⟩
      simp only [List.map_append, List.map_cons, List.map_nil, List.mem_append,
        List.mem_singleton, not_or]
      exact ⟨h2, Nat.ne_of_lt h1⟩
    · cases h
  | acquire c =>
    simp only at h
    split at h
    · next p j' hl hf =>
      injection h with h; subst h
      refine ⟨h1, ?_, ?_⟩
      · intro hm
        obtain ⟨q, hq, rfl⟩ := List.mem_map.mp hm
        exact h2 (List.mem_map.mpr ⟨q, (List.mem_filter.mp hq).1, rfl⟩)
      · intro hm
        simp [lockJob] at hm
        subst hm
        exact h2 (List.mem_map.mpr ⟨_, List.mem_of_find?_eq_some hf, rfl⟩)
    · cases h
  | destroy c =>
    simp only at h; split at h
    · injection h with h; subst h; exact ⟨h1, h2, by simp [lockJob]⟩
    · cases h
  | take i =>
    simp only [take] at h
    split at h
    case h_2 => cases h
    split at h
    case isFalse => cases h
    split at h
    · injection h with h; subst h; exact ⟨h1, h2, h3⟩
    · split at h
      · injection h with h; subst h; exact ⟨h1, h2, h3⟩
      · cases h
  | ret i =>
    simp only at h
    split at h
    case h_2 => cases h
    split at h
    case h_2 => cases h
    split at h
    · injection h with h; subst h; exact ⟨h1, h2, h3⟩
    · cases h
  | throws i =>
    simp only at h; split at h
    · injection h with h; subst h; exact ⟨h1, h2, h3⟩
    · cases h
  | free i =>
    simp only at h
    split at h
    case h_2 => cases h
    split at h
    · injection h with h; subst h; exact ⟨h1, h2, h3⟩
    · cases h

theorem placed_run {s s' : State} {es : List Event} {j : Nat} (hp : Placed s j)
    (h : run s es = some s') : Placed s' j := by
  induction es generalizing s with
  | nil => simp [run] at h; subst h; exact hp
  | cons e es ih =>
    simp only [run, Option.bind_eq_some_iff] at h
    obtain ⟨s₁, h1, h2⟩ := h
    exact ih (placed_step hp h1) h2

/-- While the mutex is held, nobody but the holder changes who holds it and how many threads there
are. -/
theorem step_other {s s' : State} {e : Event} (h : step s e = some s') (he : e ≠ .hold)
    {hd : Holder} (hl : s.lock = some hd) :
    s'.lock = some hd ∧ s'.workers.length = s.workers.length := by
  have hlive := step_live h
  unfold step at h
  rw [if_neg (by simp [hlive.1, hlive.2])] at h
  cases e with
  | hold => exact absurd rfl he
  | call c =>
    simp only at h; split at h
    · injection h with h; subst h; exact ⟨hl, rfl⟩
    · cases h
  | acquire c => simp [hl] at h
  | destroy c => simp [hl] at h
  | take i =>
    simp only [take] at h
    split at h
    case h_2 => cases h
    split at h
    case isFalse => cases h
    split at h
    · injection h with h; subst h; exact ⟨hl, by simp⟩
    · split at h
      · injection h with h; subst h; exact ⟨hl, by simp⟩
      · cases h
  | ret i =>
    simp only at h
    split at h
    case h_2 => cases h
    split at h
    case h_2 => cases h
    split at h
    · injection h with h; subst h; exact ⟨hl, by simp⟩
    · cases h
  | throws i =>
    simp only at h; split at h
    · injection h with h; subst h; exact ⟨hl, rfl⟩
    · cases h
  | free i =>
    simp only at h
    split at h
    case h_2 => cases h
    split at h
    · injection h with h; subst h; exact ⟨hl, by simp⟩
    · cases h

theorem push_placed {s s' : State} {es : List Event} (hs : Inv s) {h : Holder} {j : Nat}
    (hh : s.lock = some h) (hj : h.job = some j) (hr : run s es = some s')
    (hc : rank s ≤ es.count .hold) : Placed s' j := by
  induction es generalizing s h with
  | nil =>
    have hlk := hs.lock h hh
    exfalso
    obtain ⟨who, job, stage⟩ := h
    cases stage <;> simp_all [rank, LockOk]
  | cons e es ih =>
    simp only [run, Option.bind_eq_some_iff] at hr
    obtain ⟨s₁, h1, h2⟩ := hr
    have hs₁ := inv_step hs h1
    by_cases he : e = .hold
    · subst he
      obtain ⟨s₂, h1', _, _, _, _, hor⟩ := hold_push hs (step_live h1) hh hj
      rw [h1] at h1'; injection h1' with h1'; subst h1'
      rcases hor with ⟨_, hq⟩ | ⟨h', hl', hj', hlt⟩
      · exact placed_run ((placed_iff hs₁).mpr (Or.inl hq)) h2
      · refine ih hs₁ hl' hj' h2 ?_
        simp at hc; omega
    · obtain ⟨hl', hlen⟩ := step_other h1 he hh
      refine ih hs₁ hl' hj h2 ?_
      have : rank s₁ = rank s := by simp only [rank, hl', hh, hlen]
      rw [this]
      rw [List.count_cons] at hc
      simpa [he] using hc

/-! #### How many threads there are -/

/-- How many threads from number `i` on have their flag set. -/
def flags (ws : List Worker) (i : Nat) : Nat := (ws.drop i).countP (·.running)

theorem flags_modify (ws : List Worker) (i k : Nat) (f : Worker → Worker)
    (hf : ∀ w, (f w).running = true → w.running = true) :
    flags (ws.modify k f) i ≤ flags ws i := by
  unfold flags
  induction ws generalizing i k with
  | nil => simp
  | cons x xs ih =>
    cases i with
    | zero =>
      cases k with
      | zero =>
        simp only [List.modify_zero_cons, List.drop_zero, List.countP_cons]
        have := hf x
        by_cases h : (f x).running = true
        · simp [h, this h]
        · simp [h]
      | succ k =>
        have := ih 0 k
        simp only [List.drop_zero] at this
        simp only [List.modify_succ_cons, List.drop_zero, List.countP_cons]
        omega
    | succ i =>
      cases k with
      | zero => simp
      | succ k => simpa using ih i k

theorem flags_unfinished {ws : List Worker}
    (h : ∀ w ∈ ws, w.running = true → w.queue ≠ [] ∨ (∃ j, w.place = .inside j) ∨ w.place = .after) :
    flags ws 0 ≤ (ws.flatMap (·.queue)).length + (ws.flatMap insideJob).length +
      ws.countP (fun w => w.place == .after) := by
  unfold flags
  rw [List.drop_zero]
  induction ws with
  | nil => simp
  | cons x xs ih =>
    have := ih (fun w hw => h w (List.mem_cons_of_mem _ hw))
    simp only [List.countP_cons, List.flatMap_cons, List.length_append]
    by_cases hr : x.running = true
    · have hx := h x List.mem_cons_self hr
      have : 1 ≤ x.queue.length + (insideJob x).length + (if (x.place == .after) = true then 1 else 0) := by
        rcases hx with hx | ⟨j, hx⟩ | hx
        · have := List.length_pos_iff.mpr hx; omega
        · simp [insideJob, hx]
        · simp [hx]
      simp only [hr, if_true]; omega
    · rw [if_neg hr]; omega

/-- There are at most `m` threads, also if the call of `push` that has the mutex makes one. -/
def Bounded (m : Nat) (s : State) : Prop :=
  s.workers.length ≤ m ∧
    ∀ h i, s.lock = some h → h.stage = .look i → i + 1 + flags s.workers i ≤ m

theorem unfinished_acquire {s : State} (hs : Inv s) (hg : s.gone = false) {c : Caller} {j : Nat}
    (hl : s.lock = some ⟨c, some j, .look 0⟩) : 1 + flags s.workers 0 ≤ unfinished s := by
  have h1 := flags_unfinished (ws := s.workers) (by
    intro w hw hr
    obtain ⟨i, hi⟩ := List.getElem?_of_mem hw
    have hok := hs.worker i w hi
    simp only [closedTo, joinedTo, handing, hg, hl] at hok
    by_cases hq : w.queue = []
    · cases hp : w.place with
      | popping => have := hok.unassigned hr hq hp; simp at this
      | inside j => exact Or.inr (Or.inl ⟨j, rfl⟩)
      | after => exact Or.inr (Or.inr rfl)
      | ended => exact absurd hp (hok.fresh (by simp)).1
    · exact Or.inl hq)
  have h2 := hs.jobs.length_eq
  have h3 := hs.done.length_eq
  simp only [List.length_range, List.length_append, lockJob, hl, Option.toList,
    List.length_cons, List.length_nil] at h2 h3
  unfold unfinished
  omega

theorem bounded_step {m : Nat} {s s' : State} {e : Event} (hs : Inv s) (hb : Bounded m s)
    (h : step s e = some s') : Bounded (max m (unfinished s')) s' := by
  have hlive := step_live h
  have hs' := inv_step hs h
  obtain ⟨b1, b2⟩ := hb
  have weaken : ∀ {t : State}, t.workers.length = s.workers.length → t.lock = s.lock →
      (∀ i, flags t.workers i ≤ flags s.workers i) → Bounded (max m (unfinished t)) t := by
    intro t e1 e2 e3
    refine ⟨by omega, ?_⟩
    intro h i hl hst
    rw [e2] at hl
    have := b2 h i hl hst
    have := e3 i
    omega
  by_cases he : e = .hold
  · subst he
    have h0 := h
    unfold step at h
    rw [if_neg (by simp [hlive.1, hlive.2])] at h
    simp only at h
    split at h
    case h_2 => cases h
    next hd hl =>
    have hlk := hs.lock hd hl
    unfold hold at h
    obtain ⟨who, job, stage⟩ := hd
    cases stage with
    | look i =>
      have hb2 := b2 _ i hl rfl
      simp only [LockOk] at hlk
      simp only at h
      split at h
      · next hn =>
        have := List.getElem?_eq_none_iff.mp hn
        injection h with h; subst h
        refine ⟨?_, ?_⟩
        · simp only [List.length_append, List.length_cons, List.length_nil]; omega
        · intro h' k hk hst; injection hk with hk; subst hk; cases hst
      · next w hw =>
        obtain ⟨hlt, hget⟩ := List.getElem?_eq_some_iff.mp hw
        split at h
        · next hr =>
          injection h with h; subst h
          refine ⟨by simp only; omega, ?_⟩
          intro h' k hk hst
          injection hk with hk; subst hk; cases hst
          have : flags s.workers i = flags s.workers (i + 1) + 1 := by
            unfold flags
            rw [List.drop_eq_getElem_cons hlt, List.countP_cons]
            simp [hget, hr]
          simp only; omega
        · injection h with h; subst h
          refine ⟨by simp only; omega, ?_⟩
          intro h' k hk hst; injection hk with hk; subst hk; cases hst
    | mark i =>
      injection h with h; subst h
      refine ⟨by simp only [List.length_modify]; omega, ?_⟩
      intro h' k hk hst; injection hk with hk; subst hk; cases hst
    | hand i =>
      injection h with h; subst h
      refine ⟨by simp only [List.length_modify]; omega, ?_⟩
      intro h' k hk hst; cases hk
    | clear i =>
      simp only at h
      split at h
      · injection h with h; subst h
        refine ⟨by simp only; omega, ?_⟩
        intro h' k hk hst; cases hk
      · injection h with h; subst h
        refine ⟨by simp only [List.length_modify]; omega, ?_⟩
        intro h' k hk hst; injection hk with hk; subst hk; cases hst
    | join i =>
      simp only at h
      split at h
      · injection h with h; subst h
        exact weaken rfl rfl (fun _ => Nat.le_refl _)
      · split at h
        case h_2 => cases h
        split at h
        case isFalse => cases h
        injection h with h; subst h
        refine ⟨by simp only; omega, ?_⟩
        intro h' k hk hst; injection hk with hk; subst hk; cases hst
  · unfold step at h
    rw [if_neg (by simp [hlive.1, hlive.2])] at h
    cases e with
    | hold => exact absurd rfl he
    | call c =>
      simp only at h; split at h
      · injection h with h; subst h; exact weaken rfl rfl (fun _ => Nat.le_refl _)
      · cases h
    | acquire c =>
      simp only at h
      split at h
      · next p j hl hf =>
        injection h with h; subst h
        have := unfinished_acquire hs' hlive.2 (c := c) (j := j) rfl
        refine ⟨by simp only; omega, ?_⟩
        intro h' k hk hst
        injection hk with hk; subst hk; cases hst
        simp only at this ⊢
        omega
      · cases h
    | destroy c =>
      simp only at h; split at h
      · injection h with h; subst h
        refine ⟨by simp only; omega, ?_⟩
        intro h' k hk hst; injection hk with hk; subst hk; cases hst
      · cases h
    | take i =>
      simp only [take] at h
      split at h
      case h_2 => cases h
      split at h
      case isFalse => cases h
      split at h
      · injection h with h; subst h
        exact weaken (by simp) rfl (fun k => flags_modify _ _ _ _ (fun _ h => h))
      · split at h
        · injection h with h; subst h
          exact weaken (by simp) rfl (fun k => flags_modify _ _ _ _ (fun _ h => h))
        · cases h
    | ret i =>
      simp only at h
      split at h
      case h_2 => cases h
      split at h
      case h_2 => cases h
      split at h
      · injection h with h; subst h
        exact weaken (by simp) rfl (fun k => flags_modify _ _ _ _ (fun _ h => h))
      · cases h
    | throws i =>
      simp only at h; split at h
      · injection h with h; subst h; exact weaken rfl rfl (fun _ => Nat.le_refl _)
      · cases h
    | free i =>
      simp only at h
      split at h
      case h_2 => cases h
      split at h
      · injection h with h; subst h
        exact weaken (by simp) rfl (fun k => flags_modify _ _ _ _ (fun _ h => by cases h))
      · cases h

theorem unfinished_le_most (s : State) (es : List Event) : unfinished s ≤ most s es := by
  cases es <;> simp only [most] <;> omega

theorem bounded_run {m : Nat} {s s' : State} {es : List Event} (hs : Inv s) (hb : Bounded m s)
    (h : run s es = some s') : s'.workers.length ≤ max m (most s es) := by
  induction es generalizing s m with
  | nil => simp [run] at h; subst h; have := hb.1; omega
  | cons e es ih =>
    simp only [run, Option.bind_eq_some_iff] at h
    obtain ⟨s₁, h1, h2⟩ := h
    have := ih (inv_step hs h1) (bounded_step hs hb h1) h2
    have := unfinished_le_most s₁ es
    simp only [most, h1]
    omega

/-! #### The end of the pool -/

/-- No function waits in a call of `push`. -/
def Quiet (s : State) : Prop := ∀ i, s.isWaiting (.worker i) = false

theorem take_ends {s : State} (hl : s.dead = false ∧ s.gone = false) {k : Nat}
    {w : Worker} (hw : s.workers[k]? = some w) (hq : w.queue = []) (hk : w.wake = true)
    (hp : w.place = .popping) :
    ∃ s', step s (.take k) = some s' ∧ s'.lock = s.lock ∧ s'.waiting = s.waiting ∧
      s'.workers.length = s.workers.length ∧ (s'.dead = false ∧ s'.gone = false) ∧
      s'.workers[k]?.map (·.place) = some .ended := by
  have e : step s (.take k) =
      some { s with workers := s.workers.modify k (fun w => { w with place := .ended }) } := by
    unfold step; rw [if_neg (by simp [hl.1, hl.2])]
    simp only [take, hw, hp, hq, hk, if_true]
  refine ⟨_, e, rfl, rfl, by simp, hl, ?_⟩
  simp [modify_get hw]

theorem free_ends {s : State} (hl : s.dead = false ∧ s.gone = false) {k : Nat}
    {w : Worker} (hw : s.workers[k]? = some w) (hq : w.queue = []) (hk : w.wake = true)
    (hp : w.place = .after) :
    ∃ s', run s [.free k, .take k] = some s' ∧ s'.lock = s.lock ∧ s'.waiting = s.waiting ∧
      s'.workers.length = s.workers.length ∧ (s'.dead = false ∧ s'.gone = false) ∧
      s'.workers[k]?.map (·.place) = some .ended := by
  have e : step s (.free k) = some { s with
      workers := s.workers.modify k
        (fun w => { w with running := false, place := .popping }) } := by
    unfold step; rw [if_neg (by simp [hl.1, hl.2])]
    simp only [hw, hp, if_true]
  obtain ⟨s', h1, h2, h3, h4, h5⟩ := take_ends (k := k)
    (s := { s with
      workers := s.workers.modify k
        (fun w => { w with running := false, place := .popping }) })
    (w := { w with running := false, place := .popping })
    hl (by simp [modify_get hw]) hq hk rfl
  exact ⟨s', by simp [run, e, h1], h2, h3, by simpa using h4, h5⟩

theorem join_ends {s : State} (hl : s.dead = false ∧ s.gone = false) (hst : Quiet s) {n k : Nat}
    {st : Stage} (hlk : s.lock = some ⟨.outside n, none, st⟩)
    {w : Worker} (hw : s.workers[k]? = some w) (hq : w.queue = []) (hk : w.wake = true) :
    ∃ es s', (∀ e ∈ es, Event.isEnding e = true) ∧ run s es = some s' ∧ s'.lock = s.lock ∧
      s'.waiting = s.waiting ∧ s'.workers.length = s.workers.length ∧
      (s'.dead = false ∧ s'.gone = false) ∧ s'.workers[k]?.map (·.place) = some .ended := by
  cases hp : w.place with
  | popping =>
    obtain ⟨s', h1, h2⟩ := take_ends hl hw hq hk hp
    exact ⟨[.take k], s', by simp [Event.isEnding], by simp [run, h1], h2⟩
  | ended => exact ⟨[], s, by simp, rfl, rfl, rfl, rfl, hl, by simp [hw, hp]⟩
  | after =>
    obtain ⟨s', h1, h2⟩ := free_ends hl hw hq hk hp
    exact ⟨[.free k, .take k], s', by simp [Event.isEnding], h1, h2⟩
  | inside j =>
    have hcan : s.canCall (.worker k) = true := by
      simp [State.canCall, hst k, State.isHolder, hlk, State.isInside, hw, hp]
    have e : step s (.ret k) = some { s with
        workers := s.workers.modify k (fun w => { w with place := .after })
        returned := j :: s.returned } := by
      unfold step; rw [if_neg (by simp [hl.1, hl.2])]
      simp only [hw, hp, hcan, if_true]
    obtain ⟨s', h1, h2, h3, h4, h5⟩ := free_ends (k := k)
      (s := { s with
        workers := s.workers.modify k (fun w => { w with place := .after })
        returned := j :: s.returned })
      (w := { w with place := .after })
      hl (by simp [modify_get hw]) hq hk rfl
    exact ⟨[.ret k, .free k, .take k], s', by simp [Event.isEnding],
      by rw [run, e, Option.bind_some, h1], h2, h3, by simpa using h4, h5⟩

/-- The destructor, called from outside the pool, comes to its end if the functions return. -/
theorem closes {s : State} (hl : s.dead = false ∧ s.gone = false) {n k : Nat}
    (hh : s.lock = some ⟨.outside n, none, .clear k⟩) (hst : Quiet s) :
    ∃ es s', (∀ e ∈ es, Event.isEnding e = true) ∧ run s es = some s' ∧ s'.gone = true := by
  induction hn : s.workers.length - k using Nat.strongRecOn generalizing s k with
  | _ m ih =>
    have ehold : step s .hold = hold s ⟨.outside n, none, .clear k⟩ := by
      unfold step; rw [if_neg (by simp [hl.1, hl.2])]; simp only [hh]
    cases hw : s.workers[k]? with
    | none =>
      simp only [hold, hw] at ehold
      exact ⟨[.hold], _, by simp [Event.isEnding], by simp only [run, ehold, Option.bind_some]; rfl, rfl⟩
    | some w =>
      have hlt := (List.getElem?_eq_some_iff.mp hw).1
      simp only [hold, hw] at ehold
      obtain ⟨es, s₂, he, hr, h2l, h2s, h2n, h2v, h2e⟩ := join_ends (n := n) (k := k)
        (st := .join k)
        (s := { s with
          workers := s.workers.modify k (fun w => { w with queue := [], wake := true })
          dropped := w.queue ++ s.dropped
          lock := some ⟨.outside n, none, .join k⟩ })
        (w := { w with queue := [], wake := true })
        hl hst rfl (by simp [modify_get hw]) rfl rfl
      obtain ⟨w₂, hw₂, hp₂⟩ := Option.map_eq_some_iff.mp h2e
      have ehold₂ : step s₂ .hold =
          some { s₂ with lock := some ⟨.outside n, none, .clear (k + 1)⟩ } := by
        unfold step; rw [if_neg (by simp [h2v.1, h2v.2])]
        simp only at h2l
        simp only [h2l, hold, hw₂, hp₂, if_true]
        simp
      obtain ⟨es', s', he', hr', hg'⟩ := ih (s₂.workers.length - (k + 1))
        (by simp at h2n; omega)
        (s := { s₂ with lock := some ⟨.outside n, none, .clear (k + 1)⟩ }) h2v (k := k + 1) rfl
        (by intro i; simpa [State.isWaiting, h2s] using hst i) rfl
      refine ⟨.hold :: es ++ .hold :: es', s', ?_, ?_, hg'⟩
      · simp only [List.cons_append, List.forall_mem_cons, List.forall_mem_append]
        exact ⟨rfl, he, rfl, he'⟩
      · simp only [List.cons_append, run, ehold, Option.bind_some]
        rw [run_append hr]
        simp only [run, ehold₂, Option.bind_some]
        exact hr'

/-! ### The properties -/

/-- **C111.** A function given to the pool is run at most once, and it returns at most once. -/
theorem C111_once {s : State} (h : Reachable s) :
    s.begun.Nodup ∧ (∀ j ∈ s.begun, j < s.pushed) ∧ s.returned.Nodup ∧
      ∀ j ∈ s.returned, j ∈ s.begun := by
  have hs := h.inv
  have hn := (hs.jobs.nodup_iff).mp List.nodup_range
  rw [List.nodup_append] at hn
  have hb := (List.nodup_append.mp hn.1).2.1
  have hr := (hs.done.nodup_iff).mp hb
  refine ⟨hb, ?_, (List.nodup_append.mp hr).2.1, ?_⟩
  · intro j hj
    have : j ∈ List.range s.pushed := hs.jobs.mem_iff.mpr (by simp [hj])
    simpa using this
  · intro j hj
    exact hs.done.mem_iff.mpr (by simp [hj])

/-- **C111.** As long as the pool is not destroyed, no function is lost: when the pool has nothing
left to do, every function that was given to it has been run and has returned, once. -/
theorem C111_all {s : State} (h : Reachable s) (ho : Open s) (hi : Idle s) :
    s.returned.Perm (List.range s.pushed) := by
  have hs := h.inv
  obtain ⟨i1, i2, i3, i4⟩ := hi
  have h1 := hs.jobs
  have hq : s.workers.flatMap (·.queue) = [] := by
    rw [List.eq_nil_iff_forall_not_mem]
    intro j hj; exact i3 j (queued_iff.mpr hj)
  have hin : s.workers.flatMap insideJob = [] := by
    rw [List.eq_nil_iff_forall_not_mem]
    intro j hj
    obtain ⟨w, hw, hj⟩ := List.mem_flatMap.mp hj
    cases hp : w.place <;> simp [insideJob, hp] at hj
    exact i4 w hw _ hp
  have h2 := hs.done
  simp only [i1, lockJob, i2, hq, h.kept ho, List.map_nil, List.nil_append, List.append_nil] at h1
  simp only [hin, List.nil_append] at h2
  exact (h1.trans h2).symm

/-- **C111.** Every function given to the pool can begin although no other function returns: no
function waits for another one. -/
theorem C111_starts {s : State} (h : Reachable s) (ho : Open s) {j : Nat} (hj : j < s.pushed) :
    ∃ es s', (∀ e ∈ es, Event.isOwn e = true) ∧ run s es = some s' ∧ j ∈ s'.begun := by
  have hs := h.inv
  have hl : s.dead = false ∧ s.gone = false := ⟨ho.1, ho.2.1⟩
  have hm := hs.jobs.mem_iff.mp (List.mem_range.mpr hj)
  simp only [h.kept ho, List.append_nil, List.mem_append] at hm
  rcases hm with ((hm | hm) | hm) | hm
  · cases hlk : s.lock with
    | none => exact starts_waiting hs hl hlk hm
    | some hd =>
      obtain ⟨j', hj'⟩ := Option.isSome_iff_exists.mp (ho.2.2 hd hlk)
      obtain ⟨es, s₁, he, hr, hn, _, hw, _, hd₁, hg₁⟩ := push_completes hs hl hlk hj'
      obtain ⟨es', s', he', hr', hb⟩ :=
        starts_waiting (inv_run hs hr) ⟨hd₁, hg₁⟩ hn (by rw [hw]; exact hm)
      refine ⟨es ++ es', s', ?_, by rw [run_append hr]; exact hr', hb⟩
      intro e hm
      rcases List.mem_append.mp hm with hm | hm
      · rw [he e hm]; rfl
      · exact he' e hm
  · cases hlk : s.lock with
    | none => simp [lockJob, hlk] at hm
    | some hd =>
      refine starts_held hs hl hlk ?_
      simpa [lockJob, hlk] using hm
  · exact starts_queued hs ho (queued_iff.mpr hm)
  · exact ⟨[], s, by simp, rfl, hm⟩

/-- **C111.** A function in the queue of a thread is alone there, and the thread can take it at
once. -/
theorem C111_prompt {s : State} (h : Reachable s) (ho : Open s) {i j : Nat} {w : Worker}
    (hw : s.workers[i]? = some w) (hj : j ∈ w.queue) :
    w.queue = [j] ∧ ∃ s', step s (.take i) = some s' ∧ s'.begun = j :: s.begun := by
  refine ⟨?_, take_queued h.inv ho hw hj⟩
  have h1 := (h.inv.worker i w hw).one
  match hq : w.queue, hj, h1 with
  | [x], hj, _ => simp at hj; rw [hj]
  | [], hj, _ => simp at hj
  | x :: y :: l, _, h1 => simp at h1

/-- **C111.** `push` does not wait for anything once it has the mutex: whatever the other threads
do, it is over after as many steps as there are threads and three more. -/
theorem C111_push {s : State} (h : Reachable s) (hl : s.dead = false ∧ s.gone = false)
    {hd : Holder} {j : Nat} (hh : s.lock = some hd) (hj : hd.job = some j) :
    (∃ s', step s .hold = some s') ∧
      ∀ es s', run s es = some s' → s.workers.length + 3 ≤ es.count .hold →
        Queued s' j ∨ j ∈ s'.begun ∨ j ∈ s'.dropped := by
  have hs := h.inv
  refine ⟨?_, ?_⟩
  · obtain ⟨s', h1, _⟩ := hold_push hs hl hh hj
    exact ⟨s', h1⟩
  · intro es s' hr hc
    refine (placed_iff (inv_run hs hr)).mp (push_placed hs hh hj hr (Nat.le_trans ?_ hc))
    unfold rank
    split <;> omega

/-- **C111.** Threads are used again: there are never more threads than there were unfinished
functions at one time. -/
theorem C111_threads {es : List Event} {s : State} (h : run init es = some s) :
    s.workers.length ≤ most init es := by
  have := bounded_run (m := 0) inv_init ⟨by simp [init], by simp [init]⟩ h
  omega

/-- **C111.** When the destructor returns, no thread of the pool is left and no function is
running: each function was begun and has returned, or was thrown away. -/
theorem C111_closed {s : State} (h : Reachable s) (hg : s.gone = true) :
    (∀ w ∈ s.workers, w.place = .ended) ∧ s.begun.Perm s.returned ∧
      (List.range s.pushed).Perm (s.waiting.map (·.2) ++ s.returned ++ s.dropped) := by
  have hs := h.inv
  have hend : ∀ w ∈ s.workers, w.place = .ended ∧ w.queue = [] := by
    intro w hw
    obtain ⟨i, hi⟩ := List.getElem?_of_mem hw
    have hlt := (List.getElem?_eq_some_iff.mp hi).1
    have hok := hs.worker i w hi
    exact ⟨hok.joined (by simpa [joinedTo, hg] using hlt),
      (hok.cleared (by simpa [closedTo, hg] using hlt)).1⟩
  have hin : s.workers.flatMap insideJob = [] := by
    rw [List.eq_nil_iff_forall_not_mem]
    intro j hj
    obtain ⟨w, hw, hj⟩ := List.mem_flatMap.mp hj
    simp [insideJob, (hend w hw).1] at hj
  have hq : s.workers.flatMap (·.queue) = [] := by
    rw [List.eq_nil_iff_forall_not_mem]
    intro j hj
    obtain ⟨w, hw, hj⟩ := List.mem_flatMap.mp hj
    simp [(hend w hw).2] at hj
  have h2 := hs.done
  simp only [hin, List.nil_append] at h2
  refine ⟨fun w hw => (hend w hw).1, h2, ?_⟩
  have h1 := hs.jobs
  simp only [lockJob, hs.gone hg, hq, List.append_nil] at h1
  exact h1.trans ((h2.append_left _).append_right _)

/-- **C111, in part.** The destructor ends if it is called outside the pool, no function waits in
`push`, and the functions that run return.  Without these conditions it need not: see
`C111_stuck_violated` and `C111_self_violated`. -/
theorem C111_closes_partial {s : State} (hd : s.dead = false)
    (hg : s.gone = false) (hl : s.lock = none) {n : Nat} (hn : s.canCall (.outside n) = true)
    (hst : ∀ i j, (.worker i, j) ∉ s.waiting) :
    ∃ es s', (∀ e ∈ es, Event.isEnding e = true) ∧
      run s (.destroy (.outside n) :: es) = some s' ∧ s'.gone = true := by
  have e : step s (.destroy (.outside n)) =
      some { s with lock := some ⟨.outside n, none, .clear 0⟩ } := by
    unfold step; rw [if_neg (by simp [hd, hg])]
    simp [hn, hl]
  have hq : Quiet s := by
    intro i
    simp only [State.isWaiting, List.any_eq_false, beq_iff_eq]
    rintro ⟨c, j⟩ hm rfl
    exact hst i j hm
  obtain ⟨es, s', he, hr, hg'⟩ :=
    closes (s := { s with lock := some ⟨.outside n, none, .clear 0⟩ }) ⟨hd, hg⟩ (n := n) (k := 0)
      rfl hq
  exact ⟨es, s', he, by simp only [run, e, Option.bind_some]; exact hr, hg'⟩

/-! ### What is not true -/

/-- One function is given to a pool. -/
def given : List Event :=
  [.call (.outside 0), .acquire (.outside 0), .hold, .hold]

/-- **C111 does not hold**: a function that was given to the pool, and whose call of `push` is
over, may never be run, because the destructor throws it away. -/
theorem C111_dropped_violated :
    ∃ s, Reachable s ∧ s.gone = true ∧ s.waiting = [] ∧ s.pushed = 1 ∧ s.begun = [] := by
  refine ⟨_, ⟨given ++ [.destroy (.outside 0), .hold, .take 0, .hold, .hold], rfl⟩, ?_⟩
  decide

/-- The destructor waits for a function, which waits for the mutex the destructor holds. -/
structure Stuck (s : State) : Prop where
  lock : s.lock = some ⟨.outside 0, none, .join 0⟩
  worker : ∃ q, s.workers = [⟨true, q, true, .inside 0⟩]
  waiting : ∃ l, s.waiting = (.worker 0, 1) :: l
  returned : s.returned = []
  live : s.dead = false ∧ s.gone = false

theorem stuck_step {s s' : State} {e : Event} (h : Stuck s) (he : step s e = some s') :
    Stuck s' := by
  obtain ⟨hl, ⟨q, hw⟩, ⟨l, hwt⟩, hret, hv⟩ := h
  have hcan : s.canCall (.worker 0) = false := by
    simp [State.canCall, State.isWaiting, hwt]
  unfold step at he
  rw [if_neg (by simp [hv.1, hv.2])] at he
  cases e with
  | call c =>
    simp only at he; split at he
    · injection he with he; subst he
      exact ⟨hl, ⟨q, hw⟩, ⟨l ++ [(c, s.pushed)], by simp [hwt]⟩, hret, hv⟩
    · cases he
  | acquire c => simp [hl] at he
  | destroy c => simp [hl] at he
  | hold => simp [hl, hold, hw] at he
  | take i =>
    cases i <;> simp [take, hw] at he
  | ret i =>
    cases i <;> simp [hw, hcan] at he
  | throws i =>
    cases i
    · simp [hcan] at he
    · simp [State.canCall, State.isInside, hw] at he
  | free i =>
    cases i <;> simp [hw] at he

theorem stuck_run {s s' : State} {es : List Event} (h : Stuck s) (hr : run s es = some s') :
    Stuck s' := by
  induction es generalizing s with
  | nil => simp [run] at hr; exact hr ▸ h
  | cons e es ih =>
    simp only [run, Option.bind_eq_some_iff] at hr
    obtain ⟨s₁, h1, h2⟩ := hr
    exact ih (stuck_step h h1) h2

/-- **C111 does not hold**: if a function has called `push` and the destructor gets the mutex
first, neither the destructor nor the function ever comes to its end. -/
theorem C111_stuck_violated :
    ∃ s, Reachable s ∧ s.workers.length = 1 ∧ s.begun = [0] ∧
      ∀ es s', run s es = some s' → s'.gone = false ∧ s'.returned = [] ∧
        s'.lock = some ⟨.outside 0, none, .join 0⟩ ∧ (.worker 0, 1) ∈ s'.waiting := by
  refine ⟨_, ⟨given ++ [.take 0, .call (.worker 0), .destroy (.outside 0), .hold], rfl⟩, rfl, rfl,
    ?_⟩
  intro es s' hr
  obtain ⟨h1, _, ⟨l, h3⟩, h4, h5⟩ :=
    stuck_run ⟨rfl, ⟨[], rfl⟩, ⟨[], rfl⟩, rfl, rfl, rfl⟩ hr
  exact ⟨h5.2, h4, h1, by simp [h3]⟩

/-- **C111 does not hold**: if the last one to use the pool is a function that runs in it, the
process is ended. -/
theorem C111_self_violated :
    ∃ s s', Reachable s ∧ Open s ∧ s.begun = [0] ∧ s.returned = [] ∧
      run s [.destroy (.worker 0), .hold, .hold] = some s' ∧ s'.dead = true := by
  refine ⟨_, _, ⟨given ++ [.take 0], rfl⟩, ?_, rfl, rfl, rfl, rfl⟩
  exact ⟨rfl, rfl, by intro h hh; cases hh⟩

/-- **C111 does not hold**: a function that throws an exception ends the process, with all other
functions. -/
theorem C111_throws_violated :
    ∃ s s', Reachable s ∧ Open s ∧ s.begun = [1, 0] ∧ s.returned = [] ∧
      step s (.throws 1) = some s' ∧ s'.dead = true := by
  refine ⟨_, _, ⟨given ++ [.take 0, .call (.worker 0), .acquire (.worker 0),
    .hold, .hold, .hold, .take 1], rfl⟩, ?_, rfl, rfl, rfl, rfl⟩
  exact ⟨rfl, rfl, by intro h hh; cases hh⟩

/-! ### Examples -/

/-- Two functions are given to a pool, the second by the first; both return; a third one is given
to the thread of the first. -/
def threeJobs : List Event :=
  given ++ [.take 0, .call (.worker 0), .acquire (.worker 0), .hold, .hold, .hold, .take 1, .ret 0,
    .free 0, .ret 1, .free 1, .call (.outside 0), .acquire (.outside 0), .hold, .hold, .hold]

/-- A thread that has nothing to do. -/
def free : Worker := ⟨false, [], false, .popping⟩

/-- The third function waits in the queue of the first thread; no third thread was made. -/
example : ∃ s, Reachable s ∧ Open s ∧ s.pushed = 3 ∧ Queued s 2 ∧ s.workers.length = 2 ∧
    s.begun = [1, 0] ∧ most init threeJobs = 2 := by
  refine ⟨_, ⟨threeJobs, rfl⟩, ⟨rfl, rfl, by intro h hh; cases hh⟩, rfl, ?_, rfl, rfl, ?_⟩
  · exact ⟨⟨true, [2], true, .popping⟩, List.mem_cons_self, by simp⟩
  · decide

/-- After the third function has returned the pool has nothing left to do, and can be destroyed. -/
example : ∃ s, Reachable s ∧ Open s ∧ Idle s ∧ s.canCall (.outside 0) = true ∧
    s.returned = [2, 1, 0] := by
  refine ⟨_, ⟨threeJobs ++ [.take 0, .ret 0, .free 0], rfl⟩,
    ⟨rfl, rfl, by intro h hh; cases hh⟩, ⟨rfl, rfl, ?_, ?_⟩, rfl, rfl⟩
  · rintro j ⟨w, hw, hj⟩
    have hw : w ∈ [free, free] := hw
    simp only [List.mem_cons, List.not_mem_nil, or_false, or_self] at hw
    subst hw; cases hj
  · intro w hw j
    have hw : w ∈ [free, free] := hw
    simp only [List.mem_cons, List.not_mem_nil, or_false, or_self] at hw
    subst hw; simp [free]

/-- A call of `push` has the mutex while the only thread is in a function. -/
example : ∃ s, Reachable s ∧ s.dead = false ∧ s.gone = false ∧ s.workers.length = 1 ∧
    s.lock = some ⟨.worker 0, some 1, .look 0⟩ :=
  ⟨_, ⟨given ++ [.take 0, .call (.worker 0), .acquire (.worker 0)], rfl⟩, rfl, rfl, rfl, rfl⟩

/-- A pool of which the destructor has returned; one function has returned too. -/
example : ∃ s, Reachable s ∧ s.gone = true ∧ s.returned = [0] ∧ s.workers.length = 1 :=
  ⟨_, ⟨given ++ [.take 0, .destroy (.outside 0), .hold, .ret 0, .free 0, .take 0, .hold, .hold],
    rfl⟩, rfl, rfl, rfl⟩

/-- A pool with a function that runs, which can be destroyed once the function returns. -/
example : ∃ s, Reachable s ∧ Open s ∧ s.lock = none ∧ s.canCall (.outside 0) = true ∧
    (∀ i j, (.worker i, j) ∉ s.waiting) ∧ s.begun = [0] ∧ s.returned = [] :=
  ⟨_, ⟨given ++ [.take 0], rfl⟩, ⟨rfl, rfl, by intro h hh; cases hh⟩, rfl, rfl,
    (by intro i j h; cases h), rfl, rfl⟩

end Verif.Threads
