import Verif.Http.Events

/-! Property C123: the event handler of the HTTP client watches what it is told and keeps its timers. -/
namespace Verif.Http.Events

/-! ### Specification -/

/-- What is asked for a descriptor. -/
def Event.about (fd : Nat) : Event → Option (Option Want)
  | .register fd' w => if fd' = fd then some w else none
  | _ => none

/-- What was asked for a descriptor last. -/
def asked (fd : Nat) (es : List Event) : Option Want := (es.filterMap (·.about fd)).getLast?.join

/-- A descriptor is closed only when it is not registered, as libcurl does. -/
def Orderly (es : List Event) : Prop :=
  ∀ before after fd, es = before ++ .close fd :: after → asked fd before = none

/-- `epoll_wait` behaves. -/
def Possible (s : State) : List Event → Prop
  | [] => True
  | e :: es => (match e with
      | .poll w => s.allows w
      | _ => True) ∧ Possible (step s e).1 es

/-- How long the calls of `poll` took. -/
def spent : List Event → Nat
  | [] => 0
  | .poll (.ready _ t) :: es => t + spent es
  | _ :: es => spent es

/-- A timer is set. -/
def Event.sets : Event → Bool
  | .setTimeout _ => true
  | _ => false

/-- How often a timer was reported. -/
def reports (answers : List (Option (List (Nat × Bool)))) : Nat :=
  (answers.filterMap id).flatten.countP (·.2)

/-! ### Helper lemmas -/

theorem run_append (s : State) (a b : List Event) :
    run s (a ++ b) = ((run (run s a).1 b).1, (run s a).2 ++ (run (run s a).1 b).2) := by
  induction a generalizing s with
  | nil => rfl
  | cons e a ih => simp [run, ih]

theorem asked_snoc (fd : Nat) (es : List Event) (e : Event) :
    asked fd (es ++ [e]) = match e with
      | .register fd' w => if fd' = fd then w else asked fd es
      | _ => asked fd es := by
  unfold asked
  rw [List.filterMap_append]
  cases e with
  | register fd' w => by_cases h : fd' = fd <;> simp [Event.about, h]
  | _ => simp [Event.about]

theorem watch_append (l : List (Nat × Want)) (fd fd' : Nat) (w : Want) :
    ((l ++ [(fd', w)]).find? (·.1 == fd)).map (·.2) =
      ((l.find? (·.1 == fd)).map (·.2)).or (if fd' = fd then some w else none) := by
  rw [List.find?_append]
  cases l.find? (·.1 == fd) with
  | some e => rfl
  | none => by_cases h : fd' = fd <;> simp [h]

theorem watch_filter (l : List (Nat × Want)) (fd fd' : Nat) :
    ((l.filter (·.1 != fd')).find? (·.1 == fd)).map (·.2) =
      if fd' = fd then none else (l.find? (·.1 == fd)).map (·.2) := by
  induction l with
  | nil => simp
  | cons e l ih =>
    by_cases h1 : e.1 = fd'
    · rw [List.filter_cons_of_neg (by simp [h1]), ih]
      by_cases h2 : fd' = fd
      · simp [h2]
      · rw [List.find?_cons_of_neg (by simp [h1, h2])]
    · rw [List.filter_cons_of_pos (by simp [h1])]
      by_cases h2 : e.1 = fd
      · have h3 : fd' ≠ fd := fun h => h1 (by rw [h2, h])
        simp [h2, h3]
      · rw [List.find?_cons_of_neg (by simp [h2]), ih, List.find?_cons_of_neg (by simp [h2])]

theorem watch_map (l : List (Nat × Want)) (fd fd' : Nat) (w : Want) :
    ((l.map fun e => if e.1 == fd' then (fd', w) else e).find? (·.1 == fd)).map (·.2) =
      if fd' = fd then (l.find? (·.1 == fd)).map (fun _ => w) else (l.find? (·.1 == fd)).map (·.2) := by
  induction l with
  | nil => simp
  | cons e l ih =>
    rw [List.map_cons]
    by_cases h1 : e.1 = fd'
    · by_cases h2 : fd' = fd
      · simp [h1, h2]
      · have h3 : ¬ e.1 = fd := fun h => h2 (by rw [← h1, h])
        simp only [h1, beq_self_eq_true, if_true]
        rw [List.find?_cons_of_neg (by simp [h2]), ih, List.find?_cons_of_neg (by simp [h3])]
    · have hb : (e.1 == fd') = false := by simp [h1]
      simp only [hb, Bool.false_eq_true, if_false]
      by_cases h2 : e.1 = fd
      · have h3 : ¬ fd' = fd := fun h => h1 (by rw [h2, h])
        simp [h2, h3]
      · rw [List.find?_cons_of_neg (by simp [h2]), ih, List.find?_cons_of_neg (by simp [h2])]

/-- What the kernel watches is what was asked for. -/
structure Agrees (es : List Event) (s : State) : Prop where
  watch : ∀ fd, s.watch fd = asked fd es
  tracked : ∀ fd, fd ∈ s.tracked ↔ (s.watch fd).isSome = true

theorem agrees_step {es : List Event} {s : State} (h : Agrees es s) (e : Event)
    (hc : ∀ fd, e = .close fd → asked fd es = none) : Agrees (es ++ [e]) (step s e).1 := by
  cases e with
  | register fd w =>
    cases w with
    | none =>
      have hw : ∀ fd', (step s (.register fd none)).1.watch fd' = if fd = fd' then none else s.watch fd' := by
        intro fd'
        simp only [step, State.register, State.ctlDel]
        split
        · exact watch_filter s.watched fd' fd
        · rename_i hn
          show s.watch fd' = _
          split
          · rename_i he
            subst he
            simpa using hn
          · rfl
      have ht : (step s (.register fd none)).1.tracked = s.tracked.filter (· != fd) := rfl
      constructor
      · intro fd'
        rw [hw, asked_snoc]
        dsimp only
        split
        · rfl
        · exact h.watch fd'
      · intro fd'
        rw [hw, ht, List.mem_filter, h.tracked fd']
        by_cases he : fd = fd'
        · simp [he]
        · have : fd' ≠ fd := fun h => he h.symm
          simp [he, this]
    | some w =>
      have hw : ∀ fd', (step s (.register fd (some w))).1.watch fd' = if fd = fd' then some w else s.watch fd' := by
        intro fd'
        simp only [step, State.register]
        split
        · rename_i hin
          have hs : (s.watch fd).isSome = true := (h.tracked fd).mp (by simpa using hin)
          simp only [State.ctlMod, hs, if_true]
          show ((s.watched.map _).find? _).map _ = _
          rw [watch_map]
          split
          · rename_i he
            subst he
            unfold State.watch at hs
            cases hf : s.watched.find? (·.1 == fd) with
            | none => rw [hf] at hs; cases hs
            | some e => rfl
          · rfl
        · rename_i hin
          have hs : (s.watch fd).isSome = false := by
            cases hq : (s.watch fd).isSome with
            | false => rfl
            | true => exact absurd (by simpa using (h.tracked fd).mpr hq) hin
          simp only [State.ctlAdd, hs, Bool.false_eq_true, if_false]
          show ((s.watched ++ [(fd, w)]).find? _).map _ = _
          rw [watch_append]
          show (s.watch fd').or _ = _
          split
          · rename_i he
            subst he
            cases hq : s.watch fd with
            | none => rfl
            | some x => rw [hq] at hs; cases hs
          · cases s.watch fd' <;> rfl
      have ht : ∀ fd', fd' ∈ (step s (.register fd (some w))).1.tracked ↔ fd' = fd ∨ fd' ∈ s.tracked := by
        intro fd'
        simp only [step, State.register]
        split
        · rename_i hin
          have hin' : fd ∈ s.tracked := by simpa using hin
          have : (s.ctlMod fd w).tracked = s.tracked := by unfold State.ctlMod; split <;> rfl
          rw [this]
          constructor
          · exact fun h => .inr h
          · rintro (rfl | h)
            · exact hin'
            · exact h
        · simp only [List.mem_append, List.mem_singleton]
          exact or_comm
      constructor
      · intro fd'
        rw [hw, asked_snoc]
        dsimp only
        split
        · rfl
        · exact h.watch fd'
      · intro fd'
        rw [ht, hw, h.tracked fd']
        by_cases he : fd = fd'
        · simp [he]
        · have : fd' ≠ fd := fun h => he h.symm
          simp [he, this]
  | setTimeout ms =>
    have hw : (step s (.setTimeout ms)).1.watched = s.watched ∧ (step s (.setTimeout ms)).1.tracked = s.tracked := by
      simp only [step, State.setTimeout]; split <;> exact ⟨rfl, rfl⟩
    have hw' : ∀ fd, (step s (.setTimeout ms)).1.watch fd = s.watch fd := by
      intro fd; unfold State.watch; rw [hw.1]
    exact ⟨fun fd => by rw [hw', asked_snoc]; exact h.watch fd, fun fd => by rw [hw', hw.2]; exact h.tracked fd⟩
  | close fd =>
    have hn : s.watch fd = none := by rw [h.watch]; exact hc fd rfl
    have hw' : ∀ fd', (step s (.close fd)).1.watch fd' = s.watch fd' := by
      intro fd'
      show ((s.watched.filter _).find? _).map _ = _
      rw [watch_filter]
      split
      · rename_i he; subst he; exact hn.symm
      · rfl
    exact ⟨fun fd => by rw [hw', asked_snoc]; exact h.watch fd, fun fd => by rw [hw']; exact h.tracked fd⟩
  | poll w =>
    have hw : (step s (.poll w)).1.watched = s.watched ∧ (step s (.poll w)).1.tracked = s.tracked := by
      cases w with
      | interrupted => exact ⟨rfl, rfl⟩
      | ready fds t => simp only [step, State.poll]; split <;> exact ⟨rfl, rfl⟩
    have hw' : ∀ fd, (step s (.poll w)).1.watch fd = s.watch fd := by
      intro fd; unfold State.watch; rw [hw.1]
    exact ⟨fun fd => by rw [hw', asked_snoc]; exact h.watch fd, fun fd => by rw [hw', hw.2]; exact h.tracked fd⟩

theorem agrees_run (es : List Event) (h : Orderly es) : Agrees es (run start es).1 := by
  suffices key : ∀ done rest, es = done ++ rest → Agrees done (run start done).1 → Agrees es (run start es).1 from
    key [] es rfl ⟨fun _ => rfl, fun _ => by simp [run, start, State.watch]⟩
  intro done rest
  induction rest generalizing done with
  | nil => intro he ha; rw [List.append_nil] at he; rw [he]; exact ha
  | cons e rest ih =>
    intro he ha
    refine ih (done ++ [e]) (by simp [he]) ?_
    rw [run_append]
    exact agrees_step ha e (fun fd hfd => h done rest fd (by rw [he, hfd]))

/-! ### C123 -/

/-- **C123.** At any time the kernel watches exactly the descriptors that were registered and not removed since, each for
what was asked last. -/
theorem C123_watched (es : List Event) (h : Orderly es) (fd : Nat) : (run start es).1.watch fd = asked fd es :=
  (agrees_run es h).watch fd

/-- **C123.** What `poll` answers about descriptors is what the kernel said, all of it and nothing else; such descriptors are
registered. -/
theorem C123_events (es : List Event) (h : Orderly es) (fds : List Nat) (t : Nat) (a : List (Nat × Bool))
    (hw : (run start es).1.allows (.ready fds t)) (ha : ((run start es).1.poll (.ready fds t)).1 = some a) :
    (a.filter (fun e => !e.2)).map (·.1) = fds ∧ ∀ fd ∈ fds, (asked fd es).isSome = true := by
  constructor
  · have hm : ∀ l : List Nat, ((l.map fun fd => (fd, false)).filter fun e : Nat × Bool => !e.2).map (·.1) = l := by
      intro l
      induction l with
      | nil => rfl
      | cons x xs ih => simpa using ih
    unfold State.poll at ha
    dsimp only at ha
    split at ha <;> cases ha <;> exact hm fds
  · intro fd hfd
    rw [← C123_watched es h]
    exact hw.2.1 fd hfd

/-- **C123.** A registration never fails; only the removal of what is not registered does. -/
theorem C123_failures (es : List Event) (h : Orderly es) (fd : Nat) (w : Option Want) :
    ((run start es).1.register fd w).failures =
      (run start es).1.failures + if w = none ∧ asked fd es = none then 1 else 0 := by
  have ha := agrees_run es h
  cases w with
  | none =>
    simp only [State.register, State.ctlDel, ha.watch]
    cases hq : asked fd es <;> simp
  | some w =>
    simp only [State.register]
    split
    · rename_i hin
      have hs := (ha.tracked fd).mp (by simpa using hin)
      simp [State.ctlMod, hs]
    · rename_i hin
      have hs : ((run start es).1.watch fd).isSome = false := by
        cases hq : ((run start es).1.watch fd).isSome with
        | false => rfl
        | true => exact absurd (by simpa using (ha.tracked fd).mpr hq) hin
      simp [State.ctlAdd, hs]

/-- What the handler does about its timer depends on the timer alone. -/
theorem timer_register (s : State) (fd : Nat) (w : Option Want) :
    (s.register fd w).enabled = s.enabled ∧ (s.register fd w).timeout = s.timeout := by
  cases w with
  | none => simp only [State.register, State.ctlDel]; split <;> exact ⟨rfl, rfl⟩
  | some w =>
    simp only [State.register, State.ctlMod, State.ctlAdd]
    split <;> split <;> exact ⟨rfl, rfl⟩

theorem reports_append (a b : List (Option (List (Nat × Bool)))) : reports (a ++ b) = reports a + reports b := by
  simp [reports]

theorem reports_plain (fds : List Nat) : reports [some (fds.map fun fd => (fd, false))] = 0 := by
  simp [reports, List.countP_eq_zero]

/-- With the timer off nothing is reported until one is set. -/
theorem quiet (es : List Event) (hs : ∀ e ∈ es, e.sets = false) (s : State) (he : s.enabled = false) :
    reports (run s es).2 = 0 := by
  induction es generalizing s with
  | nil => rfl
  | cons e es ih =>
    have hes : ∀ e ∈ es, e.sets = false := fun e he => hs e (by simp [he])
    have h0 := hs e (by simp)
    rw [run, reports_append]
    cases e with
    | setTimeout ms => cases h0
    | register fd w => simpa [step, reports] using ih hes (s.register fd w) (by rw [(timer_register s fd w).1, he])
    | close fd => simpa [step, reports] using ih hes (s.close fd) he
    | poll w =>
      cases w with
      | interrupted => simpa [step, State.poll, reports] using ih hes s he
      | ready fds t =>
        have hp : s.poll (.ready fds t) = (some (fds.map fun fd => (fd, false)), s) := by simp [State.poll, he]
        simp only [step, hp, reports_plain, Nat.zero_add]
        exact ih hes s he

/-- From the setting of a timer on: it is reported at most once, and not before its time. -/
theorem since_set (es : List Event) (hs : ∀ e ∈ es, e.sets = false) (s : State) :
    reports (run s es).2 ≤ 1 ∧ (0 < reports (run s es).2 → s.enabled = true ∧ s.timeout * 1000000 < spent es) := by
  induction es generalizing s with
  | nil => simp [run, reports]
  | cons e es ih =>
    have hes : ∀ e ∈ es, e.sets = false := fun e he => hs e (by simp [he])
    have h0 := hs e (by simp)
    rw [run]
    cases e with
    | setTimeout ms => cases h0
    | register fd w =>
      have := ih hes (s.register fd w)
      rw [(timer_register s fd w).1, (timer_register s fd w).2] at this
      simpa [step, spent] using this
    | close fd => simpa [step, spent, State.close] using ih hes (s.close fd)
    | poll w =>
      cases w with
      | interrupted => simpa [step, State.poll, reports, spent] using ih hes s
      | ready fds t =>
        by_cases hc : (s.enabled && decide (s.timeout * 1000000 < (t : Int)) && fds.isEmpty) = true
        · have hp : s.poll (.ready fds t) = (some ((0, true) :: fds.map fun fd => (fd, false)),
              { s with enabled := false, timeout := 1000 }) := by simp only [State.poll, if_pos hc]
          have hq := quiet es hes { s with enabled := false, timeout := 1000 } rfl
          have hr : reports [some ((0, true) :: fds.map fun fd => (fd, false))] = 1 := by
            simp [reports]
          simp only [step, hp, reports_append, hq, hr]
          simp only [Bool.and_eq_true, decide_eq_true_eq] at hc
          refine ⟨Nat.le_refl _, fun _ => ⟨hc.1.1, ?_⟩⟩
          have : ((t + spent es : Nat) : Int) = t + spent es := by simp
          simp only [spent]
          omega
        · have hp : s.poll (.ready fds t) = (some (fds.map fun fd => (fd, false)), s) := by
            simp only [State.poll, if_neg hc]
          simp only [step, hp, reports_append, reports_plain, Nat.zero_add]
          have := ih hes s
          refine ⟨this.1, fun h => ⟨(this.2 h).1, ?_⟩⟩
          have h2 := (this.2 h).2
          simp only [spent]
          omega

/-- **C123.** A timer that is set is reported at most once, never before its time, and not at all if it is switched off. -/
theorem C123_timer (before after : List Event) (ms : Int) (hs : ∀ e ∈ after, e.sets = false) :
    reports (run (run start (before ++ [.setTimeout ms])).1 after).2 ≤ 1 ∧
    (0 < reports (run (run start (before ++ [.setTimeout ms])).1 after).2 → ms ≠ -1 ∧ ms * 1000000 < spent after) := by
  have h := since_set after hs (run start (before ++ [.setTimeout ms])).1
  refine ⟨h.1, fun hp => ?_⟩
  have h2 := h.2 hp
  rw [run_append] at h2
  simp only [run, step, State.setTimeout] at h2
  by_cases hm : ms = -1
  · rw [if_pos hm] at h2
    exact absurd h2.1 (by simp)
  · rw [if_neg hm] at h2
    exact ⟨hm, h2.2⟩

/-- **C123 (partial).** It is reported by the first call of `poll` in which nothing happens for longer than its time.  What is
missing is that it is reported when its time is over: see the theorems below. -/
theorem C123_fires_partial (before between : List Event) (ms : Int) (hm : ms ≠ -1) (hs : ∀ e ∈ between, e.sets = false)
    (hb : reports (run (run start (before ++ [.setTimeout ms])).1 between).2 = 0) (t : Nat) (ht : ms * 1000000 < t) :
    ((run start (before ++ [.setTimeout ms] ++ between)).1.poll (.ready [] t)).1 = some [(0, true)] := by
  have key : ∀ (es : List Event) (s : State), (∀ e ∈ es, e.sets = false) → s.enabled = true → s.timeout = ms →
      reports (run s es).2 = 0 → (run s es).1.enabled = true ∧ (run s es).1.timeout = ms := by
    intro es
    induction es with
    | nil => intro s _ h1 h2 _; exact ⟨h1, h2⟩
    | cons e es ih =>
      intro s hs h1 h2 hr
      have hes : ∀ e ∈ es, e.sets = false := fun e he => hs e (by simp [he])
      have h0 := hs e (by simp)
      rw [run] at hr ⊢
      rw [reports_append] at hr
      have hr2 : reports (run (step s e).1 es).2 = 0 := by omega
      have hr1 : reports (step s e).2 = 0 := by omega
      cases e with
      | setTimeout ms => cases h0
      | register fd w =>
        exact ih _ hes (by rw [← h1]; exact (timer_register s fd w).1) (by rw [← h2]; exact (timer_register s fd w).2) hr2
      | close fd => exact ih _ hes h1 h2 hr2
      | poll w =>
        cases w with
        | interrupted => exact ih _ hes h1 h2 hr2
        | ready fds t =>
          by_cases hc : (s.enabled && decide (s.timeout * 1000000 < (t : Int)) && fds.isEmpty) = true
          · simp only [step, State.poll, if_pos hc] at hr1
            simp [reports] at hr1
          · have hp : s.poll (.ready fds t) = (some (fds.map fun fd => (fd, false)), s) := by
              simp only [State.poll, if_neg hc]
            simp only [step, hp] at hr2 ⊢
            exact ih _ hes h1 h2 hr2
  have h1 : (run start (before ++ [.setTimeout ms])).1.enabled = true ∧
      (run start (before ++ [.setTimeout ms])).1.timeout = ms := by
    rw [run_append]
    simp [run, step, State.setTimeout, hm]
  rw [run_append]
  have h2 := key between _ hs h1.1 h1.2 hb
  simp [State.poll, h2.1, h2.2, ht]

/-- **C123 (violated).** As long as something happens in every call of `poll` a timer is not reported, however long its time
is over: here one descriptor, ready once a millisecond, and a timer of two. -/
theorem C123_starved_violated (n : Nat) :
    ∃ es : List Event, Orderly es ∧ Possible start es ∧ (run start es).1.enabled = true ∧
      es.take 2 = [.register 7 (some .read), .setTimeout 2] ∧ n * 1000000 ≤ spent es ∧ reports (run start es).2 = 0 := by
  have hrun : ∀ s : State, run s (List.replicate n (.poll (.ready [7] 1000000))) = (s, List.replicate n (some [(7, false)])) := by
    intro s
    induction n with
    | zero => rfl
    | succ n ih => simp [List.replicate_succ, run, step, State.poll, ih]
  have hpos : ∀ s : State, (s.watch 7).isSome = true → Possible s (List.replicate n (.poll (.ready [7] 1000000))) := by
    intro s hs
    clear hrun
    induction n with
    | zero => trivial
    | succ n ih =>
      refine ⟨⟨by simp, by simpa using hs, fun h => (nomatch h)⟩, ?_⟩
      simpa [step, State.poll] using ih
  have hsp : spent (List.replicate n (.poll (.ready [7] 1000000))) = n * 1000000 := by
    clear hrun hpos
    induction n with
    | zero => rfl
    | succ n ih => rw [List.replicate_succ, spent, ih]; omega
  refine ⟨[.register 7 (some .read), .setTimeout 2] ++ List.replicate n (.poll (.ready [7] 1000000)), ?_, ?_, ?_, rfl, ?_, ?_⟩
  · intro b a fd he
    have hm : Event.close fd ∈ [.register 7 (some .read), .setTimeout 2] ++ List.replicate n (.poll (.ready [7] 1000000)) := by
      rw [he]; simp
    simp [List.mem_replicate] at hm
  · exact ⟨trivial, trivial, hpos _ (by decide)⟩
  · rw [run_append, hrun]
    rfl
  · show n * 1000000 ≤ spent (List.replicate n (.poll (.ready [7] 1000000)))
    rw [hsp]
    exact Nat.le_refl _
  · rw [run_append, hrun, reports_append]
    have h1 : reports (List.replicate n (some [(7, false)])) = 0 := by
      clear hrun hpos hsp
      induction n with
      | zero => rfl
      | succ n ih =>
        rw [List.replicate_succ, show ∀ (x : Option (List (Nat × Bool))) l, x :: l = [x] ++ l from fun _ _ => rfl,
          reports_append, ih]
        rfl
    rw [h1]
    rfl

/-- **C123 (violated).** A timer of 2³² milliseconds is never reported and never slept for: the cast to `int` makes `epoll_wait`
return at once. -/
theorem C123_long_violated (n : Nat) :
    Possible start (.setTimeout (2 ^ 32) :: List.replicate n (.poll (.ready [] 0))) ∧
    reports (run start (.setTimeout (2 ^ 32) :: List.replicate n (.poll (.ready [] 0)))).2 = 0 := by
  have hp : ∀ s : State, s.timeout = 2 ^ 32 → Possible s (List.replicate n (.poll (.ready [] 0))) ∧
      reports (run s (List.replicate n (.poll (.ready [] 0)))).2 = 0 := by
    intro s hs
    induction n with
    | zero => exact ⟨trivial, rfl⟩
    | succ n ih =>
      have hpoll : s.poll (.ready [] 0) = (some [], s) := by simp [State.poll, hs]
      rw [List.replicate_succ]
      refine ⟨⟨⟨by simp, by simp, fun _ => ?_⟩, ?_⟩, ?_⟩
      · rw [hs]; decide
      · simp only [step, hpoll]; exact ih.1
      · rw [run, reports_append]; simp only [step, hpoll]; rw [ih.2]; rfl
  have h := hp (start.setTimeout (2 ^ 32)) (by decide)
  exact ⟨⟨trivial, h.1⟩, by rw [run, reports_append]; simpa [step, reports] using h.2⟩

/-- **C123 (violated).** The interface says that 0 switches the timer off (src/util/rpc/http/event_handler.hpp:40-42); it is reported at
the next quiet call.  So is a timer nobody set, one second after the start. -/
theorem C123_zero_violated :
    (run start [.setTimeout 0, .poll (.ready [] 1)]).2 = [some [(0, true)]] ∧
    (run start [.poll (.ready [] 1000000001)]).2 = [some [(0, true)]] := by decide

/-- **C123 (violated).** A signal during the wait makes `poll` fail, whatever is registered and whatever is set. -/
theorem C123_signal_violated (es : List Event) :
    (run start es).1.allows .interrupted ∧ ((run start es).1.poll .interrupted).1 = none := ⟨trivial, rfl⟩

/-! ### Non-vacuity -/

/-- A conversation with a server: connecting, reading, done; and a timer which is reported. -/
example : let es : List Event := [.register 7 (some .write), .setTimeout 5, .poll (.ready [7] 100), .register 7 (some .read),
      .poll (.ready [] 6000000), .register 7 none, .close 7]
    Orderly es ∧ Possible start es ∧ asked 7 (es.take 4) = some .read ∧ asked 7 es = none ∧
      reports (run start es).2 = 1 ∧ (run start es).1.failures = 0 := by
  refine ⟨?_, ?_, by decide, by decide, by decide, by decide⟩
  · intro b a fd he
    have hb : b.length = 6 := by
      rcases b with _ | ⟨b0, _ | ⟨b1, _ | ⟨b2, _ | ⟨b3, _ | ⟨b4, _ | ⟨b5, _ | ⟨b6, b⟩⟩⟩⟩⟩⟩⟩ <;> simp_all
    obtain ⟨rfl, h2⟩ := List.append_inj he (s₁ := [_, _, _, _, _, _]) (t₁ := [_]) (by simp [hb])
    cases h2
    decide
  · refine ⟨trivial, trivial, ⟨by decide, by decide, fun h => (nomatch h)⟩, trivial, ⟨by decide, by decide, fun _ => by decide⟩,
      trivial, trivial, trivial⟩

end Verif.Http.Events
