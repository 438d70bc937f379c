import Verif.Coordinator.Threads

/-!
What holds at all times of the threads of the coordinator.
-/
namespace Verif.Coordinator.Threads

theorem sum_set {α : Type} (f : α → Nat) (l : List α) (i : Nat) (a b : α) (h : l[i]? = some a) :
    ((l.set i b).map f).sum + f a = (l.map f).sum + f b := by
  induction l generalizing i with
  | nil => simp at h
  | cons x l ih =>
    cases i with
    | zero =>
      simp only [List.getElem?_cons_zero, Option.some.injEq] at h
      subst h
      simp only [List.set_cons_zero, List.map_cons, List.sum_cons]
      omega
    | succ i =>
      simp only [List.getElem?_cons_succ] at h
      have := ih i h
      simp only [List.set_cons_succ, List.map_cons, List.sum_cons]
      omega

/-! ### Waking up -/

theorem wake_caller {s : State} {i : Nat} {c : Call} (h : s.threads[i]? = some (.asleep c)) :
    s.wake (.caller i) = { s with threads := s.threads.set i (.enter c) } := by
  simp [State.wake, h]

/-- What waking a thread amounts to. -/
theorem wake_cases {s : State} {w : Who} (h : s.sleeps w = true) :
    (w = .exec ∧ s.exec = .asleep ∧ s.wake w = { s with exec := .wait }) ∨
    ∃ i c, w = .caller i ∧ s.threads[i]? = some (.asleep c) ∧
      s.wake w = { s with threads := s.threads.set i (.enter c) } := by
  cases w with
  | exec =>
    left
    exact ⟨rfl, by simpa [State.sleeps] using h, rfl⟩
  | caller i =>
    right
    cases ht : s.threads[i]? with
    | none => simp [State.sleeps, ht] at h
    | some t =>
      cases t with
      | asleep c => exact ⟨i, c, rfl, ht, wake_caller ht⟩
      | idle => simp [State.sleeps, ht] at h
      | enter c => simp [State.sleeps, ht] at h
      | notify => simp [State.sleeps, ht] at h

/-- What `notify_one` amounts to. -/
theorem notifyOne_cases {s s' : State} {w : Option Who} (h : s.notifyOne w = some s') :
    (s' = s ∧ s.someone = false) ∨ (s.exec = .asleep ∧ s' = { s with exec := .wait }) ∨
    ∃ i c, s.threads[i]? = some (.asleep c) ∧ s' = { s with threads := s.threads.set i (.enter c) } := by
  cases w with
  | none =>
    simp only [State.notifyOne] at h
    split at h
    · cases h
    · next hs => cases h; exact .inl ⟨rfl, by simpa using hs⟩
  | some w =>
    simp only [State.notifyOne] at h
    split at h
    · next hs =>
      cases h
      rcases wake_cases hs with ⟨-, h1, h2⟩ | ⟨i, c, -, h1, h2⟩
      · exact .inr (.inl ⟨h1, h2⟩)
      · exact .inr (.inr ⟨i, c, h1, h2⟩)
    · cases h

/-- `notify_one` can always be done. -/
theorem notifyOne_enabled (s : State) : ∃ w s', s.notifyOne w = some s' := by
  cases hs : s.someone with
  | false => exact ⟨none, s, by simp [State.notifyOne, hs]⟩
  | true =>
    simp only [State.someone, Bool.or_eq_true, List.any_eq_true] at hs
    rcases hs with hs | ⟨t, ht, hs⟩
    · exact ⟨some .exec, s.wake .exec, by simp only [State.notifyOne, State.sleeps, hs, if_true]⟩
    · obtain ⟨i, hi⟩ := List.mem_iff_getElem?.mp ht
      cases t with
      | asleep c =>
        exact ⟨some (.caller i), s.wake (.caller i), by
          simp only [State.notifyOne, State.sleeps, hi, if_true]⟩
      | idle => cases hs
      | enter c => cases hs
      | notify => cases hs

/-! ### Where calls are -/

/-- The number of times a call is in a batch. -/
def Batch.has (b : Batch) (c : Call) : Nat := (b.calls.map (·.1)).count c

/-- The batch the executor thread has in hand. -/
def ExecT.batch : ExecT → Batch
  | .notify b | .schedule b => b
  | _ => .new

/-- Whether a thread is in the call of that number. -/
def CallT.has (n : Nat) : CallT → Nat
  | .enter c | .asleep c => if c.num = n then 1 else 0
  | _ => 0

theorem has_idle (n : Nat) : CallT.idle.has n = 0 := rfl
theorem has_notify (n : Nat) : CallT.notify.has n = 0 := rfl
theorem has_enter (n : Nat) (c : Call) : (CallT.enter c).has n = if c.num = n then 1 else 0 := rfl
theorem has_asleep (n : Nat) (c : Call) : (CallT.asleep c).has n = if c.num = n then 1 else 0 := rfl

/-- The indexes of a batch are those of the callers' own transactions. -/
def Batch.Wf (b : Batch) : Prop := ∀ q ∈ b.calls, b.txs[q.2]? = some q.1.tx

/-- A callback is told nothing when a batch with its transaction failed, and otherwise what that batch did with its
transaction. -/
def Told (outs : List (List Nat × Option (List Bool))) (c : Call) (r : Option Bool) : Prop :=
  (r = none ∧ ∃ txs, (txs, none) ∈ outs ∧ c.tx ∈ txs) ∨
  ∃ (txs : List Nat) (d : List Bool) (i : Nat) (f : Bool), (txs, some d) ∈ outs ∧ txs[i]? = some c.tx ∧ d[i]? = some f ∧ r = some f

/-- Each call is in one place, and callbacks are told the truth. -/
structure Book (s : State) : Prop where
  place : ∀ c, s.accepted.count c = (s.answered.map (·.1)).count c +
    (s.slots.map (fun o => (o.getD .new).has c)).sum + s.exec.batch.has c + s.cur.has c +
    s.dropped.count c
  once : ∀ n, (s.accepted.map (·.num)).count n + (s.refused.map (·.num)).count n +
    (s.threads.map (·.has n)).sum = if n < s.next then 1 else 0
  cur : s.cur.Wf
  exec : s.exec.batch.Wf
  slots : ∀ b, some b ∈ s.slots → b.Wf
  told : ∀ q ∈ s.answered, Told s.outcomes q.1 q.2

theorem Batch.new_wf : Batch.new.Wf := by intro q hq; simp [Batch.new] at hq

theorem Batch.new_has (c : Call) : Batch.new.has c = 0 := by simp [Batch.new, Batch.has]

theorem book_init (n k : Nat) : Book (.init n k) := by
  refine ⟨?_, ?_, Batch.new_wf, Batch.new_wf, ?_, ?_⟩
  · intro c
    simp [State.init, ExecT.batch, Batch.new_has]
  · intro m
    simp [State.init, CallT.has]
  · intro b hb
    simp only [State.init, List.mem_replicate] at hb
    cases hb.2
  · intro q hq
    simp [State.init] at hq

/-- `Book` after a step that only moves threads. -/
theorem Book.moves {s s' : State} (h : Book s) (h1 : s'.accepted = s.accepted)
    (h2 : s'.answered = s.answered) (h3 : s'.slots = s.slots) (h4 : s'.exec.batch = s.exec.batch)
    (h5 : s'.cur = s.cur) (h6 : s'.dropped = s.dropped) (h7 : s'.refused = s.refused)
    (h8 : ∀ n, (s'.threads.map (·.has n)).sum = (s.threads.map (·.has n)).sum)
    (h9 : s'.next = s.next) (h10 : s'.outcomes = s.outcomes) : Book s' := by
  obtain ⟨a, b, c, d, e, f⟩ := h
  refine ⟨?_, ?_, ?_, ?_, ?_, ?_⟩
  · rw [h1, h2, h3, h4, h5, h6]; exact a
  · intro n; rw [h1, h7, h8, h9]; exact b n
  · rw [h5]; exact c
  · rw [h4]; exact d
  · rw [h3]; exact e
  · rw [h2, h10]; exact f

theorem has_set {s : State} {i : Nat} {a b : CallT} (h : s.threads[i]? = some a)
    (hab : ∀ n, b.has n = a.has n) (n : Nat) :
    ((s.threads.set i b).map (·.has n)).sum = (s.threads.map (·.has n)).sum := by
  have := sum_set (·.has n) s.threads i a b h
  have := hab n
  omega

theorem Book.notifyOne {s s' : State} {w : Option Who} (hb : Book s) (h : s.notifyOne w = some s') :
    Book s' := by
  rcases notifyOne_cases h with ⟨rfl, -⟩ | ⟨he, rfl⟩ | ⟨i, c, hi, rfl⟩
  · exact hb
  · exact hb.moves rfl rfl rfl (by simp [he, ExecT.batch]) rfl rfl rfl (fun _ => rfl) rfl rfl
  · exact hb.moves rfl rfl rfl rfl rfl rfl rfl (has_set hi fun _ => rfl) rfl rfl

theorem Told.mono {o o' : List (List Nat × Option (List Bool))} {c : Call} {r : Option Bool}
    (h : Told o c r) : Told (o ++ o') c r := by
  rcases h with ⟨h1, txs, h2, h3⟩ | ⟨txs, d, i, f, h1, h2, h3, h4⟩
  · exact .inl ⟨h1, txs, List.mem_append_left _ h2, h3⟩
  · exact .inr ⟨txs, d, i, f, List.mem_append_left _ h1, h2, h3, h4⟩

theorem Batch.answers_fst (b : Batch) (res : Option (List Bool)) :
    (b.answers res).map (·.1) = b.calls.map (·.1) := by
  simp [Batch.answers, List.map_map, Function.comp_def]

theorem book_step {n : Nat} {s s' : State} {e : Event} (hb : Book s)
    (hq : s.stop = .stopped → s.exec.batch = .new) (h : step n s e = some s') : Book s' := by
  cases e with
  | call i tx =>
    simp only [step] at h
    split at h
    · next hc =>
      cases h
      simp only [Bool.and_eq_true, beq_iff_eq] at hc
      refine ⟨hb.place, ?_, hb.cur, hb.exec, hb.slots, hb.told⟩
      intro m
      have h1 := hb.once m
      have h2 := sum_set (·.has m) s.threads i .idle (.enter ⟨s.next, tx⟩) hc.2
      simp only [has_idle, has_enter] at h2
      dsimp only
      by_cases hm : s.next = m
      · subst hm
        simp only [Nat.lt_irrefl, if_false, if_true, Nat.lt_succ_self] at h1 h2 ⊢
        omega
      · rw [if_neg hm] at h2
        by_cases hl : m < s.next
        · rw [if_pos hl] at h1; rw [if_pos (by omega)]; omega
        · rw [if_neg hl] at h1; rw [if_neg (by omega)]; omega
    · cases h
  | caller i =>
    simp only [step, callerStep] at h
    split at h
    · next c hi =>
      split at h
      · cases h
        exact hb.moves rfl rfl rfl rfl rfl rfl rfl (has_set hi fun _ => rfl) rfl rfl
      · have hset := fun m => sum_set (·.has m) s.threads i (.enter c) .idle hi
        have hset' := fun m => sum_set (·.has m) s.threads i (.enter c) .notify hi
        have href : Book { s with threads := s.threads.set i .idle, refused := s.refused ++ [c] } := by
          refine ⟨hb.place, ?_, hb.cur, hb.exec, hb.slots, hb.told⟩
          intro m
          have h1 := hb.once m
          have h2 := hset m
          simp only [has_idle, has_enter, has_notify, List.map_append, List.map_cons, List.map_nil, List.count_append,
            List.count_cons, List.count_nil, beq_iff_eq] at h2 ⊢
          omega
        split at h
        · cases h; exact href
        · split at h
          · cases h; exact href
          · cases h
            refine ⟨?_, ?_, ?_, hb.exec, hb.slots, hb.told⟩
            · intro c'
              have h1 := hb.place c'
              simp only [Batch.has, List.map_append, List.map_cons, List.map_nil, List.count_append,
                List.count_cons, List.count_nil] at h1 ⊢
              omega
            · intro m
              have h1 := hb.once m
              have h2 := hset' m
              simp only [has_idle, has_enter, has_notify, List.map_append, List.map_cons, List.map_nil, List.count_append,
                List.count_cons, List.count_nil, beq_iff_eq] at h2 ⊢
              omega
            · intro q hq
              rcases List.mem_append.mp hq with hq | hq
              · have := hb.cur q hq
                rw [List.getElem?_append_left (List.getElem?_eq_some_iff.mp this).1]
                exact this
              · simp only [List.mem_singleton] at hq
                subst hq
                simp
    · cases h
  | callerNotify i w =>
    simp only [step] at h
    split at h
    · next hi =>
      have hi := beq_iff_eq.mp hi
      refine Book.notifyOne ?_ h
      exact hb.moves rfl rfl rfl rfl rfl rfl rfl (has_set hi fun _ => rfl) rfl rfl
    · cases h
  | exec =>
    simp only [step, execStep] at h
    split at h
    · next he =>
      cases h
      refine hb.moves rfl rfl rfl ?_ rfl rfl rfl (fun _ => rfl) rfl rfl
      rw [he]; dsimp only; split <;> rfl
    · next he =>
      cases h
      refine hb.moves rfl rfl rfl ?_ rfl rfl rfl (fun _ => rfl) rfl rfl
      rw [he]; dsimp only; split <;> rfl
    · next he =>
      cases h
      refine hb.moves rfl rfl rfl ?_ rfl rfl rfl (fun _ => rfl) rfl rfl
      rw [he]; dsimp only; split <;> rfl
    · next he =>
      cases h
      refine ⟨?_, hb.once, Batch.new_wf, hb.cur, hb.slots, hb.told⟩
      intro c
      have := hb.place c
      rw [he] at this
      simp only [ExecT.batch, Batch.new_has] at this ⊢
      omega
    · cases h
  | execNotify w =>
    simp only [step] at h
    split at h
    · next b he =>
      refine Book.notifyOne ?_ h
      exact hb.moves rfl rfl rfl (by rw [he]; rfl) rfl rfl rfl (fun _ => rfl) rfl rfl
    · cases h
  | schedule k =>
    simp only [step] at h
    split at h
    · next b he hk =>
      cases h
      refine ⟨?_, hb.once, hb.cur, Batch.new_wf, ?_, hb.told⟩
      · intro c
        have h1 := hb.place c
        have h2 := sum_set (fun o : Option Batch => (o.getD .new).has c) s.slots k none (some b) hk
        rw [he] at h1
        simp only [ExecT.batch, Batch.new_has, Option.getD_none, Option.getD_some] at h1 h2 ⊢
        omega
      · intro b' hb'
        rcases List.mem_or_eq_of_mem_set hb' with h' | h'
        · exact hb.slots b' h'
        · cases h'
          have := hb.exec
          rw [he] at this
          exact this
    · cases h
  | finish k res =>
    simp only [step] at h
    split at h
    · next b hk =>
      split at h
      · next hl =>
        cases h
        refine ⟨?_, hb.once, hb.cur, hb.exec, ?_, ?_⟩
        · intro c
          have h1 := hb.place c
          have h2 := sum_set (fun o : Option Batch => (o.getD .new).has c) s.slots k (some b) none hk
          simp only [Batch.new_has, Option.getD_none, Option.getD_some, List.map_append,
            List.count_append, Batch.answers_fst] at h1 h2 ⊢
          have h3 : b.has c = (b.calls.map (·.1)).count c := rfl
          omega
        · intro b' hb'
          rcases List.mem_or_eq_of_mem_set hb' with h' | h'
          · exact hb.slots b' h'
          · cases h'
        · intro q hq
          rcases List.mem_append.mp hq with hq | hq
          · exact (hb.told q hq).mono
          · simp only [Batch.answers, List.mem_map] at hq
            obtain ⟨p, hp, rfl⟩ := hq
            have hw := hb.slots b (List.mem_of_getElem? hk) p hp
            cases res with
            | none =>
              exact .inl ⟨rfl, b.txs, by simp, List.mem_of_getElem? hw⟩
            | some d =>
              simp only [Option.all_some, beq_iff_eq] at hl
              have hlt : p.2 < d.length := by
                rw [hl]; exact (List.getElem?_eq_some_iff.mp hw).1
              exact .inr ⟨b.txs, d, p.2, d[p.2], by simp, hw, List.getElem?_eq_getElem hlt,
                List.getElem?_eq_getElem hlt⟩
      · cases h
    · cases h
  | stopStep =>
    simp only [step, stopStep] at h
    split at h
    · cases h; exact hb.moves rfl rfl rfl rfl rfl rfl rfl (fun _ => rfl) rfl rfl
    · split at h
      · cases h; exact hb.moves rfl rfl rfl rfl rfl rfl rfl (fun _ => rfl) rfl rfl
      · cases h
    · cases h; exact hb.moves rfl rfl rfl rfl rfl rfl rfl (fun _ => rfl) rfl rfl
    · split at h
      · cases h; exact hb.moves rfl rfl rfl rfl rfl rfl rfl (fun _ => rfl) rfl rfl
      · cases h
    · split at h
      · cases h; exact hb.moves rfl rfl rfl rfl rfl rfl rfl (fun _ => rfl) rfl rfl
      · cases h
    · cases h
  | stopNotify w =>
    simp only [step] at h
    split at h
    · refine Book.notifyOne ?_ h
      exact hb.moves rfl rfl rfl rfl rfl rfl rfl (fun _ => rfl) rfl rfl
    · cases h
  | spurious w =>
    have : s.notifyOne (some w) = some s' := h
    exact hb.notifyOne this
  | stop =>
    simp only [step] at h
    split at h
    · cases h; exact hb.moves rfl rfl rfl rfl rfl rfl rfl (fun _ => rfl) rfl rfl
    · cases h
  | start =>
    simp only [step] at h
    split at h
    · next hs =>
      cases h
      have hx := hq (beq_iff_eq.mp hs)
      refine ⟨?_, hb.once, Batch.new_wf, Batch.new_wf, hb.slots, hb.told⟩
      intro c
      have h1 := hb.place c
      rw [hx] at h1
      simp only [ExecT.batch, Batch.new_has, List.count_append] at h1 ⊢
      have h3 : s.cur.has c = (s.cur.calls.map (·.1)).count c := rfl
      omega
    · cases h

/-! ### How the threads stand to one another -/

/-- `stop` has joined the calling thread. -/
def StopT.late : StopT → Bool
  | .idle | .close | .join => false
  | _ => true

/-- `stop` has notified the executor thread. -/
def StopT.later : StopT → Bool
  | .idle | .close | .join | .notify => false
  | _ => true

/-- How the threads stand to one another. -/
structure Sync (s : State) : Prop where
  mode : s.running = true ↔ s.stop = .idle
  swap : s.exec = .swap → s.cur.calls ≠ []
  check : s.exec = .check → s.cur.calls ≠ [] ∨ s.running = false
  on : s.running = true → s.exec ≠ .off ∧ s.exec ≠ .exited
  closed : s.serving = true → s.stop = .idle ∨ s.stop = .close
  quiet : s.stop.late = true → ∀ t ∈ s.threads, t = .idle
  awake : s.stop.later = true → s.exec ≠ .asleep
  ended : s.stop = .joinSlots ∨ s.stop = .stopped → s.exec = .off ∨ s.exec = .exited

theorem sync_init (n k : Nat) : Sync (.init n k) := by
  refine ⟨by simp [State.init], by simp [State.init], by simp [State.init], by simp [State.init],
    by simp [State.init], ?_, by simp [State.init], by simp [State.init]⟩
  intro _ t ht
  simp only [State.init, List.mem_replicate] at ht
  exact ht.2

theorem Sync.notifyOne {s s' : State} {w : Option Who} (hs : Sync s) (h : s.notifyOne w = some s') :
    Sync s' := by
  rcases notifyOne_cases h with ⟨rfl, -⟩ | ⟨he, rfl⟩ | ⟨i, c, hi, rfl⟩
  · exact hs
  · refine ⟨hs.mode, by simp, by simp, fun _ => by simp, hs.closed, hs.quiet, fun _ => by simp, ?_⟩
    intro hx
    have := hs.ended hx
    rw [he] at this
    rcases this with this | this <;> cases this
  · refine ⟨hs.mode, hs.swap, hs.check, hs.on, hs.closed, ?_, hs.awake, hs.ended⟩
    intro hl
    have := hs.quiet hl _ (List.mem_of_getElem? hi)
    cases this

theorem StopT.late_of_later {t : StopT} (h : t.later = true) : t.late = true := by
  cases t <;> first | rfl | cases h

/-- `Sync` when one calling thread goes on, before `stop` has joined it. -/
theorem Sync.threads {s : State} (hs : Sync s) (i : Nat) {a : CallT} (hi : s.threads[i]? = some a)
    (ha : a ≠ .idle) (b : CallT) : Sync { s with threads := s.threads.set i b } := by
  refine ⟨hs.mode, hs.swap, hs.check, hs.on, hs.closed, ?_, hs.awake, hs.ended⟩
  intro hl
  exact absurd (hs.quiet hl _ (List.mem_of_getElem? hi)) ha

theorem Sync.congr {s s' : State} (hs : Sync s) (h1 : s'.running = s.running) (h2 : s'.stop = s.stop)
    (h3 : s'.exec = s.exec) (h4 : s'.cur = s.cur) (h5 : s'.serving = s.serving)
    (h6 : s'.threads = s.threads) : Sync s' := by
  obtain ⟨a, b, c, d, e, f, g, i⟩ := hs
  exact ⟨by rw [h1, h2]; exact a, by rw [h3, h4]; exact b, by rw [h3, h4, h1]; exact c,
    by rw [h1, h3]; exact d, by rw [h5, h2]; exact e, by rw [h2, h6]; exact f,
    by rw [h2, h3]; exact g, by rw [h2, h3]; exact i⟩

theorem sync_step {n : Nat} {s s' : State} {e : Event} (hs : Sync s) (h : step n s e = some s') :
    Sync s' := by
  cases e with
  | call i tx =>
    simp only [step] at h
    split at h
    · next hc =>
      cases h
      simp only [Bool.and_eq_true, beq_iff_eq] at hc
      refine ⟨hs.mode, hs.swap, hs.check, hs.on, hs.closed, ?_, hs.awake, hs.ended⟩
      intro hl
      rcases hs.closed hc.1 with h | h <;> · dsimp only at hl; rw [h] at hl; cases hl
    · cases h
  | caller i =>
    simp only [step, callerStep] at h
    split at h
    · next c hi =>
      split at h
      · cases h; exact hs.threads i hi (by simp) _
      · split at h
        · cases h
          exact (hs.threads i hi (by simp) _).congr rfl rfl rfl rfl rfl rfl
        · next hr =>
          split at h
          · cases h
            exact (hs.threads i hi (by simp) _).congr rfl rfl rfl rfl rfl rfl
          · cases h
            refine ⟨hs.mode, fun _ => by simp, fun _ => .inl (by simp), hs.on, hs.closed, ?_, hs.awake,
              hs.ended⟩
            intro hl
            have := hs.quiet hl _ (List.mem_of_getElem? hi)
            cases this
    · cases h
  | callerNotify i w =>
    simp only [step] at h
    split at h
    · next hi =>
      exact (hs.threads i (beq_iff_eq.mp hi) (by simp) _).notifyOne h
    · cases h
  | exec =>
    simp only [step, execStep] at h
    split at h
    · next he =>
      cases h
      refine ⟨hs.mode, ?_, ?_, ?_, hs.closed, hs.quiet, ?_, ?_⟩
      · dsimp only; split <;> simp
      · dsimp only; split <;> simp
      · intro hr; dsimp only at hr ⊢; rw [if_pos hr]; simp
      · intro _; dsimp only; split <;> simp
      · intro hx
        have := hs.ended hx
        rw [he] at this
        rcases this with this | this <;> cases this
    · next he =>
      cases h
      refine ⟨hs.mode, ?_, ?_, ?_, hs.closed, hs.quiet, ?_, ?_⟩
      · dsimp only; split <;> simp
      · dsimp only
        split
        · next hc =>
          intro _
          simp only [Bool.or_eq_true, Bool.not_eq_true', List.isEmpty_eq_false_iff] at hc
          exact hc
        · simp
      · intro hr; dsimp only; split <;> simp
      · intro hl
        have hr : s.running = false := by
          cases hr : s.running with
          | false => rfl
          | true =>
            have h1 := hs.mode.mp hr
            dsimp only at hl
            rw [h1] at hl
            cases hl
        dsimp only
        rw [if_pos (by simp [hr])]
        simp
      · intro hx
        have := hs.ended hx
        rw [he] at this
        rcases this with this | this <;> cases this
    · next he =>
      cases h
      refine ⟨hs.mode, ?_, ?_, ?_, hs.closed, hs.quiet, ?_, ?_⟩
      · dsimp only
        split
        · next hr =>
          intro _
          rcases hs.check he with h | h
          · exact h
          · rw [h] at hr; cases hr
        · simp
      · dsimp only; split <;> simp
      · intro hr; dsimp only at hr ⊢; rw [if_pos hr]; simp
      · intro _; dsimp only; split <;> simp
      · intro hx
        have := hs.ended hx
        rw [he] at this
        rcases this with this | this <;> cases this
    · next he =>
      cases h
      refine ⟨hs.mode, by simp, by simp, fun _ => by simp, hs.closed, hs.quiet, fun _ => by simp, ?_⟩
      intro hx
      have := hs.ended hx
      rw [he] at this
      rcases this with this | this <;> cases this
    · cases h
  | execNotify w =>
    simp only [step] at h
    split at h
    · next b he =>
      refine Sync.notifyOne ?_ h
      refine ⟨hs.mode, by simp, by simp, fun _ => by simp, hs.closed, hs.quiet, fun _ => by simp, ?_⟩
      intro hx
      have := hs.ended hx
      rw [he] at this
      rcases this with this | this <;> cases this
    · cases h
  | schedule k =>
    simp only [step] at h
    split at h
    · next b he hk =>
      cases h
      refine ⟨hs.mode, by simp, by simp, fun _ => by simp, hs.closed, hs.quiet, fun _ => by simp, ?_⟩
      intro hx
      have := hs.ended hx
      rw [he] at this
      rcases this with this | this <;> cases this
    · cases h
  | finish k res =>
    simp only [step] at h
    split at h
    · split at h
      · cases h; exact hs.congr rfl rfl rfl rfl rfl rfl
      · cases h
    · cases h
  | stopStep =>
    have hr : ∀ t : StopT, t ≠ .idle → s.stop ≠ .idle → (s.running = true ↔ t = .idle) := by
      intro t ht hst
      constructor
      · intro h; exact absurd (hs.mode.mp h) hst
      · intro h; exact absurd h ht
    simp only [step, stopStep] at h
    split at h
    · next ht =>
      cases h
      exact ⟨hr _ (by simp) (by rw [ht]; simp), hs.swap, hs.check, hs.on, by simp, by simp [StopT.late],
        by simp [StopT.later], by simp⟩
    · next ht =>
      split at h
      · next ha =>
        cases h
        refine ⟨hr _ (by simp) (by rw [ht]; simp), hs.swap, hs.check, hs.on, ?_, ?_,
          by simp [StopT.later], by simp⟩
        · intro hx
          rcases hs.closed hx with h | h <;> · rw [ht] at h; cases h
        · intro _ t hmem
          rw [List.all_eq_true] at ha
          exact beq_iff_eq.mp (ha t hmem)
      · cases h
    · next ht =>
      cases h
      refine ⟨hr _ (by simp) (by rw [ht]; simp), hs.swap, hs.check, hs.on, ?_,
        fun _ => hs.quiet (by rw [ht]; rfl), fun _ => hs.awake (by rw [ht]; rfl), by simp⟩
      intro hx
      rcases hs.closed hx with h | h <;> · rw [ht] at h; cases h
    · next ht =>
      split at h
      · next hx =>
        cases h
        simp only [Bool.or_eq_true, beq_iff_eq] at hx
        refine ⟨hr _ (by simp) (by rw [ht]; simp), hs.swap, hs.check, hs.on, ?_,
          fun _ => hs.quiet (by rw [ht]; rfl), fun _ => hs.awake (by rw [ht]; rfl), fun _ => hx⟩
        intro hx
        rcases hs.closed hx with h | h <;> · rw [ht] at h; cases h
      · cases h
    · next ht =>
      split at h
      · cases h
        refine ⟨hr _ (by simp) (by rw [ht]; simp), hs.swap, hs.check, hs.on, ?_,
          fun _ => hs.quiet (by rw [ht]; rfl), fun _ => hs.awake (by rw [ht]; rfl),
          fun _ => hs.ended (.inl ht)⟩
        intro hx
        rcases hs.closed hx with h | h <;> · rw [ht] at h; cases h
      · cases h
    · cases h
  | stopNotify w =>
    simp only [step] at h
    split at h
    · next ht =>
      have hq := hs.quiet (by rw [ht]; rfl)
      have hr : s.running = false := by
        cases hr : s.running with
        | false => rfl
        | true => have := hs.mode.mp hr; rw [ht] at this; cases this
      have hcl : s.serving = true → False := by
        intro hx
        rcases hs.closed hx with h | h <;> · rw [ht] at h; cases h
      rcases notifyOne_cases h with ⟨rfl, hn⟩ | ⟨he, rfl⟩ | ⟨i, c, hi, rfl⟩
      · refine ⟨by simp [hr], hs.swap, hs.check, hs.on, fun hx => (hcl hx).elim, fun _ => hq, ?_,
          by simp⟩
        intro _ he
        simp only [State.someone, Bool.or_eq_false_iff] at hn
        have := hn.1
        dsimp only at he
        rw [he] at this
        cases this
      · exact ⟨by simp [hr], by simp, by simp, fun _ => by simp, fun hx => (hcl hx).elim, fun _ => hq,
          fun _ => by simp, by simp⟩
      · have := hq _ (List.mem_of_getElem? hi)
        cases this
    · cases h
  | spurious w => exact hs.notifyOne (w := some w) h
  | stop =>
    simp only [step] at h
    split at h
    · next ht =>
      cases h
      have ht := beq_iff_eq.mp ht
      exact ⟨by simp, hs.swap, fun hc => .inr rfl, by simp, fun _ => .inr rfl, by simp [StopT.late],
        by simp [StopT.later], by simp⟩
    · cases h
  | start =>
    simp only [step] at h
    split at h
    · cases h
      exact ⟨by simp, by simp, by simp, fun _ => by simp, fun _ => .inl rfl, by simp [StopT.late],
        by simp [StopT.later], by simp⟩
    · cases h

theorem sync_batch {s : State} (hs : Sync s) (h : s.stop = .stopped) : s.exec.batch = .new := by
  rcases hs.ended (.inr h) with h | h <;> rw [h] <;> rfl

theorem reach {n : Nat} {es : List Event} {s s' : State} (hb : Book s) (hs : Sync s)
    (hr : run n s es = some s') : Book s' ∧ Sync s' := by
  induction es generalizing s with
  | nil => simp only [run, Option.some.injEq] at hr; rw [← hr]; exact ⟨hb, hs⟩
  | cons e es ih =>
    simp only [run, Option.bind_eq_some_iff] at hr
    obtain ⟨t, ht, hr⟩ := hr
    exact ih (book_step hb (sync_batch hs) ht) (sync_step hs ht) hr

/-! ### One calling thread -/

/-- With one calling thread nobody sleeps over work while the coordinator runs, unless a notification is
under way. -/
structure One (n : Nat) (s : State) : Prop where
  one : s.threads.length ≤ 1
  exec : s.running = true → s.exec = .asleep → s.cur.calls = [] ∨ CallT.notify ∈ s.threads
  call : s.running = true → ∀ c, CallT.asleep c ∈ s.threads →
    n ≤ s.cur.calls.length ∨ ∃ b, s.exec = .notify b

theorem one_thread {l : List CallT} {i : Nat} {a b : CallT} (hl : l.length ≤ 1) (hi : l[i]? = some a)
    (hm : b ∈ l) : b = a := by
  match l, i with
  | [], _ => cases hm
  | [x], 0 =>
    simp only [List.getElem?_cons_zero, Option.some.injEq] at hi
    simp only [List.mem_singleton] at hm
    rw [hm, hi]
  | [x], i + 1 => simp at hi
  | x :: y :: l, _ => simp at hl

theorem one_set {l : List CallT} {i : Nat} {a b c : CallT} (hl : l.length ≤ 1) (hi : l[i]? = some a)
    (hm : c ∈ l.set i b) : c = b := by
  have h1 : (l.set i b)[i]? = some b := by
    rw [List.getElem?_set_self (List.getElem?_eq_some_iff.mp hi).1]
  exact one_thread (by simpa using hl) h1 hm

theorem mem_set_self {l : List CallT} {i : Nat} {a b : CallT} (hi : l[i]? = some a) : b ∈ l.set i b :=
  List.mem_of_getElem? (i := i) (List.getElem?_set_self (List.getElem?_eq_some_iff.mp hi).1)

theorem someone_false {s : State} (h : s.someone = false) :
    s.exec ≠ .asleep ∧ ∀ c, CallT.asleep c ∉ s.threads := by
  simp only [State.someone, Bool.or_eq_false_iff, List.any_eq_false] at h
  refine ⟨fun he => ?_, fun c hc => ?_⟩
  · have := h.1
    rw [he] at this
    cases this
  · exact h.2 _ hc rfl

theorem One.spurious {n : Nat} {s : State} {w : Who} (ho : One n s) (h : s.sleeps w = true) :
    One n (s.wake w) := by
  rcases wake_cases h with ⟨-, he, h2⟩ | ⟨i, c, -, hi, h2⟩
  · rw [h2]
    refine ⟨ho.one, by simp, ?_⟩
    intro hr c hc
    refine (ho.call hr c hc).imp_right ?_
    rintro ⟨b, hb⟩
    rw [he] at hb
    cases hb
  · rw [h2]
    refine ⟨by simpa using ho.one, ?_, ?_⟩
    · intro hr he
      refine (ho.exec hr he).imp_right fun hn => ?_
      have := one_thread ho.one hi hn
      cases this
    · intro hr c' hc'
      have := one_set ho.one hi hc'
      cases this

theorem one_step {n : Nat} {s s' : State} {e : Event} (ho : One n s) (hs : Sync s)
    (h : step n s e = some s') : One n s' := by
  cases e with
  | call i tx =>
    simp only [step] at h
    split at h
    · next hc =>
      cases h
      simp only [Bool.and_eq_true, beq_iff_eq] at hc
      refine ⟨by simpa using ho.one, ?_, ?_⟩
      · intro hr he
        refine (ho.exec hr he).imp_right fun hn => ?_
        have := one_thread ho.one hc.2 hn
        cases this
      · intro hr c hc'
        have := one_set ho.one hc.2 hc'
        cases this
    · cases h
  | caller i =>
    simp only [step, callerStep] at h
    split at h
    · next c hi =>
      have hx : s.running = true → s.exec = .asleep → s.cur.calls = [] := by
        intro hr he
        refine (ho.exec hr he).resolve_right fun hn => ?_
        have := one_thread ho.one hi hn
        cases this
      split at h
      · next hf =>
        simp only [Bool.and_eq_true, decide_eq_true_eq] at hf
        cases h
        exact ⟨by simpa using ho.one, fun hr he => .inl (hx hr he), fun _ _ _ => .inl hf.2⟩
      · have hidle : ∀ rs, One n { s with threads := s.threads.set i .idle, refused := rs } := by
          intro rs
          refine ⟨by simpa using ho.one, fun hr he => .inl (hx hr he), ?_⟩
          intro hr c' hc'
          have := one_set ho.one hi hc'
          cases this
        split at h
        · cases h; exact hidle _
        · split at h
          · cases h; exact hidle _
          · cases h
            refine ⟨by simpa using ho.one, fun _ _ => .inr (mem_set_self hi), ?_⟩
            intro hr c' hc'
            have := one_set ho.one hi hc'
            cases this
    · cases h
  | callerNotify i w =>
    simp only [step] at h
    split at h
    · next hi =>
      have hi := beq_iff_eq.mp hi
      have hno : ∀ c, CallT.asleep c ∉ s.threads.set i .idle := by
        intro c hc
        have := one_set ho.one hi hc
        cases this
      rcases notifyOne_cases h with ⟨rfl, hn⟩ | ⟨he, rfl⟩ | ⟨j, c, hj, -⟩
      · have := (someone_false hn).1
        exact ⟨by simpa using ho.one, fun _ he => absurd he this, fun _ c hc => absurd hc (hno c)⟩
      · exact ⟨by simpa using ho.one, by simp, fun _ c hc => absurd hc (hno c)⟩
      · exact absurd (List.mem_of_getElem? hj) (hno c)
    · cases h
  | exec =>
    simp only [step, execStep] at h
    split at h
    · next he =>
      cases h
      refine ⟨ho.one, ?_, ?_⟩
      · dsimp only; split <;> simp
      · intro hr c hc
        refine .inl ((ho.call hr c hc).resolve_right ?_)
        rintro ⟨b, hb⟩
        rw [he] at hb
        cases hb
    · next he =>
      cases h
      refine ⟨ho.one, ?_, ?_⟩
      · intro hr
        dsimp only
        split
        · simp
        · next hc =>
          intro _
          simp only [Bool.or_eq_true, not_or, Bool.not_eq_true', Bool.not_eq_false,
            List.isEmpty_iff] at hc
          exact .inl hc.1
      · intro hr c hc
        refine .inl ((ho.call hr c hc).resolve_right ?_)
        rintro ⟨b, hb⟩
        rw [he] at hb
        cases hb
    · next he =>
      cases h
      refine ⟨ho.one, ?_, ?_⟩
      · dsimp only; split <;> simp
      · intro hr c hc
        refine .inl ((ho.call hr c hc).resolve_right ?_)
        rintro ⟨b, hb⟩
        rw [he] at hb
        cases hb
    · cases h
      exact ⟨ho.one, by simp, fun _ _ _ => .inr ⟨_, rfl⟩⟩
    · cases h
  | execNotify w =>
    simp only [step] at h
    split at h
    · next b he =>
      rcases notifyOne_cases h with ⟨rfl, hn⟩ | ⟨he', -⟩ | ⟨j, c, hj, rfl⟩
      · exact ⟨ho.one, by simp, fun _ c hc => absurd hc ((someone_false hn).2 c)⟩
      · cases he'
      · refine ⟨by simpa using ho.one, by simp, ?_⟩
        intro _ c' hc'
        have := one_set ho.one hj hc'
        cases this
    · cases h
  | schedule k =>
    simp only [step] at h
    split at h
    · next b he hk =>
      cases h
      refine ⟨ho.one, by simp, ?_⟩
      intro hr c hc
      refine .inl ((ho.call hr c hc).resolve_right ?_)
      rintro ⟨b, hb⟩
      rw [he] at hb
      cases hb
    · cases h
  | finish k res =>
    simp only [step] at h
    split at h
    · split at h
      · cases h; exact ⟨ho.one, ho.exec, ho.call⟩
      · cases h
    · cases h
  | stopStep =>
    simp only [step, stopStep] at h
    split at h
    · cases h; exact ⟨ho.one, ho.exec, ho.call⟩
    · split at h
      · cases h; exact ⟨ho.one, ho.exec, ho.call⟩
      · cases h
    · cases h; exact ⟨ho.one, ho.exec, ho.call⟩
    · split at h
      · cases h; exact ⟨ho.one, ho.exec, ho.call⟩
      · cases h
    · split at h
      · cases h; exact ⟨ho.one, ho.exec, ho.call⟩
      · cases h
    · cases h
  | stopNotify w =>
    simp only [step] at h
    split at h
    · next ht =>
      have hr : ¬ s.running = true := fun hr => by
        have := hs.mode.mp hr; rw [ht] at this; cases this
      rcases notifyOne_cases h with ⟨rfl, hn⟩ | ⟨he, rfl⟩ | ⟨i, c, hi, rfl⟩
      · exact ⟨ho.one, ho.exec, ho.call⟩
      · exact ⟨ho.one, by simp, fun h => absurd h hr⟩
      · exact ⟨by simpa using ho.one, fun h => absurd h hr, fun h => absurd h hr⟩
    · cases h
  | spurious w =>
    simp only [step] at h
    split at h
    · next hw => cases h; exact ho.spurious hw
    · cases h
  | stop =>
    simp only [step] at h
    split at h
    · cases h; exact ⟨ho.one, by simp, by simp⟩
    · cases h
  | start =>
    simp only [step] at h
    split at h
    · next ht =>
      cases h
      have hq := hs.quiet (by rw [beq_iff_eq.mp ht]; rfl)
      refine ⟨ho.one, by simp, ?_⟩
      intro _ c hc
      have := hq _ hc
      cases this
    · cases h

theorem one_run {n : Nat} {es : List Event} {s s' : State} (ho : One n s) (hs : Sync s)
    (hr : run n s es = some s') : One n s' := by
  induction es generalizing s with
  | nil => simp only [run, Option.some.injEq] at hr; rw [← hr]; exact ho
  | cons e es ih =>
    simp only [run, Option.bind_eq_some_iff] at hr
    obtain ⟨t, ht, hr⟩ := hr
    exact ih (one_step ho hs ht) (sync_step hs ht) hr

theorem one_init (n k : Nat) : One n (.init 1 k) :=
  ⟨by simp [State.init], by simp [State.init], by simp [State.init]⟩

end Verif.Coordinator.Threads
