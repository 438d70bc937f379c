import Verif.Coordinator.ThreadsInv

/-!
# C94, C95: the coordinator answers what it accepts, and stops
-/
namespace Verif.Coordinator.Threads

/-! ### C94: answers -/

/-- **C94.** Whatever the threads do, how often leadership is lost and won and what batches come to:
every call returns once, with true or false; a callback is called at most once, only for a call that
returned true, and is told what the batch did with the transaction of its own call. -/
theorem C94_answers {n m k : Nat} {es : List Event} {s : State} (hr : run n (.init m k) es = some s) :
    ((s.accepted ++ s.refused).map (·.num)).Nodup ∧
    (s.answered.map (·.1)).Nodup ∧
    ∀ c r, (c, r) ∈ s.answered → c ∈ s.accepted ∧ c ∉ s.dropped ∧ Told s.outcomes c r := by
  obtain ⟨hb, -⟩ := reach (book_init m k) (sync_init m k) hr
  have hone : ∀ i, ((s.accepted ++ s.refused).map (·.num)).count i ≤ 1 := by
    intro i
    have := hb.once i
    rw [List.map_append, List.count_append]
    split at this <;> omega
  have hacc : ∀ c, s.accepted.count c ≤ 1 := by
    intro c
    have h1 : s.accepted.count c ≤ (s.accepted.map (·.num)).count c.num :=
      List.count_le_count_map (f := (·.num)) (x := c)
    have h2 := hone c.num
    rw [List.map_append, List.count_append] at h2
    omega
  refine ⟨List.nodup_iff_count.mpr hone, ?_, ?_⟩
  · refine List.nodup_iff_count.mpr fun c => ?_
    have := hb.place c
    have := hacc c
    omega
  · intro c r hc
    have h1 := hb.place c
    have h2 := hacc c
    have h3 : 0 < (s.answered.map (·.1)).count c :=
      List.count_pos_iff.mpr (List.mem_map.mpr ⟨_, hc, rfl⟩)
    refine ⟨List.count_pos_iff.mp (by omega), fun hd => ?_, hb.told _ hc⟩
    have := List.count_pos_iff.mpr hd
    omega

/-! ### C94: nobody waits for ever -/

/-- The steps of the coordinator itself: not a new call, nor winning or losing leadership, nor a
spurious wake-up. -/
def Event.own : Event → Bool
  | .call .. | .spurious .. | .stop | .start => false
  | _ => true

/-- What a calling thread has still to do at most. -/
def CallT.work : CallT → Nat
  | .idle => 0
  | .enter _ => 16
  | .asleep _ => 15
  | .notify => 5

/-- What the executor thread has still to do at most. -/
def ExecT.work : ExecT → Nat
  | .off | .exited | .asleep => 0
  | .top => 4
  | .wait => 3
  | .check => 2
  | .swap => 1
  | .notify _ => 9
  | .schedule _ => 6

/-- What the start/stop thread has still to do at most. -/
def StopT.work : StopT → Nat
  | .idle | .stopped => 0
  | .close => 14
  | .join => 13
  | .notify => 12
  | .shards => 5
  | .joinExec => 4
  | .joinSlots => 3

/-- A bound on the steps that the coordinator can still take by itself. -/
def State.work (s : State) : Nat :=
  (s.threads.map CallT.work).sum + s.exec.work + (if s.cur.calls.isEmpty then 0 else 9) +
    (s.slots.map fun o => if o.isSome then 1 else 0).sum + s.stop.work

theorem notifyOne_work {s s' : State} {w : Option Who} (h : s.notifyOne w = some s') :
    s'.work ≤ s.work + 3 ∧ (s.exec ≠ .asleep → s'.work ≤ s.work + 1) := by
  rcases notifyOne_cases h with ⟨rfl, -⟩ | ⟨he, rfl⟩ | ⟨i, c, hi, rfl⟩
  · exact ⟨Nat.le_add_right _ _, fun _ => Nat.le_add_right _ _⟩
  · refine ⟨?_, fun hn => absurd he hn⟩
    simp only [State.work, he, ExecT.work]
    omega
  · have h' : ({ s with threads := s.threads.set i (.enter c) } : State).work ≤ s.work + 1 := by
      simp only [State.work]
      have := sum_set CallT.work s.threads i _ (.enter c) hi
      have e1 : (CallT.asleep c).work = 15 := rfl
      have e2 : (CallT.enter c).work = 16 := rfl
      omega
    exact ⟨by omega, fun _ => h'⟩

theorem set_work (s : State) (i : Nat) (a b : CallT) (h : s.threads[i]? = some a) :
    ({ s with threads := s.threads.set i b } : State).work + a.work = s.work + b.work := by
  simp only [State.work]
  have := sum_set CallT.work s.threads i a b h
  omega

/-- Every step of the coordinator itself leaves less to do. -/
theorem own_work {n : Nat} {s s' : State} {e : Event} (hs : Sync s) (he : e.own = true)
    (h : step n s e = some s') : s'.work < s.work := by
  cases e with
  | call i tx => cases he
  | spurious w => cases he
  | stop => cases he
  | start => cases he
  | caller i =>
    simp only [step, callerStep] at h
    split at h
    · next c hi =>
      have e0 : (CallT.enter c).work = 16 := rfl
      have e1 : (CallT.asleep c).work = 15 := rfl
      have e2 : CallT.idle.work = 0 := rfl
      have e3 : CallT.notify.work = 5 := rfl
      split at h
      · cases h
        have := set_work s i _ (.asleep c) hi
        omega
      · have h2 := set_work s i _ .idle hi
        have hid : ∀ rs, ({ s with threads := s.threads.set i .idle, refused := rs } : State).work =
            ({ s with threads := s.threads.set i .idle } : State).work := fun _ => rfl
        split at h
        · cases h; rw [hid]; omega
        · split at h
          · cases h; rw [hid]; omega
          · cases h
            have := sum_set CallT.work s.threads i _ .notify hi
            simp only [State.work]
            have hle : (if (s.cur.calls ++ [(c, s.cur.txs.length)]).isEmpty then 0 else 9) ≤ 9 := by
              split <;> omega
            omega
    · cases h
  | callerNotify i w =>
    simp only [step] at h
    split at h
    · next hi =>
      have h1 := (notifyOne_work h).1
      have h2 := set_work s i _ .idle (beq_iff_eq.mp hi)
      have e2 : CallT.idle.work = 0 := rfl
      have e3 : CallT.notify.work = 5 := rfl
      omega
    · cases h
  | exec =>
    simp only [step, execStep] at h
    split at h
    · next he =>
      cases h
      simp only [State.work, he]
      split <;> simp only [ExecT.work] <;> omega
    · next he =>
      cases h
      simp only [State.work, he]
      split <;> simp only [ExecT.work] <;> omega
    · next he =>
      cases h
      simp only [State.work, he]
      split <;> simp only [ExecT.work] <;> omega
    · next he =>
      cases h
      have hc := hs.swap he
      simp only [State.work, he, ExecT.work, Batch.new, List.isEmpty_nil, if_true]
      rw [if_neg (by simpa using hc)]
      omega
    · cases h
  | execNotify w =>
    simp only [step] at h
    split at h
    · next b he =>
      have h1 := (notifyOne_work h).2 (by simp)
      have h2 : ({ s with exec := .schedule b } : State).work + 3 = s.work := by
        simp only [State.work, he, ExecT.work]
        omega
      omega
    · cases h
  | schedule k =>
    simp only [step] at h
    split at h
    · next b he hk =>
      cases h
      have := sum_set (fun o : Option Batch => if o.isSome then 1 else 0) s.slots k none (some b) hk
      simp only [State.work, he, ExecT.work]
      simp only [Option.isSome_none, Option.isSome_some, if_true, Bool.false_eq_true, if_false] at this
      omega
    · cases h
  | finish k res =>
    simp only [step] at h
    split at h
    · next b hk =>
      split at h
      · cases h
        have := sum_set (fun o : Option Batch => if o.isSome then 1 else 0) s.slots k (some b) none hk
        simp only [State.work]
        simp only [Option.isSome_none, Option.isSome_some, if_true, Bool.false_eq_true, if_false] at this
        omega
      · cases h
    · cases h
  | stopStep =>
    simp only [step, stopStep] at h
    split at h
    · next ht => cases h; simp only [State.work, ht, StopT.work]; omega
    · next ht =>
      split at h
      · cases h; simp only [State.work, ht, StopT.work]; omega
      · cases h
    · next ht => cases h; simp only [State.work, ht, StopT.work]; omega
    · next ht =>
      split at h
      · cases h; simp only [State.work, ht, StopT.work]; omega
      · cases h
    · next ht =>
      split at h
      · cases h; simp only [State.work, ht, StopT.work]; omega
      · cases h
    · cases h
  | stopNotify w =>
    simp only [step] at h
    split at h
    · next ht =>
      have h1 := (notifyOne_work h).1
      have h2 : ({ s with stop := .shards } : State).work + 7 = s.work := by
        simp only [State.work, ht, StopT.work]
      omega
    · cases h

/-- Nothing is left that the coordinator could do by itself. -/
def Still (n : Nat) (s : State) : Prop := ∀ e : Event, e.own = true → step n s e = none

theorem own_run {n : Nat} {fs : List Event} {s t : State} (hs : Sync s)
    (hf : ∀ e ∈ fs, e.own = true) (hr : run n s fs = some t) : fs.length + t.work ≤ s.work := by
  induction fs generalizing s with
  | nil => simp only [run, Option.some.injEq] at hr; subst hr; simp
  | cons e fs ih =>
    simp only [run, Option.bind_eq_some_iff] at hr
    obtain ⟨u, hu, hr⟩ := hr
    have h1 := own_work hs (hf e (by simp)) hu
    have h2 := ih (sync_step hs hu) (fun x hx => hf x (by simp [hx])) hr
    simp only [List.length_cons]
    omega

/-- What the steps of the coordinator itself leave alone. -/
theorem own_keeps {n : Nat} {s s' : State} {e : Event} (he : e.own = true) (h : step n s e = some s') :
    s'.running = s.running ∧ s'.dropped = s.dropped ∧
      s'.slots.length = s.slots.length ∧
      ((∀ c, CallT.asleep c ∉ s.threads) → s.running = false → ∀ c, CallT.asleep c ∉ s'.threads) := by
  have hset : ∀ (i : Nat) (b : CallT), (∀ c, b ≠ .asleep c) → (∀ c, CallT.asleep c ∉ s.threads) →
      ∀ c, CallT.asleep c ∉ s.threads.set i b := by
    intro i b hb hn c hc
    rcases List.mem_or_eq_of_mem_set hc with h | h
    · exact hn c h
    · exact hb c h.symm
  have hnot : ∀ {u u' : State} {w : Option Who}, u.notifyOne w = some u' →
      u'.running = u.running ∧ u'.dropped = u.dropped ∧ u'.slots = u.slots ∧
      ((∀ c, CallT.asleep c ∉ u.threads) → ∀ c, CallT.asleep c ∉ u'.threads) := by
    intro u u' w h
    rcases notifyOne_cases h with ⟨rfl, -⟩ | ⟨-, rfl⟩ | ⟨i, c, hi, rfl⟩
    · exact ⟨rfl, rfl, rfl, fun h => h⟩
    · exact ⟨rfl, rfl, rfl, fun h => h⟩
    · exact ⟨rfl, rfl, rfl, fun h => absurd (List.mem_of_getElem? hi) (h c)⟩
  cases e with
  | call i tx => cases he
  | spurious w => cases he
  | stop => cases he
  | start => cases he
  | caller i =>
    simp only [step, callerStep] at h
    split at h
    · split at h
      · next hf =>
        cases h
        refine ⟨rfl, rfl, rfl, fun _ hr => ?_⟩
        simp [hr] at hf
      · split at h
        · cases h; exact ⟨rfl, rfl, rfl, fun h _ => hset _ _ (by simp) h⟩
        · split at h
          · cases h; exact ⟨rfl, rfl, rfl, fun h _ => hset _ _ (by simp) h⟩
          · cases h; exact ⟨rfl, rfl, rfl, fun h _ => hset _ _ (by simp) h⟩
    · cases h
  | callerNotify i w =>
    simp only [step] at h
    split at h
    · obtain ⟨h1, h2, h3, h4⟩ := hnot h
      exact ⟨h1, h2, by rw [h3], fun h _ => h4 (hset _ _ (by simp) h)⟩
    · cases h
  | exec =>
    simp only [step, execStep] at h
    split at h
    · cases h; exact ⟨rfl, rfl, rfl, fun h _ => h⟩
    · cases h; exact ⟨rfl, rfl, rfl, fun h _ => h⟩
    · cases h; exact ⟨rfl, rfl, rfl, fun h _ => h⟩
    · cases h; exact ⟨rfl, rfl, rfl, fun h _ => h⟩
    · cases h
  | execNotify w =>
    simp only [step] at h
    split at h
    · obtain ⟨h1, h2, h3, h4⟩ := hnot h
      exact ⟨h1, h2, by rw [h3], fun h _ => h4 h⟩
    · cases h
  | schedule k =>
    simp only [step] at h
    split at h
    · cases h; exact ⟨rfl, rfl, by simp, fun h _ => h⟩
    · cases h
  | finish k res =>
    simp only [step] at h
    split at h
    · split at h
      · cases h; exact ⟨rfl, rfl, by simp, fun h _ => h⟩
      · cases h
    · cases h
  | stopStep =>
    simp only [step, stopStep] at h
    split at h
    · cases h; exact ⟨rfl, rfl, rfl, fun h _ => h⟩
    · split at h
      · cases h; exact ⟨rfl, rfl, rfl, fun h _ => h⟩
      · cases h
    · cases h; exact ⟨rfl, rfl, rfl, fun h _ => h⟩
    · split at h
      · cases h; exact ⟨rfl, rfl, rfl, fun h _ => h⟩
      · cases h
    · split at h
      · cases h; exact ⟨rfl, rfl, rfl, fun h _ => h⟩
      · cases h
    · cases h
  | stopNotify w =>
    simp only [step] at h
    split at h
    · obtain ⟨h1, h2, h3, h4⟩ := hnot h
      exact ⟨h1, h2, by rw [h3], fun h _ => h4 h⟩
    · cases h

theorem own_keeps_run {n : Nat} {fs : List Event} {s t : State} (hf : ∀ e ∈ fs, e.own = true)
    (hr : run n s fs = some t) : t.running = s.running ∧ t.dropped = s.dropped ∧
      t.slots.length = s.slots.length ∧
      ((∀ c, CallT.asleep c ∉ s.threads) → s.running = false → ∀ c, CallT.asleep c ∉ t.threads) := by
  induction fs generalizing s with
  | nil => simp only [run, Option.some.injEq] at hr; subst hr; exact ⟨rfl, rfl, rfl, fun h _ => h⟩
  | cons e fs ih =>
    simp only [run, Option.bind_eq_some_iff] at hr
    obtain ⟨u, hu, hr⟩ := hr
    obtain ⟨a1, a2, a3, a4⟩ := own_keeps (hf e (by simp)) hu
    obtain ⟨b1, b2, b3, b4⟩ := ih (fun x hx => hf x (by simp [hx])) hr
    exact ⟨b1.trans a1, b2.trans a2, b3.trans a3, fun h hr => b4 (a4 h hr) (a1.trans hr)⟩

theorem slots_length {n m k : Nat} {es : List Event} {s : State} (hr : run n (.init m k) es = some s) :
    s.slots.length = k := by
  have : ∀ (fs : List Event) (s t : State), run n s fs = some t → t.slots.length = s.slots.length := by
    intro fs
    induction fs with
    | nil => intro s t h; simp only [run, Option.some.injEq] at h; rw [h]
    | cons e fs ih =>
      intro s t h
      simp only [run, Option.bind_eq_some_iff] at h
      obtain ⟨u, hu, h⟩ := h
      rw [ih u t h]
      cases ho : e.own with
      | true => exact (own_keeps ho hu).2.2.1
      | false =>
        cases e with
        | call i tx =>
          simp only [step] at hu
          split at hu <;> cases hu
          rfl
        | spurious w =>
          have hu : s.notifyOne (some w) = some u := hu
          rcases notifyOne_cases hu with ⟨rfl, -⟩ | ⟨-, rfl⟩ | ⟨i, c, -, rfl⟩ <;> rfl
        | stop =>
          simp only [step] at hu
          split at hu <;> cases hu
          rfl
        | start =>
          simp only [step] at hu
          split at hu <;> cases hu
          rfl
        | _ => cases ho
  rw [this es _ s hr]
  simp [State.init]

theorem still_threads {n : Nat} {s : State} (hq : Still n s) {t : CallT} (ht : t ∈ s.threads) :
    t = .idle ∨ ∃ c, t = .asleep c := by
  obtain ⟨i, hi⟩ := List.mem_iff_getElem?.mp ht
  cases t with
  | idle => exact .inl rfl
  | asleep c => exact .inr ⟨c, rfl⟩
  | enter c =>
    have := hq (.caller i) rfl
    simp only [step, callerStep, hi] at this
    split at this
    · cases this
    · split at this
      · cases this
      · split at this <;> cases this
  | notify =>
    obtain ⟨w, s', hw⟩ := notifyOne_enabled { s with threads := s.threads.set i .idle }
    have := hq (.callerNotify i w) rfl
    simp only [step, hi, beq_self_eq_true, if_true] at this
    rw [hw] at this
    cases this

theorem still_slots {n : Nat} {s : State} (hq : Still n s) : ∀ o ∈ s.slots, o = none := by
  intro o ho
  cases o with
  | none => rfl
  | some b =>
    obtain ⟨i, hi⟩ := List.mem_iff_getElem?.mp ho
    have := hq (.finish i none) rfl
    simp [step, hi] at this

theorem still_exec {n : Nat} {s : State} (hq : Still n s) (hk : 0 < s.slots.length) :
    s.exec = .asleep ∨ s.exec = .off ∨ s.exec = .exited := by
  have hn := still_slots hq
  cases he : s.exec with
  | asleep => exact .inl rfl
  | off => exact .inr (.inl rfl)
  | exited => exact .inr (.inr rfl)
  | top => have := hq .exec rfl; simp [step, execStep, he] at this
  | wait => have := hq .exec rfl; simp [step, execStep, he] at this
  | check => have := hq .exec rfl; simp [step, execStep, he] at this
  | swap => have := hq .exec rfl; simp [step, execStep, he] at this
  | notify b =>
    obtain ⟨w, s', hw⟩ := notifyOne_enabled { s with exec := .schedule b }
    have := hq (.execNotify w) rfl
    simp only [step, he] at this
    rw [hw] at this
    cases this
  | schedule b =>
    have h0 : s.slots[0]? = some none := by
      rw [List.getElem?_eq_getElem hk, hn _ (List.getElem_mem hk)]
    have := hq (.schedule 0) rfl
    simp [step, he, h0] at this

/-- **C94, partial.** One calling thread, as the RPC server has it, and at least one execution thread and place in a batch:
while the node stays leader, the coordinator comes to rest after a bounded number of steps of its
own, in whatever order its threads run; when it has, every transaction accepted since it became leader has been
answered, and the calling thread is not kept waiting.  Missing: more calling threads,
`C94_two_threads_violated`, and what is accepted but not in a running batch when leadership is lost,
`C94_dropped_violated`. -/
theorem C94_answered_partial {n k : Nat} {es : List Event} {s : State} (hn : 0 < n) (hk : 0 < k)
    (hr : run n (.init 1 k) es = some s) (hrun : s.running = true) {fs : List Event} {t : State}
    (hf : ∀ e ∈ fs, e.own = true) (ht : run n s fs = some t) :
    fs.length ≤ s.work ∧
    (Still n t → (∀ c ∈ t.accepted, (∃ r, (c, r) ∈ t.answered) ∨ c ∈ s.dropped) ∧
      ∀ x ∈ t.threads, x = .idle) := by
  obtain ⟨hb, hs⟩ := reach (book_init 1 k) (sync_init 1 k) hr
  have ho := one_run (one_init n k) (sync_init 1 k) hr
  refine ⟨by have := own_run hs hf ht; omega, fun hq => ?_⟩
  obtain ⟨hb', hs'⟩ := reach hb hs ht
  have ho' := one_run ho hs ht
  obtain ⟨h1, h2, h3, -⟩ := own_keeps_run hf ht
  have hrun' := h1.trans hrun
  have hl : 0 < t.slots.length := by rw [h3, slots_length hr]; exact hk
  have hnn : CallT.notify ∉ t.threads := by
    intro hm
    rcases still_threads hq hm with h | ⟨c, h⟩ <;> cases h
  have hex : t.exec = .asleep := by
    rcases still_exec hq hl with h | h | h
    · exact h
    · exact absurd h (hs'.on hrun').1
    · exact absurd h (hs'.on hrun').2
  have hcur : t.cur.calls = [] := (ho'.exec hrun' hex).resolve_right hnn
  refine ⟨?_, ?_⟩
  · intro c hc
    have hp := hb'.place c
    have h4 : (t.slots.map (fun o => (o.getD .new).has c)).sum = 0 := by
      have : ∀ l : List (Option Batch), (∀ o ∈ l, o = none) →
          (l.map (fun o => (o.getD .new).has c)).sum = 0 := by
        intro l
        induction l with
        | nil => intro _; rfl
        | cons o l ih =>
          intro h
          rw [List.map_cons, List.sum_cons, ih fun x hx => h x (by simp [hx]), h o (by simp),
            Option.getD_none, Batch.new_has]
      exact this _ (still_slots hq)
    have h5 : t.cur.has c = 0 := by simp [Batch.has, hcur]
    have h6 : t.exec.batch.has c = 0 := by rw [hex]; exact Batch.new_has c
    have h7 := List.count_pos_iff.mpr hc
    rw [h4, h5, h6, h2] at hp
    by_cases hd : c ∈ s.dropped
    · exact .inr hd
    · left
      rw [List.count_eq_zero_of_not_mem hd] at hp
      have : 0 < (t.answered.map (·.1)).count c := by omega
      obtain ⟨q, hq, rfl⟩ := List.mem_map.mp (List.count_pos_iff.mp this)
      exact ⟨q.2, hq⟩
  · intro x hx
    rcases still_threads hq hx with h | ⟨c, rfl⟩
    · exact h
    · rcases ho'.call hrun' c hx with h | ⟨b, h⟩
      · rw [hcur] at h
        exact absurd h (by simp; omega)
      · rw [hex] at h; cases h

/-- Nobody will wake the executor thread: the batch is full, and those who could are waiting for room in it. -/
structure Stuck (n : Nat) (s : State) : Prop where
  exec : s.exec = .asleep
  full : n ≤ s.cur.calls.length
  running : s.running = true
  slots : ∀ o ∈ s.slots, o = none
  threads : CallT.notify ∉ s.threads
  stop : s.stop = .idle

theorem stuck_step {n : Nat} {s s' : State} {e : Event} (hk : Stuck n s) (hw : ∀ w, e ≠ .spurious w)
    (hs : e ≠ .stop) (h : step n s e = some s') : Stuck n s' ∧ s'.answered = s.answered := by
  have hset : ∀ (i : Nat) (b : CallT), b ≠ .notify → CallT.notify ∉ s.threads.set i b := by
    intro i b hb hm
    rcases List.mem_or_eq_of_mem_set hm with h | h
    · exact hk.threads h
    · exact hb h.symm
  cases e with
  | spurious w => exact absurd rfl (hw w)
  | stop => exact absurd rfl hs
  | start => simp [step, hk.stop] at h
  | call i tx =>
    simp only [step] at h
    split at h <;> cases h
    exact ⟨⟨hk.exec, hk.full, hk.running, hk.slots, hset i _ (by simp), hk.stop⟩, rfl⟩
  | caller i =>
    simp only [step, callerStep] at h
    split at h
    · rw [if_pos (by simp [hk.running, hk.full])] at h
      cases h
      exact ⟨⟨hk.exec, hk.full, hk.running, hk.slots, hset i _ (by simp), hk.stop⟩, rfl⟩
    · cases h
  | callerNotify i w =>
    simp only [step] at h
    split at h
    · next hi => exact absurd (List.mem_of_getElem? (beq_iff_eq.mp hi)) hk.threads
    · cases h
  | exec => simp [step, execStep, hk.exec] at h
  | execNotify w => simp [step, hk.exec] at h
  | schedule j => simp [step, hk.exec] at h
  | finish j res =>
    simp only [step] at h
    split at h
    · next b hj => have := hk.slots _ (List.mem_of_getElem? hj); cases this
    · cases h
  | stopStep => simp [step, stopStep, hk.stop] at h
  | stopNotify w => simp [step, hk.stop] at h

/-- **C94 needs one calling thread.** If `execute_transaction` is called from two threads, the coordinator can get
stuck for good: one condition variable serves both those who wait for room and the executor thread, and
`notify_one` may wake the wrong one. Whatever calls come then, the accepted transaction is not answered, unless a
spurious wake-up happens or the node stops being leader. -/
theorem C94_two_threads_violated : ∃ (es : List Event) (s : State) (c : Call),
    run 1 (.init 2 1) es = some s ∧ c ∈ s.accepted ∧ s.running = true ∧
    ∀ (fs : List Event) (t : State), (∀ e ∈ fs, e ≠ .stop ∧ ∀ w, e ≠ .spurious w) →
      run 1 s fs = some t → ∀ r, (c, r) ∉ t.answered := by
  refine ⟨[.start, .exec, .exec, .call 0 7, .call 1 8, .caller 0, .caller 1,
      .callerNotify 0 (some (.caller 1)), .caller 1],
    ⟨true, true, ⟨[7], [(⟨0, 7⟩, 0)]⟩, [.idle, .asleep ⟨1, 8⟩], .asleep, [none], .idle, 2, [⟨0, 7⟩], [], [],
      [], []⟩, ⟨0, 7⟩, by decide +kernel, by simp, rfl, ?_⟩
  intro fs t hf hr r
  have key : ∀ (fs : List Event) (s t : State), Stuck 1 s →
      (∀ e ∈ fs, e ≠ .stop ∧ ∀ w, e ≠ .spurious w) → run 1 s fs = some t → t.answered = s.answered := by
    intro fs
    induction fs with
    | nil => intro s t _ _ h; simp only [run, Option.some.injEq] at h; rw [h]
    | cons e fs ih =>
      intro s t hk hf h
      simp only [run, Option.bind_eq_some_iff] at h
      obtain ⟨u, hu, h⟩ := h
      obtain ⟨h1, h2⟩ := stuck_step hk (hf e (by simp)).2 (hf e (by simp)).1 hu
      rw [ih u t h1 (fun x hx => hf x (by simp [hx])) h, h2]
  rw [key fs _ t ⟨rfl, by simp, rfl, by simp, by simp, rfl⟩ hf hr]
  simp

/-- **C94 does not hold when leadership is lost.** A transaction that was accepted but is not in a running batch when
the node stops being leader is thrown away at the next start: its callback is never called,
whatever happens afterwards. -/
theorem C94_dropped_violated : ∃ (es : List Event) (s : State) (c : Call),
    run 10 (.init 1 1) es = some s ∧ c ∈ s.accepted ∧
    ∀ (fs : List Event) (t : State), run 10 s fs = some t → ∀ r, (c, r) ∉ t.answered := by
  have hrun : run 10 (.init 1 1) [.start, .call 0 7, .caller 0, .callerNotify 0 none, .stop, .stopStep,
      .stopStep, .stopNotify none, .stopStep, .exec, .stopStep, .stopStep, .start] =
      some ⟨true, true, .new, [.idle], .top, [none], .idle, 1, [⟨0, 7⟩], [], [], [⟨0, 7⟩], []⟩ := by
    decide +kernel
  refine ⟨_, _, ⟨0, 7⟩, hrun, by simp, ?_⟩
  intro fs t hr r hc
  have hd : ∀ (fs : List Event) (s t : State), run 10 s fs = some t → ∀ c ∈ s.dropped, c ∈ t.dropped := by
    intro fs
    induction fs with
    | nil => intro s t h c hc; simp only [run, Option.some.injEq] at h; rw [← h]; exact hc
    | cons e fs ih =>
      intro s t h c hc
      simp only [run, Option.bind_eq_some_iff] at h
      obtain ⟨u, hu, h⟩ := h
      refine ih u t h c ?_
      cases ho : e.own with
      | true => rw [(own_keeps ho hu).2.1]; exact hc
      | false =>
        cases e with
        | call i tx =>
          simp only [step] at hu
          split at hu <;> cases hu
          exact hc
        | spurious w =>
          have hu : s.notifyOne (some w) = some u := hu
          rcases notifyOne_cases hu with ⟨rfl, -⟩ | ⟨-, rfl⟩ | ⟨i, c, -, rfl⟩ <;> exact hc
        | stop =>
          simp only [step] at hu
          split at hu <;> cases hu
          exact hc
        | start =>
          simp only [step] at hu
          split at hu <;> cases hu
          exact List.mem_append_left _ hc
        | _ => cases ho
  obtain ⟨hb, hs⟩ := reach (book_init 1 1) (sync_init 1 1) hrun
  have hall : run 10 (.init 1 1) ([.start, .call 0 7, .caller 0, .callerNotify 0 none, .stop, .stopStep,
      .stopStep, .stopNotify none, .stopStep, .exec, .stopStep, .stopStep, .start] ++ fs) = some t := by
    have : ∀ (as bs : List Event) (s u : State), run 10 s as = some u → run 10 s (as ++ bs) = run 10 u bs := by
      intro as
      induction as with
      | nil => intro bs s u h; simp only [run, Option.some.injEq] at h; rw [h, List.nil_append]
      | cons a as ih =>
        intro bs s u h
        simp only [run, Option.bind_eq_some_iff] at h
        obtain ⟨v, hv, h⟩ := h
        simp only [List.cons_append, run, hv, Option.bind_some]
        exact ih bs v u h
    rw [this _ fs _ _ hrun]
    exact hr
  exact ((C94_answers hall).2.2 _ r hc).2.1 (hd fs _ t hr _ (by simp))

/-! ### C95: stopping -/

/-- **C95, partial.** When the node stops being leader or is shut down, `stop` returns after a bounded number of steps,
in whatever order the threads run, unless a calling thread sleeps, waiting for room in the batch.
Missing: that case, `C95_stop_violated`. -/
theorem C95_stop_partial {n m k : Nat} {es : List Event} {s : State} (hk : 0 < k)
    (hr : run n (.init m k) es = some s) (hrun : s.running = false)
    (hc : ∀ c, CallT.asleep c ∉ s.threads) {fs : List Event} {t : State}
    (hf : ∀ e ∈ fs, e.own = true) (ht : run n s fs = some t) :
    fs.length ≤ s.work ∧ (Still n t → t.stop = .stopped) := by
  obtain ⟨hb, hs⟩ := reach (book_init m k) (sync_init m k) hr
  refine ⟨by have := own_run hs hf ht; omega, fun hq => ?_⟩
  obtain ⟨hb', hs'⟩ := reach hb hs ht
  obtain ⟨h1, h2, h3, h4⟩ := own_keeps_run hf ht
  have hl : 0 < t.slots.length := by rw [h3, slots_length hr]; exact hk
  have hn := h4 hc hrun
  have hth : ∀ x ∈ t.threads, x = .idle := by
    intro x hx
    rcases still_threads hq hx with h | ⟨c, rfl⟩
    · exact h
    · exact absurd hx (hn c)
  cases hst : t.stop with
  | stopped => rfl
  | idle =>
    have := hs'.mode.mpr hst
    rw [h1, hrun] at this
    cases this
  | close => have := hq .stopStep rfl; simp [step, stopStep, hst] at this
  | join =>
    have := hq .stopStep rfl
    simp only [step, stopStep, hst] at this
    rw [if_pos (by simpa using hth)] at this
    cases this
  | notify =>
    obtain ⟨w, s', hw⟩ := notifyOne_enabled { t with stop := .shards }
    have := hq (.stopNotify w) rfl
    simp only [step, hst] at this
    rw [hw] at this
    cases this
  | shards => have := hq .stopStep rfl; simp [step, stopStep, hst] at this
  | joinExec =>
    have := hq .stopStep rfl
    simp only [step, stopStep, hst] at this
    rw [if_pos ?_] at this
    · cases this
    · rcases still_exec hq hl with h | h | h
      · exact absurd h (hs'.awake (by rw [hst]; rfl))
      · simp [h]
      · simp [h]
  | joinSlots =>
    have := hq .stopStep rfl
    simp only [step, stopStep, hst] at this
    rw [if_pos ?_] at this
    · cases this
    · rw [List.all_eq_true]
      intro o ho
      rw [still_slots hq o ho]
      rfl

/-- **C95 does not hold.** With one calling thread, all execution threads busy, the batch full and one more call
waiting for room in it: `stop` joins the calling thread before it notifies it, and so waits for ever;
the node cannot become leader again.  Only a spurious wake-up could help. -/
theorem C95_stop_violated : ∃ (es : List Event) (s : State),
    run 1 (.init 1 1) es = some s ∧ s.stop = .join ∧
    ∀ e : Event, (∀ w, e ≠ .spurious w) → step 1 s e = none := by
  refine ⟨[.start, .exec, .exec, .call 0 1, .caller 0, .callerNotify 0 (some .exec), .exec, .exec, .exec,
      .execNotify none, .schedule 0, .exec, .exec,
      .call 0 2, .caller 0, .callerNotify 0 (some .exec), .exec, .exec, .exec, .execNotify none,
      .call 0 3, .caller 0, .callerNotify 0 none, .call 0 4, .caller 0,
      .stop, .stopStep, .finish 0 none, .schedule 0, .exec, .finish 0 (some [true])],
    ⟨false, false, ⟨[3], [(⟨2, 3⟩, 0)]⟩, [.asleep ⟨3, 4⟩], .exited, [none], .join, 4,
      [⟨0, 1⟩, ⟨1, 2⟩, ⟨2, 3⟩], [], [(⟨0, 1⟩, none), (⟨1, 2⟩, some true)], [],
      [([1], none), ([2], some [true])]⟩, by decide +kernel, rfl, ?_⟩
  intro e he
  cases e with
  | spurious w => exact absurd rfl (he w)
  | caller i => cases i <;> simp [step, callerStep]
  | callerNotify i w => cases i <;> simp [step]
  | finish k res => cases k <;> simp [step]
  | schedule k => simp [step]
  | _ => simp [step, execStep, stopStep]

/-! ### Concrete cases -/

/-- Two transactions, one of them sent twice, in two batches; the second fails. -/
def exCalls : List Event :=
  [.start, .exec, .exec, .call 0 7, .caller 0, .callerNotify 0 (some .exec), .call 0 7, .caller 0, .exec, .exec,
    .exec, .execNotify none, .schedule 0, .call 0 8, .caller 0, .callerNotify 0 none, .exec, .exec, .exec, .exec,
    .execNotify none, .finish 0 (some [true]), .schedule 0, .exec, .exec, .finish 0 none]

example : (run 2 (.init 1 1) exCalls).map (fun s => (s.accepted, s.refused)) =
    some ([⟨0, 7⟩, ⟨2, 8⟩], [⟨1, 7⟩]) ∧
    (run 2 (.init 1 1) exCalls).map (fun s => (s.answered, s.running)) =
      some ([(⟨0, 7⟩, some true), (⟨2, 8⟩, none)], true) := by
  refine ⟨by decide +kernel, by decide +kernel⟩

/-- The coordinator is at rest then. -/
example : ∀ s, run 2 (.init 1 1) exCalls = some s → Still 2 s := by
  have h : run 2 (.init 1 1) exCalls =
      some ⟨true, true, .new, [.idle], .asleep, [none], .idle, 3, [⟨0, 7⟩, ⟨2, 8⟩], [⟨1, 7⟩],
        [(⟨0, 7⟩, some true), (⟨2, 8⟩, none)], [], [([7], some [true]), ([8], none)]⟩ := by
    decide +kernel
  intro s hs e he
  rw [h, Option.some.injEq] at hs
  subst hs
  cases e with
  | caller i => cases i <;> simp [step, callerStep]
  | callerNotify i w => cases i <;> simp [step]
  | finish k res => cases k <;> simp [step]
  | schedule k => simp [step]
  | call i tx => cases he
  | spurious w => cases he
  | stop => cases he
  | start => cases he
  | _ => simp [step, execStep, stopStep]

/-- A calling thread in a call when `stop` begins is refused, and `stop` returns. -/
example : (run 2 (.init 1 1) [.start, .exec, .exec, .call 0 7, .stop, .stopStep, .caller 0, .stopStep,
    .stopNotify (some .exec), .stopStep, .exec, .exec, .stopStep, .stopStep]).map
    (fun s => (s.stop, s.refused)) = some (.stopped, [⟨0, 7⟩]) := by decide +kernel

end Verif.Coordinator.Threads
