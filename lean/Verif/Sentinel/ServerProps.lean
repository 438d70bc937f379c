import Verif.Queue.Props
import Verif.Util.CacheSet
import Verif.Sentinel.Server

/-!
# A sentinel server answers each request once (C129)

The specification speaks about the requests that arrived, read off the history, and the calls of callbacks.
-/
namespace Verif.Sentinel.Server

open Verif

/-- The requests that arrived, the first first. -/
def arrived : List Event → List Req
  | [] => []
  | .arrive r :: es => r :: arrived es
  | _ :: es => arrived es

/-- The destructor has not been called. -/
def Serving (es : List Event) : Prop := ∀ e ∈ es, e ≠ .destroy

theorem arrived_append (es : List Event) (e : Event) :
    arrived (es ++ [e]) = arrived es ++ arrived [e] := by
  induction es with
  | nil => rfl
  | cons x es ih =>
    cases x <;> simp only [List.cons_append, arrived, ih]

/-! ### The invariant -/

structure Inv (n : Nat) (es : List Event) (s : State) : Prop where
  /-- the queue has a history of its own -/
  queue : ∃ qs, Queue.Run Queue.fifo qs s.q ∧ (Serving es → Queue.NoClear qs)
  pushed : s.q.pushed = arrived es
  nodup : (arrived es).Nodup
  clearing : Serving es → s.clearing = false
  /-- until the destructor is called the flag says whether there are requests -/
  flag : Serving es → s.q.wake = true → s.q.buf ≠ []
  taken : ∀ r ∈ Queue.popped s.q, r ∈ s.answered.map (·.1) ∨ ∃ c, s.workers c = .busy r
  done : ∀ r ∈ s.answered.map (·.1), r ∈ Queue.popped s.q
  once : (s.answered.map (·.1)).Nodup
  busy : ∀ c r, s.workers c = .busy r → r ∈ Queue.popped s.q ∧ r ∉ s.answered.map (·.1)
  alone : ∀ c c' r, s.workers c = .busy r → s.workers c' = .busy r → c = c'
  kind : ∀ a ∈ s.answered, ∀ y, a.2 = some y → y.1 = a.1.execute
  /-- who is inside `pop` -/
  inside : ∀ c, s.workers c = .waiting ↔ c ∈ s.q.asleep ∨ c ∈ s.q.woken
  alive : Serving es → ∀ c, s.workers c ≠ .ended
  bound : ∀ c, s.workers c ≠ .free → c < n

theorem serving_append {es : List Event} {e : Event} (h : Serving (es ++ [e])) : Serving es ∧ e ≠ .destroy :=
  ⟨fun x hx => h x (List.mem_append_left _ hx), h e (by simp)⟩

/-- What a step inside `pop` does. -/
inductive Pops (q q' : Queue.State Req) (c : Nat) : Prop where
  | sleeps (ht : took q q' = .waiting) (hw : q.wake = false) (hw' : q'.wake = false) (hp : Queue.popped q' = Queue.popped q)
    (hb : q'.buf = q.buf) (hu : q'.pushed = q.pushed)
    (hi : ∀ x, (x ∈ q'.asleep ∨ x ∈ q'.woken) ↔ x = c ∨ x ∈ q.asleep ∨ x ∈ q.woken)
  | gets (r : Req) (ht : took q q' = .busy r) (hp : Queue.popped q' = Queue.popped q ++ [r])
    (hw : q'.wake = true → q'.buf ≠ []) (hu : q'.pushed = q.pushed)
    (hi : ∀ x, x ≠ c → ((x ∈ q'.asleep ∨ x ∈ q'.woken) ↔ x ∈ q.asleep ∨ x ∈ q.woken))
    (hc : c ∉ q'.asleep ∧ c ∉ q'.woken)
  | ends (ht : took q q' = .ended) (hw : q.wake = true) (hb : q.buf = []) (hp : Queue.popped q' = Queue.popped q)
    (hu : q'.pushed = q.pushed)
    (hi : ∀ x, x ≠ c → ((x ∈ q'.asleep ∨ x ∈ q'.woken) ↔ x ∈ q.asleep ∨ x ∈ q.woken))
    (hc : c ∉ q'.asleep ∧ c ∉ q'.woken)

theorem finish_pops (q q0 : Queue.State Req) (c : Nat) (hr : q0.returned = q.returned) (hb : q0.buf = q.buf)
    (hu : q0.pushed = q.pushed) (hw0 : q0.wake = q.wake) (hw : q.buf = [] → q.wake = true)
    (hi : ∀ x, x ≠ c → ((x ∈ q0.asleep ∨ x ∈ q0.woken) ↔ x ∈ q.asleep ∨ x ∈ q.woken))
    (hc : c ∉ q0.asleep ∧ c ∉ q0.woken) : Pops q (Queue.finish q0 c) c := by
  have hpop : Queue.popped q0 = Queue.popped q := by unfold Queue.popped; rw [hr]
  have ht : ∀ q', took q q' = took q0 q' := fun q' => by unfold took; rw [hr]
  unfold Queue.finish
  split
  · next a rest h =>
    refine .gets a ?_ ?_ ?_ hu hi hc
    · rw [ht]; simp [took]
    · rw [← hpop]; simp [Queue.popped]
    · dsimp only
      cases rest with
      | nil => simp
      | cons _ _ => simp
  · next h =>
    refine .ends ?_ (hw (hb ▸ h)) (hb ▸ h) ?_ hu hi hc
    · rw [ht]; simp [took]
    · rw [← hpop]; simp [Queue.popped]

theorem enter_pops {q : Queue.State Req} {c : Nat} (hc : c ∉ q.asleep ∧ c ∉ q.woken) :
    Pops q (Queue.step Queue.fifo q (.enter c)) c := by
  simp only [Queue.step]
  rw [if_neg (fun h => h.elim hc.1 hc.2)]
  split
  · next h =>
    simp only [Bool.and_eq_true, Bool.not_eq_true', List.isEmpty_iff] at h
    refine .sleeps ?_ h.2 h.2 rfl rfl rfl ?_
    · simp [took]
    · intro x
      simp only [List.mem_append, List.mem_singleton]
      constructor
      · rintro ((h | h) | h) <;> simp [h]
      · rintro (h | h | h) <;> simp [h]
  · next h =>
    refine finish_pops q q c rfl rfl rfl rfl ?_ (fun _ _ => Iff.rfl) hc
    intro hb
    simpa [hb] using h

theorem run_pops {q : Queue.State Req} {c : Nat} (hc : c ∈ q.woken) (ha : c ∉ q.asleep) (hn : q.woken.Nodup)
    (hf : q.buf ≠ [] → q.wake = true) : Pops q (Queue.step Queue.fifo q (.run c)) c := by
  simp only [Queue.step]
  rw [if_pos hc]
  have he : ∀ x, x ≠ c → (x ∈ q.woken.erase c ↔ x ∈ q.woken) := fun x hx => by
    rw [List.mem_erase_of_ne hx]
  have hnc : c ∉ q.woken.erase c := by
    rw [hn.mem_erase_iff]; simp
  split
  · next hw =>
    refine finish_pops q { q with woken := q.woken.erase c } c rfl rfl rfl rfl (fun _ => hw) ?_ ⟨ha, hnc⟩
    intro x hx
    simp only [he x hx]
  · next hw =>
    have hw : q.wake = false := by simpa using hw
    refine .sleeps ?_ hw hw rfl rfl rfl ?_
    · simp [took]
    · intro x
      simp only [List.mem_append, List.mem_singleton]
      by_cases hx : x = c
      · simp [hx]
      · rw [he x hx]; simp [hx]

/-- A thread is in one place only. -/
theorem threads_nodup {qs : List (Queue.Event Req)} {q : Queue.State Req} (h : Queue.Run Queue.fifo qs q) :
    (q.asleep ++ q.woken).Nodup := by
  have move : ∀ (l m : List Nat) (c : Nat), c ∈ l → (l ++ m).Nodup → (l.erase c ++ (m ++ [c])).Nodup := by
    intro l m c hc hn
    have hp : List.Perm (l ++ m) (l.erase c ++ (m ++ [c])) := by
      refine ((List.perm_cons_erase hc).append_right m).trans ?_
      rw [← List.append_assoc]
      exact (List.perm_append_singleton c (l.erase c ++ m)).symm
    exact hp.nodup_iff.mp hn
  have fin : ∀ (q : Queue.State Req) (c : Nat), (Queue.finish q c).asleep = q.asleep ∧ (Queue.finish q c).woken = q.woken := by
    intro q c
    unfold Queue.finish
    split <;> exact ⟨rfl, rfl⟩
  induction h with
  | nil => exact List.nodup_nil
  | @step _ q e _ _ ih =>
    cases e with
    | push a => exact ih
    | clear => exact ih
    | reset => exact ih
    | notifyOne who =>
      simp only [Queue.step]
      split
      · exact ih
      · split
        · split
          · next hc => exact move _ _ _ hc ih
          · exact ih
        · split <;> exact ih
    | spurious c =>
      simp only [Queue.step]
      split
      · next hc => exact move _ _ _ hc ih
      · exact ih
    | notifyAll =>
      simp only [Queue.step]
      split
      · exact ih
      · simp only [List.nil_append]
        exact (List.perm_append_comm).nodup_iff.mp ih
    | enter c =>
      simp only [Queue.step]
      split
      · exact ih
      · next hc =>
        split
        · refine (?_ : List.Perm (c :: (q.asleep ++ q.woken)) ((q.asleep ++ [c]) ++ q.woken)).nodup_iff.mp ?_
          · have hp : List.Perm (c :: q.asleep) (q.asleep ++ [c]) := (List.perm_append_singleton c q.asleep).symm
            exact hp.append_right q.woken
          · exact List.nodup_cons.mpr ⟨by simpa using hc, ih⟩
        · rw [(fin q c).1, (fin q c).2]; exact ih
    | run c =>
      simp only [Queue.step]
      split
      · next hc =>
        have hs : List.Sublist (q.asleep ++ q.woken.erase c) (q.asleep ++ q.woken) :=
          (List.Sublist.refl _).append List.erase_sublist
        split
        · rw [(fin _ c).1, (fin _ c).2]
          exact hs.nodup ih
        · have hp : List.Perm (q.asleep ++ q.woken) ((q.asleep ++ [c]) ++ q.woken.erase c) := by
            rw [List.append_assoc]
            exact (List.perm_cons_erase hc).append_left q.asleep
          exact hp.nodup_iff.mp ih
      · exact ih

/-- A step of the queue that moves no request. -/
structure Quiet (q q' : Queue.State Req) : Prop where
  popped : Queue.popped q' = Queue.popped q
  buf : q'.buf = q.buf
  wake : q'.wake = q.wake
  pushed : q'.pushed = q.pushed
  inside : ∀ x, (x ∈ q'.asleep ∨ x ∈ q'.woken) ↔ x ∈ q.asleep ∨ x ∈ q.woken

theorem Quiet.refl (q : Queue.State Req) : Quiet q q := ⟨rfl, rfl, rfl, rfl, fun _ => Iff.rfl⟩

theorem moves (q : Queue.State Req) (k : Nat) (c : Nat) (hc : c ∈ q.asleep) :
    Quiet q { q with notifyOnes := k, asleep := q.asleep.erase c, woken := q.woken ++ [c] } := by
  refine ⟨rfl, rfl, rfl, rfl, fun x => ?_⟩
  simp only [List.mem_append, List.mem_singleton]
  constructor
  · rintro (h | h | h)
    · exact .inl (List.mem_of_mem_erase h)
    · exact .inr h
    · exact .inl (h ▸ hc)
  · rintro (h | h)
    · by_cases hx : x = c
      · exact .inr (.inr hx)
      · exact .inl ((List.mem_erase_of_ne hx).mpr h)
    · exact .inr (.inl h)

theorem quiet_one (q : Queue.State Req) (who : Option Nat) :
    Quiet q (Queue.step Queue.fifo q (.notifyOne who)) := by
  simp only [Queue.step]
  split
  · exact .refl q
  · split
    · split
      · next hc => exact moves q _ _ hc
      · exact .refl q
    · split
      · exact ⟨rfl, rfl, rfl, rfl, fun _ => Iff.rfl⟩
      · exact .refl q

theorem quiet_spurious (q : Queue.State Req) (c : Nat) : Quiet q (Queue.step Queue.fifo q (.spurious c)) := by
  simp only [Queue.step]
  split
  · next hc => exact moves q _ _ hc
  · exact .refl q

theorem quiet_all (q : Queue.State Req) : Quiet q (Queue.step Queue.fifo q .notifyAll) := by
  simp only [Queue.step]
  split
  · exact .refl q
  · refine ⟨rfl, rfl, rfl, rfl, fun x => ?_⟩
    simp only [List.not_mem_nil, List.mem_append, false_or]
    exact Or.comm

theorem queue_step {n : Nat} {es : List Event} {s : State} (h : Inv n es s) (e : Event) (qe : Queue.Event Req)
    (hr : qe.isReset = false) (hc : e ≠ .destroy → qe.isClear = false) :
    ∃ qs, Queue.Run Queue.fifo qs (Queue.step Queue.fifo s.q qe) ∧ (Serving (es ++ [e]) → Queue.NoClear qs) := by
  obtain ⟨qs, hq, hn⟩ := h.queue
  refine ⟨qs ++ [qe], .step qe hq (by simp [hr]), ?_⟩
  intro hs x hx
  have hs := serving_append hs
  rcases List.mem_append.mp hx with hx | hx
  · exact hn hs.1 x hx
  · rw [List.mem_singleton.mp hx]; exact hc hs.2

theorem quiet_inv {n : Nat} {es : List Event} {s : State} (h : Inv n es s) (e : Event) (qe : Queue.Event Req)
    (hr : qe.isReset = false) (hc : qe.isClear = false) (ha : arrived [e] = [])
    (hq : Quiet s.q (Queue.step Queue.fifo s.q qe)) :
    Inv n (es ++ [e]) { s with q := Queue.step Queue.fifo s.q qe } := by
  have harr : arrived (es ++ [e]) = arrived es := by rw [arrived_append, ha, List.append_nil]
  refine ⟨queue_step h e qe hr (fun _ => hc), ?_, ?_, fun hs => h.clearing (serving_append hs).1, ?_, ?_, ?_, h.once, ?_, h.alone,
    h.kind, ?_, fun hs => h.alive (serving_append hs).1, h.bound⟩
  · dsimp only; rw [hq.pushed, harr, h.pushed]
  · rw [harr]; exact h.nodup
  · intro hs; dsimp only; rw [hq.wake, hq.buf]; exact h.flag (serving_append hs).1
  · dsimp only; rw [hq.popped]; exact h.taken
  · dsimp only; rw [hq.popped]; exact h.done
  · dsimp only; rw [hq.popped]; exact h.busy
  · intro c; dsimp only; rw [hq.inside]; exact h.inside c

theorem pop_inv {n : Nat} {es : List Event} {s : State} (h : Inv n es s) (e : Event) (qe : Queue.Event Req) (c : Nat)
    (hr : qe.isReset = false) (hcl : qe.isClear = false) (ha : arrived [e] = []) (hcn : c < n)
    (hw : s.workers c = .free ∨ s.workers c = .waiting)
    (hp : Pops s.q (Queue.step Queue.fifo s.q qe) c) :
    Inv n (es ++ [e]) (popping s c qe) := by
  have harr : arrived (es ++ [e]) = arrived es := by rw [arrived_append, ha, List.append_nil]
  have hqs := queue_step h e qe hr (fun _ => hcl)
  have hnb : ∀ r, s.workers c ≠ .busy r := by
    intro r hb; rcases hw with hw | hw <;> rw [hw] at hb <;> exact nomatch hb
  have hsub : List.Sublist (Queue.popped (Queue.step Queue.fifo s.q qe)) (Queue.step Queue.fifo s.q qe).pushed := by
    obtain ⟨qs, hq, _⟩ := hqs
    exact Queue.C33_subsequence qs _ hq
  have hbound : ∀ x, (popping s c qe).workers x ≠ .free → x < n := by
    intro x hx
    by_cases hxc : x = c
    · exact hxc ▸ hcn
    · simp only [popping, if_neg hxc] at hx
      exact h.bound x hx
  have hwk : ∀ x, x ≠ c → (popping s c qe).workers x = s.workers x := fun x hx => by simp [popping, hx]
  have hwc : (popping s c qe).workers c = took s.q (Queue.step Queue.fifo s.q qe) := by simp [popping]
  have hpq : (popping s c qe).q = Queue.step Queue.fifo s.q qe := rfl
  have hpa : (popping s c qe).answered = s.answered := rfl
  have hpc : (popping s c qe).clearing = s.clearing := rfl
  generalize popping s c qe = t at *
  generalize Queue.step Queue.fifo s.q qe = q' at *
  cases hp with
  | sleeps ht hwq hwq' hpop hb hu hi =>
    rw [ht] at hwc
    have back : ∀ x r, t.workers x = .busy r → s.workers x = .busy r := by
      intro x r hx
      by_cases hxc : x = c
      · rw [hxc, hwc] at hx; exact nomatch hx
      · rwa [hwk x hxc] at hx
    refine ⟨hpq ▸ hqs, ?_, harr ▸ h.nodup, fun hs => hpc ▸ h.clearing (serving_append hs).1, ?_, ?_, ?_, ?_, ?_, ?_, ?_, ?_, ?_, hbound⟩
    · rw [hpq, hu, harr, h.pushed]
    · intro _ hf; rw [hpq, hwq'] at hf; exact nomatch hf
    · rw [hpq, hpop, hpa]
      intro r hr
      rcases h.taken r hr with h1 | ⟨x, hx⟩
      · exact .inl h1
      · exact .inr ⟨x, by rw [hwk x (fun hxc => hnb r (hxc ▸ hx))]; exact hx⟩
    · rw [hpq, hpop, hpa]; exact h.done
    · rw [hpa]; exact h.once
    · rw [hpq, hpop, hpa]; exact fun x r hx => h.busy x r (back x r hx)
    · exact fun x y r hx hy => h.alone x y r (back x r hx) (back y r hy)
    · rw [hpa]; exact h.kind
    · intro x
      rw [hpq, hi]
      by_cases hxc : x = c
      · simp [hxc, hwc]
      · rw [hwk x hxc, h.inside]; simp [hxc]
    · intro hs x
      by_cases hxc : x = c
      · rw [hxc, hwc]; exact fun hx => nomatch hx
      · rw [hwk x hxc]; exact h.alive (serving_append hs).1 x
  | gets r ht hpop hwq hu hi hc =>
    rw [ht] at hwc
    rw [hpop, hu, h.pushed] at hsub
    have hnew : r ∉ Queue.popped s.q := by
      have := hsub.nodup h.nodup
      rw [List.nodup_append] at this
      exact fun hr => this.2.2 r hr r (by simp) rfl
    refine ⟨hpq ▸ hqs, ?_, harr ▸ h.nodup, fun hs => hpc ▸ h.clearing (serving_append hs).1, ?_, ?_, ?_, ?_, ?_, ?_, ?_, ?_, ?_, hbound⟩
    · rw [hpq, hu, harr, h.pushed]
    · intro _ hf; rw [hpq] at hf ⊢; exact hwq hf
    · rw [hpq, hpop, hpa]
      intro r' hr
      rcases List.mem_append.mp hr with hr | hr
      · rcases h.taken r' hr with h1 | ⟨x, hx⟩
        · exact .inl h1
        · exact .inr ⟨x, by rw [hwk x (fun hxc => hnb r' (hxc ▸ hx))]; exact hx⟩
      · exact .inr ⟨c, by rw [hwc, List.mem_singleton.mp hr]⟩
    · rw [hpq, hpop, hpa]; exact fun r' hr => List.mem_append_left _ (h.done r' hr)
    · rw [hpa]; exact h.once
    · rw [hpq, hpop, hpa]
      intro x r' hx
      by_cases hxc : x = c
      · rw [hxc, hwc] at hx
        cases hx
        exact ⟨by simp, fun hr => hnew (h.done _ hr)⟩
      · rw [hwk x hxc] at hx
        exact ⟨List.mem_append_left _ (h.busy x r' hx).1, (h.busy x r' hx).2⟩
    · intro x y r' hx hy
      by_cases hxc : x = c
      · by_cases hyc : y = c
        · rw [hxc, hyc]
        · rw [hxc, hwc] at hx
          cases hx
          rw [hwk y hyc] at hy
          exact absurd (h.busy y _ hy).1 hnew
      · rw [hwk x hxc] at hx
        by_cases hyc : y = c
        · rw [hyc, hwc] at hy
          cases hy
          exact absurd (h.busy x _ hx).1 hnew
        · rw [hwk y hyc] at hy
          exact h.alone x y r' hx hy
    · rw [hpa]; exact h.kind
    · intro x
      rw [hpq]
      by_cases hxc : x = c
      · rw [hxc, hwc]; simp [hc.1, hc.2]
      · rw [hwk x hxc, hi x hxc]; exact h.inside x
    · intro hs x
      by_cases hxc : x = c
      · rw [hxc, hwc]; exact fun hx => nomatch hx
      · rw [hwk x hxc]; exact h.alive (serving_append hs).1 x
  | ends ht hwq hb hpop hu hi hc =>
    rw [ht] at hwc
    have hns : ¬ Serving (es ++ [e]) := fun hs => h.flag (serving_append hs).1 hwq hb
    have back : ∀ x r, t.workers x = .busy r → s.workers x = .busy r := by
      intro x r hx
      by_cases hxc : x = c
      · rw [hxc, hwc] at hx; exact nomatch hx
      · rwa [hwk x hxc] at hx
    refine ⟨hpq ▸ hqs, ?_, harr ▸ h.nodup, fun hs => absurd hs hns, fun hs => absurd hs hns, ?_, ?_, ?_, ?_, ?_, ?_, ?_,
      fun hs => absurd hs hns, hbound⟩
    · rw [hpq, hu, harr, h.pushed]
    · rw [hpq, hpop, hpa]
      intro r hr
      rcases h.taken r hr with h1 | ⟨x, hx⟩
      · exact .inl h1
      · exact .inr ⟨x, by rw [hwk x (fun hxc => hnb r (hxc ▸ hx))]; exact hx⟩
    · rw [hpq, hpop, hpa]; exact h.done
    · rw [hpa]; exact h.once
    · rw [hpq, hpop, hpa]; exact fun x r hx => h.busy x r (back x r hx)
    · exact fun x y r hx hy => h.alone x y r (back x r hx) (back y r hy)
    · rw [hpa]; exact h.kind
    · intro x
      rw [hpq]
      by_cases hxc : x = c
      · rw [hxc, hwc]; simp [hc.1, hc.2]
      · rw [hwk x hxc, hi x hxc]; exact h.inside x

theorem run_inv {n : Nat} {es : List Event} {s : State} (h : Run n es s) : Inv n es s := by
  induction h with
  | start =>
    refine ⟨⟨[], .nil, fun _ e he => (nomatch he)⟩, rfl, List.nodup_nil, fun _ => rfl, fun _ hw => (nomatch hw), ?_, ?_, List.nodup_nil, ?_, ?_, ?_,
      ?_, ?_, ?_⟩
    · exact fun r hr => nomatch hr
    · exact fun r hr => nomatch hr
    · exact fun c r hr => nomatch hr
    · exact fun c c' r hr => nomatch hr
    · exact fun a ha => nomatch ha
    · intro c
      constructor
      · exact fun hc => nomatch hc
      · rintro (hc | hc) <;> exact nomatch hc
    · exact fun _ c hc => nomatch hc
    · exact fun c hc => absurd rfl hc
  | @step es s s' e _ hs ih =>
    cases e with
    | arrive r =>
      simp only [step] at hs
      split at hs
      · exact nomatch hs
      split at hs
      · exact nomatch hs
      next hj hr =>
      cases hs
      have harr : arrived (es ++ [.arrive r]) = arrived es ++ [r] := by rw [arrived_append]; rfl
      refine ⟨queue_step ih _ (.push r) rfl (fun _ => rfl), ?_, ?_, fun hs => ih.clearing (serving_append hs).1, ?_, ih.taken, ih.done, ih.once,
        ih.busy, ih.alone, ih.kind, ih.inside, fun hs => ih.alive (serving_append hs).1, ih.bound⟩
      · rw [harr, ← ih.pushed]; rfl
      · rw [harr, List.nodup_append]
        refine ⟨ih.nodup, by simp, ?_⟩
        intro a ha b hb hab
        rw [List.mem_singleton.mp hb] at hab
        exact hr (ih.pushed ▸ hab ▸ ha)
      · intro _ _
        simp [Queue.step, Queue.fifo]
    | notifyOne who => cases hs; exact quiet_inv ih _ _ rfl rfl rfl (quiet_one _ _)
    | notifyAll => cases hs; exact quiet_inv ih _ _ rfl rfl rfl (quiet_all _)
    | spurious c => cases hs; exact quiet_inv ih _ _ rfl rfl rfl (quiet_spurious _ _)
    | pop c =>
      simp only [step] at hs
      split at hs
      · next hc =>
        cases hs
        refine pop_inv ih _ _ c rfl rfl rfl hc.1 (.inl hc.2) (enter_pops ?_)
        constructor
        · intro hin; have := (ih.inside c).mpr (.inl hin); rw [hc.2] at this; exact nomatch this
        · intro hin; have := (ih.inside c).mpr (.inr hin); rw [hc.2] at this; exact nomatch this
      · exact nomatch hs
    | resume c =>
      simp only [step] at hs
      split at hs
      · next hc =>
        cases hs
        have hw := (ih.inside c).mpr (.inr hc)
        obtain ⟨qs, hq, _⟩ := ih.queue
        have hn := threads_nodup hq
        rw [List.nodup_append] at hn
        refine pop_inv ih _ _ c rfl rfl rfl (ih.bound c (by rw [hw]; exact fun hx => nomatch hx)) (.inr hw)
          (run_pops hc (fun ha => hn.2.2 c ha c hc rfl) hn.2.1 ?_)
        exact (hq.inv Queue.fifo_length).flag (.inr (List.ne_nil_of_mem hc))
      · exact nomatch hs
    | answer c x =>
      simp only [step] at hs
      split at hs
      · next r hb =>
        cases hs
        have harr : arrived (es ++ [.answer c x]) = arrived es := by rw [arrived_append]; exact List.append_nil _
        have back : ∀ y r', (if y = c then Worker.free else s.workers y) = .busy r' → y ≠ c ∧ s.workers y = .busy r' := by
          intro y r' hy
          split at hy
          · exact nomatch hy
          · next hyc => exact ⟨hyc, hy⟩
        obtain ⟨qs, hq, hqn⟩ := ih.queue
        refine ⟨⟨qs, hq, fun hs => hqn (serving_append hs).1⟩, harr ▸ ih.pushed, harr ▸ ih.nodup, fun hs => ih.clearing (serving_append hs).1,
          fun hs => ih.flag (serving_append hs).1, ?_, ?_, ?_, ?_, ?_, ?_, ?_, ?_, ?_⟩
        · intro r' hr
          dsimp only
          rw [List.map_append]
          rcases ih.taken r' hr with h1 | ⟨y, hy⟩
          · exact .inl (List.mem_append_left _ h1)
          · by_cases hyc : y = c
            · rw [hyc, hb] at hy
              cases hy
              exact .inl (by simp)
            · exact .inr ⟨y, by rw [if_neg hyc]; exact hy⟩
        · intro r' hr
          dsimp only at hr
          rw [List.map_append] at hr
          rcases List.mem_append.mp hr with hr | hr
          · exact ih.done r' hr
          · simp only [List.map_cons, List.map_nil, List.mem_singleton] at hr
            rw [hr]; exact (ih.busy c r hb).1
        · dsimp only
          rw [List.map_append, List.nodup_append]
          refine ⟨ih.once, by simp, ?_⟩
          intro a ha b hb' hab
          simp only [List.map_cons, List.map_nil, List.mem_singleton] at hb'
          rw [hb'] at hab
          exact (ih.busy c r hb).2 (hab ▸ ha)
        · intro y r' hy
          obtain ⟨hyc, hy⟩ := back y r' hy
          refine ⟨(ih.busy y r' hy).1, ?_⟩
          dsimp only
          rw [List.map_append]
          intro hr
          rcases List.mem_append.mp hr with hr | hr
          · exact (ih.busy y r' hy).2 hr
          · simp only [List.map_cons, List.map_nil, List.mem_singleton] at hr
            rw [hr] at hy
            exact hyc (ih.alone y c r hy hb)
        · exact fun y z r' hy hz => ih.alone y z r' (back y r' hy).2 (back z r' hz).2
        · intro a ha y hy
          rcases List.mem_append.mp ha with ha | ha
          · exact ih.kind a ha y hy
          · rw [List.mem_singleton.mp ha] at hy ⊢
            dsimp only [respond] at hy ⊢
            cases x with
            | none => exact nomatch hy
            | some v => cases hy; rfl
        · intro y
          dsimp only
          rw [← ih.inside]
          split
          · next hyc => rw [hyc, hb]; constructor <;> exact fun hx => nomatch hx
          · exact Iff.rfl
        · intro hs y
          dsimp only
          split
          · exact fun hx => nomatch hx
          · exact ih.alive (serving_append hs).1 y
        · intro y
          dsimp only
          split
          · exact fun hx => absurd rfl hx
          · exact ih.bound y
      · exact nomatch hs
    | destroy =>
      simp only [step] at hs
      split at hs
      · exact nomatch hs
      cases hs
      have hns : ¬ Serving (es ++ [.destroy]) := fun hs => (serving_append hs).2 rfl
      have harr : arrived (es ++ [.destroy]) = arrived es := by rw [arrived_append]; exact List.append_nil _
      exact ⟨queue_step ih _ .clear rfl (fun hx => absurd rfl hx), harr ▸ ih.pushed, harr ▸ ih.nodup, fun hs => absurd hs hns,
        fun hs => absurd hs hns, ih.taken, ih.done, ih.once, ih.busy, ih.alone, ih.kind, ih.inside, fun hs => absurd hs hns, ih.bound⟩
    | join =>
      simp only [step] at hs
      split at hs
      · cases hs
        have harr : arrived (es ++ [.join]) = arrived es := by rw [arrived_append]; exact List.append_nil _
        obtain ⟨qs, hq, hqn⟩ := ih.queue
        exact ⟨⟨qs, hq, fun hs => hqn (serving_append hs).1⟩, harr ▸ ih.pushed, harr ▸ ih.nodup, fun hs => ih.clearing (serving_append hs).1,
          fun hs => ih.flag (serving_append hs).1, ih.taken, ih.done, ih.once, ih.busy, ih.alone, ih.kind, ih.inside,
          fun hs => ih.alive (serving_append hs).1, ih.bound⟩
      · exact nomatch hs

/-! ### Each request is answered at most once -/

/-- **C129.** In every history, also when the server is being destroyed, only requests that arrived are answered,
none more than once, and an answer is of the kind that was asked for. -/
theorem C129_once (n : Nat) (es : List Event) (s : State) (h : Run n es s) :
    (s.answered.map (·.1)).Nodup ∧ (∀ a ∈ s.answered, a.1 ∈ arrived es) ∧
    ∀ a ∈ s.answered, ∀ k v, a.2 = some (k, v) → k = a.1.execute := by
  have hi := run_inv h
  refine ⟨hi.once, ?_, fun a ha k v hv => hi.kind a ha _ hv⟩
  intro a ha
  obtain ⟨qs, hq, _⟩ := hi.queue
  have := (Queue.C33_subsequence qs _ hq).subset (hi.done a.1 (List.mem_map_of_mem ha))
  rwa [hi.pushed] at this

/-- **C129.** Until the server is destroyed no request is lost: each is answered, or the sentinel handles it in one thread, or it waits;
those that wait are the last that arrived, in the order in which they arrived. -/
theorem C129_kept (n : Nat) (es : List Event) (s : State) (h : Run n es s) (hs : Serving es) :
    (∀ r ∈ arrived es, r ∈ s.answered.map (·.1) ∨ (∃ c, c < n ∧ s.workers c = .busy r) ∨ r ∈ s.q.buf) ∧
    (∃ k, s.q.buf = (arrived es).drop k) ∧ ∀ c, s.workers c ≠ .ended := by
  have hi := run_inv h
  obtain ⟨qs, hq, hn⟩ := hi.queue
  have hf := Queue.C33_fifo qs _ hq (hn hs)
  rw [hi.pushed] at hf
  refine ⟨?_, ⟨(Queue.popped s.q).length, ?_⟩, hi.alive hs⟩
  · intro r hr
    rw [← hf] at hr
    rcases List.mem_append.mp hr with hr | hr
    · rcases hi.taken r hr with h1 | ⟨c, hc⟩
      · exact .inl h1
      · exact .inr (.inl ⟨c, hi.bound c (by rw [hc]; exact fun hx => nomatch hx), hc⟩)
    · exact .inr (.inr hr)
  · rw [← hf, List.drop_left]

/-! ### A server that runs is never stuck -/

/-- What the threads of the server do by themselves. -/
def Internal : Event → Prop
  | .notifyOne _ => True
  | .pop _ => True
  | .resume _ => True
  | .answer _ _ => True
  | _ => False

theorem internal_serving {es es' : List Event} (hs : Serving es) (hi : ∀ e ∈ es', Internal e) : Serving (es ++ es') := by
  intro e he
  rcases List.mem_append.mp he with he | he
  · exact hs e he
  · intro hd; have := hi e he; rw [hd] at this; exact this

theorem internal_arrived {es es' : List Event} (hi : ∀ e ∈ es', Internal e) : arrived (es ++ es') = arrived es := by
  induction es' generalizing es with
  | nil => rw [List.append_nil]
  | cons e es' ih =>
    have := ih (es := es ++ [e]) (fun x hx => hi x (List.mem_cons_of_mem _ hx))
    rw [List.append_assoc, List.singleton_append] at this
    rw [this, arrived_append]
    have he := hi e (by simp)
    cases e <;> first | exact he.elim | exact List.append_nil _

/-- One more request is answered. -/
def Advances (n : Nat) (es : List Event) (s : State) : Prop :=
  ∃ es' t, Run n (es ++ es') t ∧ (∀ e ∈ es', Internal e) ∧ t.answered.length = s.answered.length + 1

theorem advance_cons {n : Nat} {es : List Event} {s t : State} {e : Event} (he : Internal e) (ha : t.answered = s.answered)
    (h : Advances n (es ++ [e]) t) : Advances n es s := by
  obtain ⟨es', u, hu, hi, hl⟩ := h
  refine ⟨e :: es', u, by rwa [List.append_assoc, List.singleton_append] at hu, ?_, by rw [hl, ha]⟩
  intro x hx
  rcases List.mem_cons.mp hx with hx | hx
  · exact hx ▸ he
  · exact hi x hx

theorem advance_busy {n : Nat} {es : List Event} {s : State} (h : Run n es s) {c : Nat} {r : Req} (hb : s.workers c = .busy r) :
    Advances n es s := by
  refine ⟨[.answer c none], { s with
      workers := fun y => if y = c then .free else s.workers y, answered := s.answered ++ [(r, respond r none)] },
    .step h (by simp only [step, hb]), ?_, by simp⟩
  intro e he
  rw [List.mem_singleton.mp he]; exact trivial

theorem took_some {q q' : Queue.State Req} {c : Nat} {r : Req} (h : q'.returned = q.returned ++ [(c, some r)]) : took q q' = .busy r := by
  simp [took, h]

theorem advance_woken {n : Nat} {es : List Event} {s : State} (h : Run n es s) {c : Nat} (hc : c ∈ s.q.woken) (hb : s.q.buf ≠ []) :
    Advances n es s := by
  obtain ⟨qs, hq, _⟩ := (run_inv h).queue
  obtain ⟨r, rest, hr⟩ := List.exists_cons_of_ne_nil hb
  have ht := took_some (Queue.C33_woken Queue.fifo Queue.fifo_length qs _ hq c hc r rest hr).1
  have hrun : Run n (es ++ [.resume c]) (popping s c (.run c)) := .step h (by simp only [step, if_pos hc])
  exact advance_cons (e := .resume c) (t := popping s c (.run c)) trivial rfl (advance_busy hrun (c := c) (r := r) (by simpa [popping] using ht))

theorem advance_free {n : Nat} {es : List Event} {s : State} (h : Run n es s) {c : Nat} (hcn : c < n) (hc : s.workers c = .free)
    (hb : s.q.buf ≠ []) : Advances n es s := by
  have hi := run_inv h
  obtain ⟨r, rest, hr⟩ := List.exists_cons_of_ne_nil hb
  have hin : c ∉ s.q.asleep ∧ c ∉ s.q.woken := by
    constructor
    · intro hin; have := (hi.inside c).mpr (.inl hin); rw [hc] at this; exact nomatch this
    · intro hin; have := (hi.inside c).mpr (.inr hin); rw [hc] at this; exact nomatch this
  have ht := took_some (Queue.C33_enter Queue.fifo s.q c hin r rest hr).1
  have hrun : Run n (es ++ [.pop c]) (popping s c (.enter c)) := .step h (by simp only [step, if_pos (And.intro hcn hc)])
  exact advance_cons (e := .pop c) (t := popping s c (.enter c)) trivial rfl (advance_busy hrun (c := c) (r := r) (by simpa [popping] using ht))

theorem advance_asleep {n : Nat} {es : List Event} {s : State} (h : Run n es s) {c : Nat} (hc : c ∈ s.q.asleep)
    (hn : s.q.notifyOnes ≠ 0) (hb : s.q.buf ≠ []) : Advances n es s := by
  have hrun : Run n (es ++ [.notifyOne (some c)]) { s with q := Queue.step Queue.fifo s.q (.notifyOne (some c)) } := .step h rfl
  refine advance_cons (e := .notifyOne (some c)) (t := { s with q := Queue.step Queue.fifo s.q (.notifyOne (some c)) }) trivial rfl
    (advance_woken hrun (c := c) ?_ ?_)
  · simp [Queue.step, hn, hc]
  · simpa [Queue.step, hn, hc] using hb

theorem advances {n : Nat} {es : List Event} {s : State} (h : Run n es s) (hs : Serving es) (hn : 0 < n) {r : Req}
    (hr : r ∈ arrived es) (ha : r ∉ s.answered.map (·.1)) : Advances n es s := by
  have hi := run_inv h
  rcases (C129_kept n es s h hs).1 r hr with h1 | ⟨c, _, hc⟩ | hb
  · exact absurd h1 ha
  · exact advance_busy h hc
  · have hb : s.q.buf ≠ [] := List.ne_nil_of_mem hb
    cases hw : s.workers 0 with
    | free => exact advance_free h hn hw hb
    | busy r' => exact advance_busy h hw
    | ended => exact absurd hw (hi.alive hs 0)
    | waiting =>
      rcases (hi.inside 0).mp hw with hc | hc
      · obtain ⟨qs, hq, _⟩ := hi.queue
        have hle := (hq.inv Queue.fifo_length).enough (List.ne_nil_of_mem hc)
        have hpos : 0 < s.q.buf.length := List.length_pos_iff.mpr hb
        by_cases hone : s.q.notifyOnes = 0
        · have hwok : s.q.woken ≠ [] := by
            intro hw; rw [hone, hw] at hle; simp only [List.length_nil] at hle; omega
          obtain ⟨d, rest, hd⟩ := List.exists_cons_of_ne_nil hwok
          exact advance_woken h (c := d) (by simp [hd]) hb
        · exact advance_asleep h hc hone hb
      · exact advance_woken h hc hb

/-- **C129, partly.** A server with at least one thread is never stuck: from every state it reaches before it is destroyed its threads
can answer all requests that arrived, without any further request or spurious wakeup.
What is missing is that they do, which depends on how the system schedules the threads and on the sentinel coming to an end with each request. -/
theorem C129_served_partial (n : Nat) (hn : 0 < n) (es : List Event) (s : State) (h : Run n es s) (hs : Serving es) :
    ∃ es' t, Run n (es ++ es') t ∧ (∀ e ∈ es', Internal e) ∧ ∀ r ∈ arrived es, r ∈ t.answered.map (·.1) := by
  have key : ∀ (k : Nat) (es : List Event) (s : State), Run n es s → Serving es → (arrived es).length ≤ s.answered.length + k →
      ∃ es' t, Run n (es ++ es') t ∧ (∀ e ∈ es', Internal e) ∧ ∀ r ∈ arrived es, r ∈ t.answered.map (·.1) := by
    intro k
    induction k with
    | zero =>
      intro es s h _ hk
      refine ⟨[], s, by rwa [List.append_nil], fun e he => (nomatch he), ?_⟩
      have hsub : ∀ r ∈ s.answered.map (·.1), r ∈ arrived es := by
        intro r hr
        obtain ⟨a, ha, rfl⟩ := List.mem_map.mp hr
        exact (C129_once n es s h).2.1 a ha
      intro r hr
      by_cases hin : r ∈ s.answered.map (·.1)
      · exact hin
      · have hlen : (r :: s.answered.map (·.1)).length ≤ (arrived es).length := by
          refine Verif.Util.length_le_of_subset (List.nodup_cons.mpr ⟨hin, (run_inv h).once⟩) ?_
          intro x hx
          rcases List.mem_cons.mp hx with hx | hx
          · exact hx ▸ hr
          · exact hsub x hx
        simp only [List.length_cons, List.length_map] at hlen
        omega
    | succ k ih =>
      intro es s h hs hk
      by_cases hall : ∀ r ∈ arrived es, r ∈ s.answered.map (·.1)
      · exact ⟨[], s, by rwa [List.append_nil], fun e he => (nomatch he), hall⟩
      · have : ∃ r, r ∈ arrived es ∧ r ∉ s.answered.map (·.1) := by
          refine Classical.byContradiction fun hno => hall fun r hr => Classical.byContradiction fun hra => hno ⟨r, hr, hra⟩
        obtain ⟨r, hr, hra⟩ := this
        obtain ⟨es1, t1, h1, hi1, hl1⟩ := advances h hs hn hr hra
        have harr := internal_arrived (es := es) hi1
        obtain ⟨es2, t2, h2, hi2, hall2⟩ := ih (es ++ es1) t1 h1 (internal_serving hs hi1) (by rw [harr, hl1]; omega)
        refine ⟨es1 ++ es2, t2, by rwa [List.append_assoc] at h2, ?_, by rwa [harr] at hall2⟩
        intro e he
        rcases List.mem_append.mp he with he | he
        · exact hi1 e he
        · exact hi2 e he
  exact key _ es s h hs (Nat.le_add_left _ _)

/-! ### What the server does not do -/

theorem step_answered {n : Nat} {s s' : State} {e : Event} (hs : step n s e = .next s') :
    s'.answered = s.answered ∨ ∃ c r, s.workers c = .busy r := by
  cases e with
  | answer c x =>
    simp only [step] at hs
    split at hs
    · next r hb => exact .inr ⟨c, r, hb⟩
    · exact nomatch hs
  | notifyOne who => cases hs; exact .inl rfl
  | notifyAll => cases hs; exact .inl rfl
  | spurious c => cases hs; exact .inl rfl
  | arrive r =>
    simp only [step] at hs
    split at hs
    · exact nomatch hs
    split at hs <;> cases hs
    exact .inl rfl
  | pop c => simp only [step] at hs; split at hs <;> cases hs; exact .inl rfl
  | resume c => simp only [step] at hs; split at hs <;> cases hs; exact .inl rfl
  | destroy => simp only [step] at hs; split at hs <;> cases hs; exact .inl rfl
  | join => simp only [step] at hs; split at hs <;> cases hs; exact .inl rfl

/-- **C129, violated.** `hardware_concurrency` may be 0, and nothing makes up for it: then no request is ever answered. -/
theorem C129_threads_violated (es : List Event) (s : State) (h : Run 0 es s) : s.answered = [] := by
  induction h with
  | start => rfl
  | step h hs ih =>
    rcases step_answered hs with ha | ⟨c, r, hb⟩
    · rw [ha, ih]
    · exact absurd ((run_inv h).bound c (by rw [hb]; exact fun hx => nomatch hx)) (Nat.not_lt_zero c)

/-- A history that continues from a given state. -/
inductive Later (n : Nat) (s : State) : List Event → State → Prop where
  | nil : Later n s [] s
  | step {es : List Event} {t t' : State} {e : Event} (h : Later n s es t) (hs : step n t e = .next t') : Later n s (es ++ [e]) t'

theorem later_run {n : Nat} {es es' : List Event} {s t : State} (h : Run n es s) (hl : Later n s es' t) : Run n (es ++ es') t := by
  induction hl with
  | nil => rwa [List.append_nil]
  | step _ hs ih => rw [← List.append_assoc]; exact .step ih hs

/-- A request that arrived and is neither taken nor waiting. -/
def Gone (r : Req) (q : Queue.State Req) : Prop := r ∈ q.pushed ∧ r ∉ Queue.popped q ++ q.buf

theorem gone_step {r : Req} {q : Queue.State Req} (h : Gone r q) (e : Queue.Event Req) (hp : ∀ a, e ≠ .push a) (hc : e.isClear = false) :
    Gone r (Queue.step Queue.fifo q e) := by
  obtain ⟨h1, h2⟩ := Queue.step_elements Queue.fifo q e hp hc
  unfold Gone
  rw [h1, h2]
  exact h

theorem gone_later {n : Nat} {r : Req} {s t : State} {e : Event} (h : Gone r s.q) (hs : step n s e = .next t) : Gone r t.q := by
  cases e with
  | arrive r' =>
    simp only [step] at hs
    split at hs
    · exact nomatch hs
    split at hs
    · exact nomatch hs
    next hr =>
    cases hs
    refine ⟨List.mem_append_left _ h.1, ?_⟩
    intro hin
    simp only [Queue.step, Queue.fifo] at hin
    rw [← List.append_assoc] at hin
    rcases List.mem_append.mp hin with hin | hin
    · exact h.2 hin
    · exact hr (List.mem_singleton.mp hin ▸ h.1)
  | answer c x =>
    simp only [step] at hs
    split at hs
    · cases hs; exact h
    · exact nomatch hs
  | notifyOne who => cases hs; exact gone_step h _ (fun _ hx => nomatch hx) rfl
  | notifyAll => cases hs; exact gone_step h _ (fun _ hx => nomatch hx) rfl
  | spurious c => cases hs; exact gone_step h _ (fun _ hx => nomatch hx) rfl
  | pop c => simp only [step] at hs; split at hs <;> cases hs; exact gone_step h _ (fun _ hx => nomatch hx) rfl
  | resume c => simp only [step] at hs; split at hs <;> cases hs; exact gone_step h _ (fun _ hx => nomatch hx) rfl
  | destroy =>
    simp only [step] at hs
    split at hs <;> cases hs
    exact ⟨h.1, fun hin => h.2 (by
      simp only [Queue.step, List.append_nil] at hin
      exact List.mem_append_left _ hin)⟩
  | join => simp only [step] at hs; split at hs <;> cases hs; exact h

/-- **C129, violated.** A request that waits when the server is destroyed is dropped: whatever happens then, its callback is never called. -/
theorem C129_dropped_violated (n : Nat) (es es' : List Event) (s s' t : State) (r : Req) (h : Run n es s) (hserv : Serving es)
    (hw : r ∈ s.q.buf) (hd : step n s .destroy = .next s') (hl : Later n s' es' t) : ∀ a ∈ t.answered, a.1 ≠ r := by
  have hi := run_inv h
  have hrun : Run n (es ++ [.destroy]) s' := .step h hd
  have hg : Gone r s'.q := by
    obtain ⟨qs, hq, hn⟩ := hi.queue
    have hf := Queue.C33_fifo qs _ hq (hn hserv)
    have hnd : (Queue.popped s.q ++ s.q.buf).Nodup := by rw [hf, hi.pushed]; exact hi.nodup
    simp only [step] at hd
    split at hd <;> cases hd
    refine ⟨?_, ?_⟩
    · show r ∈ s.q.pushed
      rw [← hf]; exact List.mem_append_right _ hw
    · intro hin
      simp only [Queue.step, List.append_nil] at hin
      rw [List.nodup_append] at hnd
      exact hnd.2.2 r hin r hw rfl
  have hgt : Gone r t.q := by
    clear hrun
    induction hl with
    | nil => exact hg
    | step _ hs ih => exact gone_later ih hs
  intro a ha har
  have := (run_inv (later_run hrun hl)).done a.1 (List.mem_map_of_mem ha)
  exact hgt.2 (List.mem_append_left _ (har ▸ this))

/-- What a list of events does from a state, for the examples. -/
def play (n : Nat) : State → List Event → Option State
  | s, [] => some s
  | s, e :: es =>
    match step n s e with
    | .next t => play n t es
    | _ => none

theorem play_run {n : Nat} {es es' : List Event} {s t : State} (h : Run n es s) (hp : play n s es' = some t) : Run n (es ++ es') t := by
  induction es' generalizing es s with
  | nil => cases hp; rwa [List.append_nil]
  | cons e es' ih =>
    simp only [play] at hp
    split at hp
    · next u hu =>
      have := ih (.step h hu) hp
      rwa [List.append_assoc, List.singleton_append] at this
    · exact nomatch hp

/-- A request is answered by one of two threads while another is handled by the other and a third waits. -/
example : ∃ s, Run 2 [.pop 0, .arrive ⟨1, true⟩, .arrive ⟨2, false⟩, .notifyOne (some 0), .arrive ⟨3, true⟩, .resume 0, .pop 1,
      .answer 0 (some 7)] s ∧
    s.answered = [(⟨1, true⟩, some (true, 7))] ∧ s.workers 1 = .busy ⟨2, false⟩ ∧ s.q.buf = [⟨3, true⟩] :=
  ⟨_, play_run .start rfl, rfl, rfl, rfl⟩

/-- The server hangs in its destructor. -/
structure Stuck (s : State) : Prop where
  wake : s.q.wake = false
  buf : s.q.buf = []
  clearing : s.clearing = true
  waits : s.workers 0 = .waiting
  joined : s.joined = false

theorem Stuck.quiet {s : State} (h : Stuck s) {q' : Queue.State Req} (hq : Quiet s.q q') : Stuck { s with q := q' } :=
  ⟨hq.wake.trans h.wake, hq.buf.trans h.buf, h.clearing, h.waits, h.joined⟩

theorem Stuck.step {n : Nat} (hn : 0 < n) {s t : State} {e : Event} (h : Stuck s) (ha : ∀ r, e ≠ .arrive r) (hs : step n s e = .next t) :
    Stuck t := by
  cases e with
  | arrive r => exact absurd rfl (ha r)
  | notifyOne who => cases hs; exact h.quiet (quiet_one _ _)
  | notifyAll => cases hs; exact h.quiet (quiet_all _)
  | spurious c => cases hs; exact h.quiet (quiet_spurious _ _)
  | answer c x =>
    simp only [Server.step] at hs
    split at hs
    · next r hb =>
      cases hs
      refine ⟨h.wake, h.buf, h.clearing, ?_, h.joined⟩
      have : 0 ≠ c := fun hc => by rw [← hc, h.waits] at hb; exact nomatch hb
      simp only [if_neg this, h.waits]
    · exact nomatch hs
  | pop c =>
    simp only [Server.step] at hs
    split at hs
    · next hc =>
      cases hs
      have hne : 0 ≠ c := fun h0 => by have := hc.2; rw [← h0, h.waits] at this; exact nomatch this
      have hq : (Queue.step Queue.fifo s.q (.enter c)).wake = false ∧ (Queue.step Queue.fifo s.q (.enter c)).buf = [] := by
        simp only [Queue.step]
        split
        · exact ⟨h.wake, h.buf⟩
        · simp [h.wake, h.buf]
      exact ⟨hq.1, hq.2, h.clearing, by simp only [popping, if_neg hne, h.waits], h.joined⟩
    · exact nomatch hs
  | resume c =>
    simp only [Server.step] at hs
    split at hs
    · next hc =>
      cases hs
      refine ⟨?_, ?_, h.clearing, ?_, h.joined⟩
      · simp [popping, Queue.step, hc, h.wake]
      · simp [popping, Queue.step, hc, h.wake, h.buf]
      · by_cases h0 : 0 = c
        · simp [popping, h0, took, Queue.step, hc, h.wake]
        · simp only [popping, if_neg h0, h.waits]
    · exact nomatch hs
  | destroy => simp [Server.step, h.clearing] at hs
  | join =>
    simp only [Server.step] at hs
    split at hs
    · next hc =>
      have := List.all_eq_true.mp hc.2.2 0 (List.mem_range.mpr hn)
      rw [h.waits] at this
      exact absurd this (by decide)
    · exact nomatch hs

/-- **C129, violated.** The destructor may wait for ever.  When a request arrives after `clear`, the thread that takes it resets the flag,
so that the threads that were to end wait again; unless another request arrives nothing ends them. -/
theorem C129_destroy_violated :
    ∃ es s, Run 2 es s ∧ Event.destroy ∈ es ∧ s.q.notifyOnes = 0 ∧ s.q.notifyAlls = 0 ∧ s.q.woken = [] ∧
      ∀ es' t, Later 2 s es' t → (∀ r, Event.arrive r ∉ es') → t.joined = false ∧ t.workers 0 = .waiting := by
  refine ⟨[.pop 0, .pop 1, .destroy, .notifyAll, .arrive ⟨1, true⟩, .notifyOne none, .resume 1, .resume 0, .answer 1 (some 7), .pop 1], _,
    play_run .start rfl, by simp, rfl, rfl, rfl, ?_⟩
  intro es' t hl ha
  have hstuck : Stuck t := by
    induction hl with
    | nil => exact ⟨rfl, rfl, rfl, rfl, rfl⟩
    | step _ hs ih =>
      exact (ih fun r hr => ha r (List.mem_append_left _ hr)).step (by decide) (fun r hr => ha r (by simp [hr])) hs
  exact ⟨hstuck.joined, hstuck.waits⟩

/-- **C129, violated.** The queue is destroyed before the RPC server: a request that arrives between is pushed to a queue that is no more. -/
theorem C129_late_violated :
    ∃ es s, Run 1 es s ∧ ∀ r, step 1 s (.arrive r) = .undefined :=
  ⟨[.pop 0, .destroy, .notifyAll, .resume 0, .join], _, play_run .start rfl, fun _ => rfl⟩

/-- **C129.** Until the destructor has joined the threads no event is undefined. -/
theorem C129_defined (n : Nat) (s : State) (e : Event) (h : s.joined = false) : step n s e ≠ .undefined := by
  cases e with
  | arrive r =>
    simp only [step, h, Bool.false_eq_true, if_false]
    split <;> simp
  | notifyOne who => exact fun hx => nomatch hx
  | notifyAll => exact fun hx => nomatch hx
  | spurious c => exact fun hx => nomatch hx
  | answer c x => simp only [step]; split <;> simp
  | pop c => simp only [step]; split <;> simp
  | resume c => simp only [step]; split <;> simp
  | destroy => simp only [step]; split <;> simp
  | join => simp only [step]; split <;> simp

end Verif.Sentinel.Server
