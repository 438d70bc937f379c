import Verif.Queue.Model
import Verif.Util.CacheSet
/-!
# C33: the blocking queue
-/
namespace Verif.Queue

variable {α : Type}

/-- The elements returned by `pop`, in order. -/
def popped (s : State α) : List α := s.returned.filterMap (·.2)

/-- The history contains no `clear`. -/
def NoClear (es : List (Event α)) : Prop := ∀ e ∈ es, e.isClear = false

/-! ### Elements -/

theorem popped_finish (s : State α) (c : Nat) :
    popped (finish s c) ++ (finish s c).buf = popped s ++ s.buf := by
  unfold finish popped
  split
  · next a rest h => simp [h]
  · next h => simp [h]

theorem popped_finish_eq (s : State α) (c : Nat) :
    (finish s c).pushed = s.pushed := by
  unfold finish; split <;> rfl

theorem step_elements (ins : Insert α) (s : State α) (e : Event α)
    (h : (∀ a, e ≠ .push a)) (hc : e.isClear = false) :
    popped (step ins s e) ++ (step ins s e).buf = popped s ++ s.buf ∧
      (step ins s e).pushed = s.pushed := by
  cases e with
  | push a => exact absurd rfl (h a)
  | notifyOne who =>
    cases who with
    | none =>
      simp only [step]
      split
      · exact ⟨rfl, rfl⟩
      · split
        · exact ⟨rfl, rfl⟩
        · exact ⟨rfl, rfl⟩
    | some c =>
      simp only [step]
      split
      · exact ⟨rfl, rfl⟩
      · split
        · exact ⟨rfl, rfl⟩
        · exact ⟨rfl, rfl⟩
  | enter c =>
    simp only [step]
    split
    · exact ⟨rfl, rfl⟩
    · split
      · exact ⟨rfl, rfl⟩
      · exact ⟨popped_finish s c, popped_finish_eq s c⟩
  | spurious c =>
    simp only [step]
    split
    · exact ⟨rfl, rfl⟩
    · exact ⟨rfl, rfl⟩
  | run c =>
    simp only [step]
    split
    · split
      · exact ⟨popped_finish _ c, popped_finish_eq _ c⟩
      · exact ⟨rfl, rfl⟩
    · exact ⟨rfl, rfl⟩
  | clear => cases hc
  | notifyAll =>
    simp only [step]
    split
    · exact ⟨rfl, rfl⟩
    · exact ⟨rfl, rfl⟩
  | reset => exact ⟨rfl, rfl⟩

/-- **C33.** Without `clear`, what has been popped followed by what is in the
queue is exactly what has been pushed, in order: each element is popped at most
once, in push order, and none is lost. -/
theorem C33_fifo (es : List (Event α)) (s : State α) (h : Run fifo es s)
    (hc : NoClear es) : popped s ++ s.buf = s.pushed := by
  induction h with
  | nil => rfl
  | step e _ _ ih =>
    have ih := ih fun x hx => hc x (by simp [hx])
    by_cases hp : ∃ a, e = .push a
    · obtain ⟨a, rfl⟩ := hp
      simp only [step, popped, fifo]
      rw [← List.append_assoc]
      exact congrArg (· ++ [a]) ih
    · obtain ⟨h1, h2⟩ := step_elements fifo _ e (fun a ha => hp ⟨a, ha⟩)
        (hc e (by simp))
      rw [h1, h2, ih]

/-- **C33.** With any number of `clear`s, what has been popped is still a
subsequence of what has been pushed. -/
theorem C33_subsequence (es : List (Event α)) (s : State α) (h : Run fifo es s) :
    List.Sublist (popped s) s.pushed := by
  suffices hk : List.Sublist (popped s ++ s.buf) s.pushed from
    (List.sublist_append_left _ _).trans hk
  induction h with
  | nil => exact List.Sublist.refl _
  | step e _ _ ih =>
    by_cases hp : ∃ a, e = .push a
    · obtain ⟨a, rfl⟩ := hp
      simp only [step, popped, fifo]
      rw [← List.append_assoc]
      exact ih.append (List.Sublist.refl _)
    · by_cases hcl : e.isClear = true
      · cases e with
        | clear =>
          simp only [step, popped, List.append_nil]
          exact (List.sublist_append_left _ _).trans ih
        | _ => cases hcl
      · obtain ⟨h1, h2⟩ := step_elements fifo _ e (fun a ha => hp ⟨a, ha⟩)
          (by simpa using hcl)
        rw [h1, h2]
        exact ih

/-- **C33.** Every element pushed is, without `clear`, either popped exactly once
or still in the queue, for any container that neither loses nor repeats elements,
such as the priority queue. -/
theorem C33_exactly_once (ins : Insert α)
    (hins : ∀ l a, List.Perm (ins l a) (l ++ [a])) (es : List (Event α))
    (s : State α) (h : Run ins es s) (hc : NoClear es) :
    List.Perm (popped s ++ s.buf) s.pushed := by
  induction h with
  | nil => exact List.Perm.refl _
  | step e _ _ ih =>
    have ih := ih fun x hx => hc x (by simp [hx])
    by_cases hp : ∃ a, e = .push a
    · obtain ⟨a, rfl⟩ := hp
      simp only [step, popped]
      refine ((hins _ a).append_left _).trans ?_
      rw [← List.append_assoc]
      exact ih.append_right _
    · obtain ⟨h1, h2⟩ := step_elements ins _ e (fun a ha => hp ⟨a, ha⟩)
        (hc e (by simp))
      rw [h1, h2]
      exact ih

theorem byPriority_perm (lt : α → α → Bool) (l : List α) (a : α) :
    List.Perm (byPriority lt l a) (l ++ [a]) := by
  induction l with
  | nil => exact List.Perm.refl _
  | cons b l ih =>
    simp only [byPriority]
    split
    · exact (List.perm_append_singleton a (b :: l)).symm
    · exact ih.cons b

/-- **C33.** The priority queue hands out a greatest element: nothing that is left
in the queue is greater than the element a `pop` returns. -/
theorem C33_priority (lt : α → α → Bool)
    (htr : ∀ a b c, lt b a = false → lt c b = false → lt c a = false)
    (htot : ∀ a b, lt a b = true → lt b a = false)
    (es : List (Event α)) (s : State α) (h : Run (byPriority lt) es s) (c : Nat)
    (a : α) (hp : (finish s c).returned = s.returned ++ [(c, some a)]) :
    ∀ b ∈ (finish s c).buf, lt a b = false := by
  have hsorted : List.Pairwise (fun x y => lt x y = false) s.buf := by
    clear hp
    induction h with
    | nil => exact List.Pairwise.nil
    | @step es s e _ _ ih =>
      have hfin : ∀ (t : State α) (c : Nat),
          List.Pairwise (fun x y => lt x y = false) t.buf →
          List.Pairwise (fun x y => lt x y = false) (finish t c).buf := by
        intro t c ht
        unfold finish
        split
        · next x rest hx =>
          rw [hx] at ht
          exact (List.pairwise_cons.mp ht).2
        · exact ht
      cases e with
      | push a =>
        simp only [step]
        clear hfin
        generalize s.buf = buf at ih
        induction buf with
        | nil => exact List.pairwise_singleton _ _
        | cons b l ihl =>
          simp only [byPriority]
          have hb := List.pairwise_cons.mp ih
          split
          · next hlt =>
            refine List.pairwise_cons.mpr ⟨?_, ih⟩
            intro x hx
            simp only [List.mem_cons] at hx
            rcases hx with rfl | hx
            · exact htot _ _ hlt
            · exact htr _ _ _ (hb.1 x hx) (htot _ _ hlt)
          · next hlt =>
            refine List.pairwise_cons.mpr ⟨?_, ihl hb.2⟩
            intro x hx
            have := (byPriority_perm lt l a).mem_iff.mp hx
            simp only [List.mem_append, List.mem_singleton] at this
            rcases this with hx | rfl
            · exact hb.1 x hx
            · simpa using hlt
      | notifyOne who =>
        cases who <;> simp only [step] <;> (repeat' split) <;> exact ih
      | enter c =>
        simp only [step]
        (repeat' split) <;> first | exact ih | exact hfin _ c ih
      | spurious c => simp only [step]; split <;> exact ih
      | run c =>
        simp only [step]
        (repeat' split) <;> first | exact ih | exact hfin _ c ih
      | clear => exact List.Pairwise.nil
      | notifyAll => simp only [step]; split <;> exact ih
      | reset => exact ih
  unfold finish at hp ⊢
  split at hp
  · next x rest hx =>
    have : x = a := by
      have := List.append_cancel_left hp
      simp at this
      exact this
    subst this
    rw [hx] at hsorted
    exact (List.pairwise_cons.mp hsorted).1
  · next hx =>
    have := List.append_cancel_left hp
    simp at this

/-! ### Sleeping consumers -/

/-- What holds of the consumers at any time. -/
structure Inv (s : State α) : Prop where
  /-- if somebody is asleep, there is a notification or a woken consumer for every
  element in the queue -/
  enough : s.asleep ≠ [] → s.buf.length ≤ s.notifyOnes + s.woken.length
  /-- while somebody is inside `pop`, the flag is set if there are elements -/
  flag : s.asleep ≠ [] ∨ s.woken ≠ [] → s.buf ≠ [] → s.wake = true

theorem Inv.finish {s : State α} (h : Inv s) (c : Nat) :
    Inv (Queue.finish s c) := by
  unfold Queue.finish
  split
  · next a rest hb =>
    refine ⟨?_, ?_⟩
    · intro ha
      have := h.enough ha
      rw [hb] at this
      simp only [List.length_cons] at this
      show rest.length ≤ s.notifyOnes + s.woken.length
      omega
    · intro _ hr
      show (!rest.isEmpty) = true
      cases rest with
      | nil => exact absurd rfl hr
      | cons _ _ => rfl
  · next hb => exact ⟨h.enough, h.flag⟩

theorem ne_nil_of_erase {l : List Nat} {c : Nat} (h : l.erase c ≠ []) : l ≠ [] := by
  intro e; subst e; exact h rfl

theorem Inv.step {ins : Insert α} (hlen : ∀ l a, (ins l a).length = l.length + 1)
    {s : State α} (h : Inv s) (e : Event α)
    (hr : e.isReset = true → s.asleep = [] ∧ s.woken = []) :
    Inv (Queue.step ins s e) := by
  cases e with
  | push a =>
    refine ⟨?_, fun _ _ => rfl⟩
    intro ha
    have := h.enough ha
    show (ins s.buf a).length ≤ s.notifyOnes + 1 + s.woken.length
    rw [hlen]
    omega
  | notifyOne who =>
    cases who with
    | none =>
      simp only [Queue.step]
      split
      · exact h
      · split
        · next hne he =>
          exact ⟨fun ha => absurd he ha, h.flag⟩
        · exact h
    | some c =>
      simp only [Queue.step]
      split
      · exact h
      · split
        · next hne hm =>
          have hlen1 : 0 < s.notifyOnes := by omega
          refine ⟨?_, ?_⟩
          · intro ha
            have := h.enough (ne_nil_of_erase ha)
            show _ ≤ s.notifyOnes - 1 + (s.woken ++ [c]).length
            simp only [List.length_append, List.length_singleton]
            omega
          · intro _ hb
            exact h.flag (.inl (List.ne_nil_of_mem hm)) hb
        · exact h
  | enter c =>
    simp only [Queue.step]
    split
    · exact h
    · next hc =>
      split
      · next he =>
        simp only [Bool.and_eq_true, List.isEmpty_iff, Bool.not_eq_true'] at he
        refine ⟨?_, ?_⟩
        · intro _
          show s.buf.length ≤ _
          rw [he.1]
          exact Nat.zero_le _
        · intro _ hb
          exact absurd he.1 hb
      · exact h.finish c
  | spurious c =>
    simp only [Queue.step]
    split
    · next hm =>
      refine ⟨?_, ?_⟩
      · intro ha
        have := h.enough (ne_nil_of_erase ha)
        show _ ≤ s.notifyOnes + (s.woken ++ [c]).length
        simp only [List.length_append, List.length_singleton]
        omega
      · intro _ hb
        exact h.flag (.inl (List.ne_nil_of_mem hm)) hb
    · exact h
  | run c =>
    simp only [Queue.step]
    split
    · next hm =>
      have hlen1 : (s.woken.erase c).length + 1 = s.woken.length := by
        rw [List.length_erase_of_mem hm]
        have := List.length_pos_of_mem hm
        omega
      split
      · next hw =>
        have hw : s.wake = true := hw
        unfold Queue.finish
        split
        · next a rest hb =>
          have hb : s.buf = a :: rest := hb
          refine ⟨?_, ?_⟩
          · intro ha
            have := h.enough ha
            rw [hb] at this
            simp only [List.length_cons] at this
            show rest.length ≤ s.notifyOnes + (s.woken.erase c).length
            omega
          · intro _ hr'
            show (!rest.isEmpty) = true
            cases rest with
            | nil => exact absurd rfl hr'
            | cons _ _ => rfl
        · next hb =>
          have hb : s.buf = [] := hb
          refine ⟨?_, fun _ _ => hw⟩
          intro _
          show s.buf.length ≤ _
          rw [hb]
          exact Nat.zero_le _
      · next hw =>
        have hb : s.buf = [] := by
          apply Decidable.byContradiction
          intro hb
          exact hw (h.flag (.inr (List.ne_nil_of_mem hm)) hb)
        refine ⟨?_, fun _ hb' => absurd hb hb'⟩
        intro _
        show s.buf.length ≤ _
        rw [hb]
        exact Nat.zero_le _
    · exact h
  | clear =>
    refine ⟨fun _ => Nat.zero_le _, fun _ _ => rfl⟩
  | notifyAll =>
    simp only [Queue.step]
    split
    · exact h
    · refine ⟨fun ha => absurd rfl ha, ?_⟩
      intro ho hb
      refine h.flag ?_ hb
      rcases ho with ho | ho
      · exact absurd rfl ho
      · by_cases ha : s.asleep = []
        · right
          intro e
          apply ho
          show s.woken ++ s.asleep = []
          rw [e, ha]
          rfl
        · exact .inl ha
  | reset =>
    obtain ⟨h1, h2⟩ := hr rfl
    refine ⟨fun ha => absurd h1 ha, ?_⟩
    intro ho
    rcases ho with ho | ho
    · exact absurd h1 ho
    · exact absurd h2 ho

theorem Run.inv {ins : Insert α} (hlen : ∀ l a, (ins l a).length = l.length + 1)
    {es : List (Event α)} {s : State α} (h : Run ins es s) : Inv s := by
  induction h with
  | nil => exact ⟨fun ha => absurd rfl ha, fun _ hb => absurd rfl hb⟩
  | step e _ hr ih => exact ih.step hlen e hr

theorem fifo_length (l : List α) (a : α) : (fifo l a).length = l.length + 1 := by
  simp [fifo]

theorem byPriority_length (lt : α → α → Bool) (l : List α) (a : α) :
    (byPriority lt l a).length = l.length + 1 := by
  have := (byPriority_perm lt l a).length_eq
  simpa using this

/-- **C33.** A consumer is left asleep only while the queue is empty: once all
notifications have been sent and all woken consumers have run, either nobody is
asleep or there is nothing to pop.  For both containers. -/
theorem C33_asleep (ins : Insert α) (hlen : ∀ l a, (ins l a).length = l.length + 1)
    (es : List (Event α)) (s : State α) (h : Run ins es s) (h1 : s.notifyOnes = 0)
    (h2 : s.woken = []) (h3 : s.asleep ≠ []) : s.buf = [] := by
  have := (h.inv hlen).enough h3
  rw [h1, h2] at this
  exact List.length_eq_zero_iff.mp (by simpa using this)

/-- **C33.** A woken consumer that finds elements in the queue takes one; it does
not go back to sleep. -/
theorem C33_woken (ins : Insert α) (hlen : ∀ l a, (ins l a).length = l.length + 1)
    (es : List (Event α)) (s : State α) (h : Run ins es s) (c : Nat)
    (hc : c ∈ s.woken) (a : α) (rest : List α) (hb : s.buf = a :: rest) :
    (step ins s (.run c)).returned = s.returned ++ [(c, some a)] ∧
      (step ins s (.run c)).buf = rest ∧ (step ins s (.run c)).asleep = s.asleep := by
  have hw := (h.inv hlen).flag (.inr (List.ne_nil_of_mem hc)) (by simp [hb])
  simp [step, hc, hw, finish, hb]

/-- **C33.** A consumer that calls `pop` while there are elements takes the first
one without waiting. -/
theorem C33_enter (ins : Insert α) (s : State α) (c : Nat)
    (hc : c ∉ s.asleep ∧ c ∉ s.woken) (a : α) (rest : List α)
    (hb : s.buf = a :: rest) :
    (step ins s (.enter c)).returned = s.returned ++ [(c, some a)] ∧
      (step ins s (.enter c)).buf = rest := by
  simp [step, hc.1, hc.2, finish, hb]

/-- A history that continues from a given state. -/
inductive Later (ins : Insert α) (s : State α) : List (Event α) → State α → Prop where
  | nil : Later ins s [] s
  | step {es : List (Event α)} {t : State α} (e : Event α) (h : Later ins s es t) :
      Later ins s (es ++ [e]) (step ins t e)

/-- **C33, in part.** If nothing is pushed after `clear` (and `reset` is not called
too early), every consumer inside `pop` returns false: the queue stays empty and
the flag stays set; once the notification is out nobody is asleep, and whoever
takes the mutex returns without an element.  Missing: pushes after the call, see
`C33_clear_violated`. -/
theorem C33_clear_partial (ins : Insert α) (s : State α) (es : List (Event α))
    (t : State α) (h : Later ins (step ins s .clear) es t)
    (hp : ∀ e ∈ es, (∀ a, e ≠ .push a) ∧ e.isReset = false) :
    t.buf = [] ∧ t.wake = true ∧
    (t.notifyAlls = 0 → t.asleep = []) ∧
    ∀ c ∈ t.woken, (step ins t (.run c)).returned = t.returned ++ [(c, none)] ∧
      (step ins t (.run c)).woken = t.woken.erase c := by
  have key : t.buf = [] ∧ t.wake = true ∧ (t.notifyAlls = 0 → t.asleep = []) := by
    induction h with
    | nil => exact ⟨rfl, rfl, fun h => by simp [step] at h⟩
    | @step es t e _ ih =>
      obtain ⟨h1, h2, h3⟩ := ih fun x hx => hp x (by simp [hx])
      obtain ⟨p1, p2⟩ := hp e (by simp)
      cases e with
      | push a => exact absurd rfl (p1 a)
      | notifyOne who =>
        cases who with
        | none =>
          simp only [step]
          (repeat' split) <;> exact ⟨h1, h2, h3⟩
        | some c =>
          simp only [step]
          split
          · exact ⟨h1, h2, h3⟩
          · split
            · exact ⟨h1, h2, fun h => by rw [h3 h]; rfl⟩
            · exact ⟨h1, h2, h3⟩
      | enter c =>
        simp only [step]
        split
        · exact ⟨h1, h2, h3⟩
        · rw [h2]
          simp only [Bool.not_true, Bool.and_false, Bool.false_eq_true, if_false]
          unfold finish
          rw [h1]
          exact ⟨rfl, h2, h3⟩
      | spurious c =>
        simp only [step]
        split
        · exact ⟨h1, h2, fun h => by rw [h3 h]; rfl⟩
        · exact ⟨h1, h2, h3⟩
      | run c =>
        by_cases hc : c ∈ t.woken
        · simp only [step, hc, h1, h2, finish, if_true]
          exact ⟨trivial, trivial, h3⟩
        · simp only [step, hc, if_false]
          exact ⟨h1, h2, h3⟩
      | clear => exact ⟨rfl, rfl, fun h => by simp [step] at h⟩
      | notifyAll =>
        simp only [step]
        split
        · exact ⟨h1, h2, h3⟩
        · exact ⟨h1, h2, fun _ => rfl⟩
      | reset => cases p2
  refine ⟨key.1, key.2.1, key.2.2, ?_⟩
  intro c hc
  simp [step, hc, key.1, key.2.1, finish]

/-- Play events from the start. -/
def play (ins : Insert α) (es : List (Event α)) : State α :=
  es.foldl (step ins) init

theorem play_run (ins : Insert α) (es : List (Event α))
    (h : ∀ e ∈ es, e.isReset = false) : Run ins es (play ins es) := by
  have key : ∀ (pre es : List (Event α)) (s : State α), Run ins pre s →
      (∀ e ∈ es, e.isReset = false) →
      Run ins (pre ++ es) (es.foldl (step ins) s) := by
    intro pre es
    induction es generalizing pre with
    | nil => intro s hs _; simpa using hs
    | cons e es ih =>
      intro s hs he
      have := ih (pre ++ [e]) _ (hs.step e fun hr => by
        rw [he e (by simp)] at hr; cases hr) fun x hx => he x (by simp [hx])
      simpa using this
  have := key [] es init .nil h
  rw [List.nil_append] at this
  exact this

/-- **C33, counterexample.** `clear` does not always wake everyone for good: a
consumer that was asleep when `clear` was called is asleep again, with nothing
left to wake it, if another thread pushes and a third one pops before it takes
the mutex.  Its `pop` has not returned. -/
theorem C33_clear_violated :
    ∃ (es : List (Event Nat)) (s : State Nat), Run fifo es s ∧
      -- consumer 1 is the only one asleep when the queue is cleared
      (play fifo (es.take 1)).asleep = [1] ∧ es[1]? = some .clear ∧
      s.asleep = [1] ∧ s.notifyOnes = 0 ∧ s.notifyAlls = 0 ∧ s.woken = [] ∧
      s.buf = [] ∧ s.wake = false ∧ ∀ r ∈ s.returned, r.1 ≠ 1 := by
  refine ⟨[.enter 1, .clear, .notifyAll, .push 7, .notifyOne none, .enter 2, .run 1],
    _, play_run _ _ (by decide), ?_⟩
  refine ⟨by decide, rfl, ?_⟩
  decide

/-! ### Examples -/

/-- Two consumers asleep, two elements pushed, both taken in order. -/
example : (play fifo [.enter 1, .enter 2, .push 10, .push 20, .notifyOne (some 2),
    .notifyOne (some 1), .run 2, .run 1]).returned =
    [(2, some 10), (1, some 20)] := by decide

/-- The hypotheses of `C33_asleep` are met. -/
example : (play (fifo (α := Nat)) [.enter 1, .push 5, .notifyOne (some 1), .run 1,
    .enter 2]).asleep = [2] := by decide

/-- The greatest element comes first. -/
example : (play (byPriority (fun a b => decide (a < b))) [.push 3, .push 9, .push 4,
    .enter 1, .enter 1]).returned = [(1, some 9), (1, some 4)] := by decide

end Verif.Queue
