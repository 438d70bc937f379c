import Verif.Threads.Model
/-!
# What is true of every state of the thread pool (lemmas for C111)
-/
namespace Verif.Threads

/-- How many threads the destructor has cleared the queue of. -/
def closedTo (s : State) : Nat :=
  if s.gone then s.workers.length
  else match s.lock with
    | some ⟨_, _, .clear k⟩ => k
    | some ⟨_, _, .join k⟩ => k + 1
    | _ => 0

/-- How many threads the destructor has joined. -/
def joinedTo (s : State) : Nat :=
  if s.gone then s.workers.length
  else match s.lock with
    | some ⟨_, _, .clear k⟩ => k
    | some ⟨_, _, .join k⟩ => k
    | _ => 0

/-- The thread that is about to be given a function. -/
def handing (s : State) : Option Nat :=
  match s.lock with
  | some ⟨_, _, .hand k⟩ => some k
  | _ => none

/-- The function for which the mutex is held. -/
def lockJob (s : State) : List Nat :=
  match s.lock with
  | some h => h.job.toList
  | none => []

/-- The function a thread is in. -/
def insideJob (w : Worker) : List Nat :=
  match w.place with
  | .inside j => [j]
  | _ => []

/-- A single thread; `c`, `d` and `g` are `closedTo`, `joinedTo` and `handing`. -/
structure WOk (c d : Nat) (g : Option Nat) (i : Nat) (w : Worker) : Prop where
  free : w.running = false → w.queue = [] ∧ (w.place = .popping ∨ w.place = .ended)
  busy : w.place ≠ .popping → w.place ≠ .ended → w.running = true ∧ w.queue = []
  one : w.queue.length ≤ 1
  popping : w.queue ≠ [] → w.place = .popping
  unassigned : w.running = true → w.queue = [] → w.place = .popping → g = some i ∨ i < c
  fresh : c ≤ i → w.place ≠ .ended ∧ w.wake = !w.queue.isEmpty
  cleared : i < c → w.queue = [] ∧ w.wake = true
  joined : i < d → w.place = .ended

/-- The thread that holds the mutex. -/
def LockOk (ws : List Worker) (h : Holder) : Prop :=
  match h.stage with
  | .look i => h.job.isSome ∧ i ≤ ws.length
  | .mark i => h.job.isSome ∧ ∃ w, ws[i]? = some w ∧ w.running = false
  | .hand i => h.job.isSome ∧
      ∃ w, ws[i]? = some w ∧ w.running = true ∧ w.queue = [] ∧ w.place = .popping
  | .clear i => h.job = none ∧ i ≤ ws.length
  | .join i => h.job = none ∧ i < ws.length

/-- What is true of every state. -/
structure Inv (s : State) : Prop where
  worker : ∀ i w, s.workers[i]? = some w → WOk (closedTo s) (joinedTo s) (handing s) i w
  lock : ∀ h, s.lock = some h → LockOk s.workers h
  gone : s.gone = true → s.lock = none
  jobs : (List.range s.pushed).Perm
    (s.waiting.map (·.2) ++ lockJob s ++ s.workers.flatMap (·.queue) ++ s.begun ++ s.dropped)
  done : s.begun.Perm (s.workers.flatMap insideJob ++ s.returned)
  callers : (s.waiting.map (·.1)).Nodup

theorem inv_init : Inv init where
  worker := by intro i w h; simp [init] at h
  lock := by intro h hh; simp [init] at hh
  gone := by intro h; simp [init] at h
  jobs := by simp [init, lockJob]
  done := by simp [init]
  callers := by simp [init]

/-! ### Changing one thread -/

theorem get_modify {ws : List Worker} {i k : Nat} {f : Worker → Worker} {w : Worker}
    (h : (ws.modify i f)[k]? = some w) :
    ∃ w₀, ws[k]? = some w₀ ∧ ((i = k ∧ w = f w₀) ∨ (i ≠ k ∧ w = w₀)) := by
  rw [List.getElem?_modify] at h
  cases hk : ws[k]? with
  | none => simp [hk] at h
  | some w₀ =>
    refine ⟨w₀, rfl, ?_⟩
    by_cases e : i = k
    · simp [hk, e] at h; exact Or.inl ⟨e, h.symm⟩
    · simp [hk, e] at h; exact Or.inr ⟨e, h.symm⟩

theorem modify_get {ws : List Worker} {i k : Nat} {f : Worker → Worker} {w : Worker}
    (h : ws[k]? = some w) :
    (ws.modify i f)[k]? = some (if i = k then f w else w) := by
  rw [List.getElem?_modify, h]; rfl

theorem count_modify {ws : List Worker} {i : Nat} {f : Worker → Worker} {w : Worker}
    (g : Worker → List Nat) (j : Nat) (h : ws[i]? = some w) :
    ((ws.modify i f).flatMap g).count j + (g w).count j =
      (ws.flatMap g).count j + (g (f w)).count j := by
  induction ws generalizing i with
  | nil => simp at h
  | cons x xs ih =>
    cases i with
    | zero =>
      simp at h; subst h
      simp [List.modify_cons, List.count_append]; omega
    | succ i =>
      simp at h
      have := ih h
      simp [List.modify_cons, List.count_append]; omega

theorem flatMap_modify_same {ws : List Worker} {i : Nat} {f : Worker → Worker}
    (g : Worker → List Nat) (h : ∀ w, ws[i]? = some w → g (f w) = g w) :
    ((ws.modify i f).flatMap g).Perm (ws.flatMap g) := by
  cases hw : ws[i]? with
  | none =>
    rw [List.modify_eq_self (by simpa using hw)]
  | some w =>
    rw [List.perm_iff_count]; intro j
    have := count_modify (f := f) g j hw
    rw [h w hw] at this; omega

/-! ### The steps -/

theorem lookup_waiting {l : List (Caller × Nat)} {c : Caller} {p : Caller × Nat}
    (hn : (l.map (·.1)).Nodup) (h : l.find? (·.1 == c) = some p) :
    (l.map (·.2)).Perm (p.2 :: (l.filter (·.1 != c)).map (·.2)) := by
  induction l with
  | nil => simp at h
  | cons x xs ih =>
    simp only [List.map_cons, List.nodup_cons] at hn
    by_cases e : x.1 = c
    · simp [e] at h; subst h
      have : xs.filter (·.1 != c) = xs := by
        rw [List.filter_eq_self]; intro y hy
        simp only [bne_iff_ne, ne_eq]
        intro hc
        exact hn.1 (List.mem_map.mpr ⟨y, hy, by rw [hc, e]⟩)
      simp [e, this]
    · simp [e] at h
      have := ih hn.2 h
      simp [e]
      exact (List.Perm.cons _ this).trans (List.Perm.swap _ _ _)

theorem inv_step {s s' : State} {e : Event} (hs : Inv s) (h : step s e = some s') : Inv s' := by
  unfold step at h
  split at h
  · cases h
  next hlive =>
  have hgone : s.gone = false := by cases hg : s.gone <;> simp_all
  cases e with
  | call c =>
    simp only at h
    split at h
    case isFalse => cases h
    next hc =>
    injection h with h; subst h
    refine ⟨hs.worker, hs.lock, hs.gone, ?_, hs.done, ?_⟩
    · have := hs.jobs
      rw [List.perm_iff_count] at this ⊢
      intro j
      have := this j
      simp only [List.range_succ, List.map_append, List.count_append, lockJob] at this ⊢
      simp only [List.map_cons, List.map_nil]
      omega
    · simp only [List.map_append, List.map_cons, List.map_nil]
      rw [List.nodup_append]
      refine ⟨hs.callers, by simp, ?_⟩
      intro a ha b hb hab
      simp at hb; subst hb; subst hab
      obtain ⟨p, hp, rfl⟩ := List.mem_map.mp ha
      simp only [State.canCall, State.isWaiting, Bool.and_eq_true, Bool.not_eq_true'] at hc
      have := hc.1.1
      rw [List.any_eq_false] at this
      exact this p hp (by simp)
  | acquire c =>
    simp only at h
    split at h
    case h_2 => cases h
    next p j hl hw =>
    injection h with h; subst h
    refine ⟨?_, ?_, ?_, ?_, hs.done, ?_⟩
    · intro i w hi
      have := hs.worker i w hi
      simpa [closedTo, joinedTo, handing, hgone, hl] using this
    · intro h' hh; injection hh with hh; subst hh; simp [LockOk]
    · intro hg; simp [hgone] at hg
    · have h1 := lookup_waiting hs.callers hw
      refine hs.jobs.trans ?_
      simp only [lockJob, hl, Option.toList, List.append_nil] at *
      simp only [List.append_assoc]
      refine (h1.append_right _).trans ?_
      simp only [List.cons_append, List.nil_append]
      exact List.perm_middle.symm
    · exact List.Nodup.sublist (List.Sublist.map _ List.filter_sublist) hs.callers
  | destroy c =>
    simp only at h
    split at h
    case isFalse => cases h
    next hc =>
    simp only [Bool.and_eq_true, Option.isNone_iff_eq_none] at hc
    have hl := hc.2
    injection h with h; subst h
    refine ⟨?_, ?_, ?_, ?_, hs.done, hs.callers⟩
    · intro i w hi
      have := hs.worker i w hi
      simpa [closedTo, joinedTo, handing, hgone, hl] using this
    · intro h' hh; injection hh with hh; subst hh; simp [LockOk]
    · intro hg; simp [hgone] at hg
    · have := hs.jobs
      simpa [lockJob, hl] using this
  | hold =>
    simp only at h
    split at h
    case h_2 => cases h
    next hd hl =>
    have hlock := hs.lock hd hl
    unfold hold at h
    obtain ⟨who, job, stage⟩ := hd
    cases stage with
    | look i =>
      simp only [LockOk] at hlock
      simp only at h
      split at h
      · next hn =>
        injection h with h; subst h
        have hi : i = s.workers.length := by
          have := List.getElem?_eq_none_iff.mp hn; omega
        refine ⟨?_, ?_, ?_, ?_, ?_, hs.callers⟩
        · intro k w hk
          rw [List.getElem?_append] at hk
          split at hk
          · have := hs.worker k w hk
            simp only [closedTo, joinedTo, handing, hgone, hl] at this ⊢
            exact { this with unassigned := fun a b c => by have := this.unassigned a b c; simp_all }
          · next hge =>
            have hk0 : k = s.workers.length := by
              by_cases hz : k - s.workers.length = 0
              · omega
              · rw [List.getElem?_eq_none (by simp; omega)] at hk; cases hk
            subst hk0
            simp at hk; subst hk
            constructor <;> simp [newWorker, closedTo, joinedTo, handing, hgone]
        · intro h' hh; injection hh with hh; subst hh
          exact ⟨hlock.1, newWorker, by simp, rfl, rfl, rfl⟩
        · intro hg; simp [hgone] at hg
        · have := hs.jobs
          simpa [lockJob, hl, newWorker] using this
        · have := hs.done
          simpa [insideJob, newWorker] using this
      · next w hw =>
        split at h
        · injection h with h; subst h
          refine ⟨?_, ?_, ?_, ?_, hs.done, hs.callers⟩
          · intro k w' hk
            have := hs.worker k w' hk
            simpa [closedTo, joinedTo, handing, hgone, hl] using this
          · intro h' hh; injection hh with hh; subst hh
            refine ⟨hlock.1, ?_⟩
            have := (List.getElem?_eq_some_iff.mp hw).1
            exact this
          · intro hg; simp [hgone] at hg
          · have := hs.jobs
            simpa [lockJob, hl] using this
        · next hr =>
          injection h with h; subst h
          refine ⟨?_, ?_, ?_, ?_, hs.done, hs.callers⟩
          · intro k w' hk
            have := hs.worker k w' hk
            simpa [closedTo, joinedTo, handing, hgone, hl] using this
          · intro h' hh; injection hh with hh; subst hh
            exact ⟨hlock.1, w, hw, by simpa using hr⟩
          · intro hg; simp [hgone] at hg
          · have := hs.jobs
            simpa [lockJob, hl] using this
    | mark i =>
      simp only at h
      injection h with h; subst h
      obtain ⟨hj, w, hw, hr⟩ := hlock
      have hwok := hs.worker i w hw
      simp only [closedTo, joinedTo, handing, hgone, hl] at hwok
      have hq := hwok.free hr
      have hnp := hwok.fresh (by simp)
      have hpop : w.place = .popping := by
        rcases hq.2 with h | h
        · exact h
        · exact absurd h hnp.1
      refine ⟨?_, ?_, ?_, ?_, ?_, hs.callers⟩
      · intro k w' hk
        obtain ⟨w₀, hk0, hcase⟩ := get_modify hk
        have h0 := hs.worker k w₀ hk0
        simp only [closedTo, joinedTo, handing, hgone, hl] at h0 ⊢
        rcases hcase with ⟨rfl, rfl⟩ | ⟨hne, rfl⟩
        · rw [hw] at hk0; injection hk0 with hk0; subst hk0
          constructor <;> simp_all
        · exact { h0 with unassigned := fun a b c => by have := h0.unassigned a b c; simp_all }
      · intro h' hh; injection hh with hh; subst hh
        refine ⟨hj, { w with running := true }, ?_, rfl, hq.1, hpop⟩
        rw [modify_get hw]; simp
      · intro hg; simp [hgone] at hg
      · refine hs.jobs.trans ?_
        simp only [lockJob, hl]
        have := flatMap_modify_same (ws := s.workers) (i := i)
          (f := fun w => { w with running := true }) (·.queue) (fun _ _ => rfl)
        exact ((this.symm.append_left _).append_right _).append_right _
      · refine hs.done.trans ?_
        have := flatMap_modify_same (ws := s.workers) (i := i)
          (f := fun w => { w with running := true }) insideJob (fun _ _ => rfl)
        exact this.symm.append_right _
    | hand i =>
      simp only at h
      injection h with h; subst h
      obtain ⟨hj, w, hw, hr, hq, hpop⟩ := hlock
      obtain ⟨j, rfl⟩ := Option.isSome_iff_exists.mp hj
      refine ⟨?_, ?_, ?_, ?_, ?_, hs.callers⟩
      · intro k w' hk
        obtain ⟨w₀, hk0, hcase⟩ := get_modify hk
        have h0 := hs.worker k w₀ hk0
        simp only [closedTo, joinedTo, handing, hgone, hl] at h0 ⊢
        rcases hcase with ⟨rfl, rfl⟩ | ⟨hne, rfl⟩
        · rw [hw] at hk0; injection hk0 with hk0; subst hk0
          constructor <;> simp_all
        · refine { h0 with unassigned := fun a b c => ?_ }
          have := h0.unassigned a b c
          simp_all
      · intro h' hh; cases hh
      · intro hg; rfl
      · refine hs.jobs.trans ?_
        rw [List.perm_iff_count]; intro x
        have := count_modify (f := fun w => { w with queue := w.queue ++ [j], wake := true })
          (·.queue) x hw
        simp only [lockJob, hl, Option.toList, List.count_append] at this ⊢
        simp only [List.count_nil]
        omega
      · refine hs.done.trans ?_
        have := flatMap_modify_same (ws := s.workers) (i := i)
          (f := fun w => { w with queue := w.queue ++ [j], wake := true }) insideJob
          (fun _ _ => rfl)
        exact this.symm.append_right _
    | clear i =>
      simp only at h
      simp only [LockOk] at hlock
      split at h
      · next hn =>
        injection h with h; subst h
        have hi : i = s.workers.length := by
          have := List.getElem?_eq_none_iff.mp hn; omega
        refine ⟨?_, ?_, ?_, ?_, hs.done, hs.callers⟩
        · intro k w hk
          have := hs.worker k w hk
          simpa [closedTo, joinedTo, handing, hgone, hl, hi] using this
        · intro h' hh; cases hh
        · intro _; rfl
        · have := hs.jobs
          simpa [lockJob, hl, hlock.1] using this
      · next w hw =>
        injection h with h; subst h
        refine ⟨?_, ?_, ?_, ?_, ?_, hs.callers⟩
        · intro k w' hk
          obtain ⟨w₀, hk0, hcase⟩ := get_modify hk
          have h0 := hs.worker k w₀ hk0
          simp only [closedTo, joinedTo, handing, hgone, hl] at h0 ⊢
          rcases hcase with ⟨rfl, rfl⟩ | ⟨hne, rfl⟩
          · constructor
            · intro a; exact ⟨rfl, (h0.free a).2⟩
            · intro a b; exact ⟨(h0.busy a b).1, rfl⟩
            · simp
            · simp
            · intro _ _ _; right; simp
            · simp
            · intro _; exact ⟨rfl, rfl⟩
            · simp
          · constructor
            · exact h0.free
            · exact h0.busy
            · exact h0.one
            · exact h0.popping
            · intro a b c
              rcases h0.unassigned a b c with hx | hx
              · cases hx
              · right; simp at hx ⊢; omega
            · intro a; exact h0.fresh (by simp at a ⊢; omega)
            · intro a; exact h0.cleared (by simp at a ⊢; omega)
            · intro a; exact h0.joined (by simpa using a)
        · intro h' hh; injection hh with hh; subst hh
          refine ⟨hlock.1, ?_⟩
          simpa using (List.getElem?_eq_some_iff.mp hw).1
        · intro hg; simp [hgone] at hg
        · refine hs.jobs.trans ?_
          rw [List.perm_iff_count]; intro x
          have := count_modify (f := fun w => { w with queue := [], wake := true })
            (·.queue) x hw
          simp only [lockJob, hl, hlock.1, Option.toList, List.count_append] at this ⊢
          simp only [List.count_nil] at this ⊢
          omega
        · refine hs.done.trans ?_
          have := flatMap_modify_same (ws := s.workers) (i := i)
            (f := fun w => { w with queue := [], wake := true }) insideJob (fun _ _ => rfl)
          exact this.symm.append_right _
    | join i =>
      simp only at h
      simp only [LockOk] at hlock
      split at h
      · injection h with h; subst h
        exact ⟨hs.worker, hs.lock, hs.gone, hs.jobs, hs.done, hs.callers⟩
      · split at h
        case h_2 => cases h
        next w hw =>
        split at h
        case isFalse => cases h
        next hend =>
        injection h with h; subst h
        refine ⟨?_, ?_, ?_, ?_, hs.done, hs.callers⟩
        · intro k w' hk
          have h0 := hs.worker k w' hk
          simp only [closedTo, joinedTo, handing, hgone, hl] at h0 ⊢
          refine { h0 with joined := fun a => ?_ }
          by_cases e : k = i
          · subst e; rw [hw] at hk; injection hk with hk; subst hk; exact hend
          · exact h0.joined (by simp at a ⊢; omega)
        · intro h' hh; injection hh with hh; subst hh
          exact ⟨hlock.1, hlock.2⟩
        · intro hg; simp [hgone] at hg
        · have := hs.jobs
          simpa [lockJob, hl] using this
  | take i =>
    simp only [take] at h
    split at h
    case h_2 => cases h
    next w hw =>
    split at h
    case isFalse => cases h
    next hpop =>
    have hwok := hs.worker i w hw
    split at h
    · next j q hq =>
      injection h with h; subst h
      have hq0 : q = [] := by
        have := hwok.one; rw [hq] at this; simp at this; exact this
      subst hq0
      have hrun : w.running = true := by
        cases hr : w.running with
        | true => rfl
        | false => have := (hwok.free hr).1; rw [hq] at this; cases this
      have hnc : closedTo s ≤ i := by
        rcases Nat.lt_or_ge i (closedTo s) with hlt | hge
        · have := (hwok.cleared hlt).1; rw [hq] at this; cases this
        · exact hge
      have hnj : joinedTo s ≤ i := by
        rcases Nat.lt_or_ge i (joinedTo s) with hlt | hge
        · have := hwok.joined hlt; rw [hpop] at this; cases this
        · exact hge
      refine ⟨?_, ?_, hs.gone, ?_, ?_, hs.callers⟩
      · intro k w' hk
        obtain ⟨w₀, hk0, hcase⟩ := get_modify hk
        have h0 := hs.worker k w₀ hk0
        show WOk (closedTo _) (joinedTo _) (handing _) k w'
        have e1 : closedTo { s with
            workers := s.workers.modify i (fun w =>
              { w with queue := [], wake := !List.isEmpty ([] : List Nat), place := .inside j })
            begun := j :: s.begun } = closedTo s := by
          simp [closedTo, hgone]
        have e2 : joinedTo { s with
            workers := s.workers.modify i (fun w =>
              { w with queue := [], wake := !List.isEmpty ([] : List Nat), place := .inside j })
            begun := j :: s.begun } = joinedTo s := by
          simp [joinedTo, hgone]
        rw [e1, e2]
        rcases hcase with ⟨rfl, rfl⟩ | ⟨hne, rfl⟩
        · rw [hw] at hk0; injection hk0 with hk0; subst hk0
          constructor
          · intro a; simp [hrun] at a
          · intro _ _; exact ⟨hrun, rfl⟩
          · simp
          · intro a; simp at a
          · intro _ _ a; cases a
          · intro _; exact ⟨by simp, rfl⟩
          · intro a; omega
          · intro a; omega
        · exact h0
      · intro h' hh
        have hlk := hs.lock h' hh
        obtain ⟨who, job, stage⟩ := h'
        cases stage with
        | look k => simpa [LockOk] using hlk
        | mark k =>
          obtain ⟨a, w', hk, hr'⟩ := hlk
          have hne : i ≠ k := by
            intro e; subst e; rw [hw] at hk; injection hk with hk; subst hk; simp [hrun] at hr'
          exact ⟨a, w', by simp [modify_get hk, hne], hr'⟩
        | hand k =>
          obtain ⟨a, w', hk, hr', hq', hp'⟩ := hlk
          have hne : i ≠ k := by
            intro e; subst e; rw [hw] at hk; injection hk with hk; subst hk; simp [hq] at hq'
          exact ⟨a, w', by simp [modify_get hk, hne], hr', hq', hp'⟩
        | clear k => simpa [LockOk] using hlk
        | join k => simpa [LockOk] using hlk
      · refine hs.jobs.trans ?_
        rw [List.perm_iff_count]; intro x
        have := count_modify (f := fun w =>
          { w with queue := [], wake := !List.isEmpty ([] : List Nat), place := .inside j })
          (·.queue) x hw
        simp only [hq, lockJob, List.count_append, List.count_cons, List.count_nil] at this ⊢
        omega
      · rw [List.perm_iff_count]; intro x
        have h1 := (List.perm_iff_count.mp hs.done) x
        have := count_modify (f := fun w =>
          { w with queue := [], wake := !List.isEmpty ([] : List Nat), place := .inside j })
          insideJob x hw
        have e1 : insideJob w = [] := by simp [insideJob, hpop]
        have e2 : insideJob { w with
          queue := [], wake := !List.isEmpty ([] : List Nat), place := .inside j } = [j] := rfl
        simp only [e1, e2, List.count_append, List.count_cons, List.count_nil] at this h1 ⊢
        omega
    · next hq =>
      split at h
      case isFalse => cases h
      next hwake =>
      injection h with h; subst h
      have hc : i < closedTo s := by
        rcases Nat.lt_or_ge i (closedTo s) with hlt | hge
        · exact hlt
        · have := (hwok.fresh hge).2; simp [hq, hwake] at this
      refine ⟨?_, ?_, hs.gone, ?_, ?_, hs.callers⟩
      · intro k w' hk
        obtain ⟨w₀, hk0, hcase⟩ := get_modify hk
        have h0 := hs.worker k w₀ hk0
        have e1 : closedTo { s with
            workers := s.workers.modify i (fun w => { w with place := .ended }) } = closedTo s := by
          simp [closedTo, hgone]
        have e2 : joinedTo { s with
            workers := s.workers.modify i (fun w => { w with place := .ended }) } = joinedTo s := by
          simp [joinedTo, hgone]
        rw [e1, e2]
        rcases hcase with ⟨rfl, rfl⟩ | ⟨hne, rfl⟩
        · rw [hw] at hk0; injection hk0 with hk0; subst hk0
          constructor
          · intro a; exact ⟨hq, Or.inr rfl⟩
          · intro _ a; exact absurd rfl a
          · simp [hq]
          · intro a; exact absurd hq a
          · intro _ _ a; cases a
          · intro a; omega
          · intro _; exact ⟨hq, hwake⟩
          · intro _; rfl
        · exact h0
      · intro h' hh
        have hlk := hs.lock h' hh
        obtain ⟨who, job, stage⟩ := h'
        cases stage with
        | look k => simpa [LockOk] using hlk
        | mark k =>
          have hh' : s.lock = some ⟨who, job, .mark k⟩ := hh
          simp [closedTo, hgone, hh'] at hc
        | hand k =>
          have hh' : s.lock = some ⟨who, job, .hand k⟩ := hh
          simp [closedTo, hgone, hh'] at hc
        | clear k => simpa [LockOk] using hlk
        | join k => simpa [LockOk] using hlk
      · refine hs.jobs.trans ?_
        have := flatMap_modify_same (ws := s.workers) (i := i)
          (f := fun w => { w with place := .ended }) (·.queue) (fun _ _ => rfl)
        exact ((this.symm.append_left _).append_right _).append_right _
      · refine hs.done.trans ?_
        have := flatMap_modify_same (ws := s.workers) (i := i)
          (f := fun w => { w with place := .ended }) insideJob
          (fun w' hw' => by
            rw [hw] at hw'; injection hw' with hw'; subst hw'; simp [insideJob, hpop])
        exact this.symm.append_right _
  | ret i =>
    simp only at h
    split at h
    case h_2 => cases h
    next w hw =>
    split at h
    case h_2 => cases h
    next j hin =>
    split at h
    case isFalse => cases h
    next hcan =>
    injection h with h; subst h
    have hwok := hs.worker i w hw
    refine ⟨?_, ?_, hs.gone, ?_, ?_, hs.callers⟩
    · intro k w' hk
      obtain ⟨w₀, hk0, hcase⟩ := get_modify hk
      have h0 := hs.worker k w₀ hk0
      have e1 : closedTo { s with
          workers := s.workers.modify i (fun w => { w with place := .after })
          returned := j :: s.returned } = closedTo s := by
        simp [closedTo, hgone]
      have e2 : joinedTo { s with
          workers := s.workers.modify i (fun w => { w with place := .after })
          returned := j :: s.returned } = joinedTo s := by
        simp [joinedTo, hgone]
      rw [e1, e2]
      rcases hcase with ⟨rfl, rfl⟩ | ⟨hne, rfl⟩
      · rw [hw] at hk0; injection hk0 with hk0; subst hk0
        have hb := h0.busy (by simp [hin]) (by simp [hin])
        constructor
        · intro a; simp [hb.1] at a
        · intro _ _; exact hb
        · exact h0.one
        · intro a; exact absurd hb.2 a
        · intro _ _ a; cases a
        · intro a; exact ⟨by simp, (h0.fresh a).2⟩
        · exact h0.cleared
        · intro a; have := h0.joined a; simp [hin] at this
      · exact h0
    · intro h' hh
      have hlk := hs.lock h' hh
      obtain ⟨who, job, stage⟩ := h'
      cases stage with
      | look k => simpa [LockOk] using hlk
      | mark k =>
        obtain ⟨a, w', hk, hr'⟩ := hlk
        have hne : i ≠ k := by
          intro e; subst e; rw [hw] at hk; injection hk with hk; subst hk
          have := (hwok.busy (by simp [hin]) (by simp [hin])).1; simp [this] at hr'
        exact ⟨a, w', by simp [modify_get hk, hne], hr'⟩
      | hand k =>
        obtain ⟨a, w', hk, hr', hq', hp'⟩ := hlk
        have hne : i ≠ k := by
          intro e; subst e; rw [hw] at hk; injection hk with hk; subst hk; simp [hin] at hp'
        exact ⟨a, w', by simp [modify_get hk, hne], hr', hq', hp'⟩
      | clear k => simpa [LockOk] using hlk
      | join k => simpa [LockOk] using hlk
    · refine hs.jobs.trans ?_
      have := flatMap_modify_same (ws := s.workers) (i := i)
        (f := fun w => { w with place := .after }) (·.queue) (fun _ _ => rfl)
      exact ((this.symm.append_left _).append_right _).append_right _
    · refine hs.done.trans ?_
      rw [List.perm_iff_count]; intro x
      have := count_modify (f := fun w => { w with place := .after }) insideJob x hw
      have e1 : insideJob w = [j] := by simp [insideJob, hin]
      have e2 : insideJob { w with place := .after } = [] := rfl
      simp only [e1, e2, List.count_append, List.count_cons, List.count_nil] at this ⊢
      omega
  | throws i =>
    simp only at h
    split at h
    case isFalse => cases h
    injection h with h; subst h
    exact ⟨hs.worker, hs.lock, hs.gone, hs.jobs, hs.done, hs.callers⟩
  | free i =>
    simp only at h
    split at h
    case h_2 => cases h
    next w hw =>
    split at h
    case isFalse => cases h
    next haft =>
    injection h with h; subst h
    have hwok := hs.worker i w hw
    have hb := hwok.busy (by simp [haft]) (by simp [haft])
    refine ⟨?_, ?_, hs.gone, ?_, ?_, hs.callers⟩
    · intro k w' hk
      obtain ⟨w₀, hk0, hcase⟩ := get_modify hk
      have h0 := hs.worker k w₀ hk0
      have e1 : closedTo { s with
          workers := s.workers.modify i (fun w =>
            { w with running := false, place := .popping }) } = closedTo s := by
        simp [closedTo, hgone]
      have e2 : joinedTo { s with
          workers := s.workers.modify i (fun w =>
            { w with running := false, place := .popping }) } = joinedTo s := by
        simp [joinedTo, hgone]
      rw [e1, e2]
      rcases hcase with ⟨rfl, rfl⟩ | ⟨hne, rfl⟩
      · rw [hw] at hk0; injection hk0 with hk0; subst hk0
        constructor
        · intro _; exact ⟨hb.2, Or.inl rfl⟩
        · intro a; exact absurd rfl a
        · exact h0.one
        · intro _; rfl
        · intro a; cases a
        · intro a; exact ⟨by simp, (h0.fresh a).2⟩
        · exact h0.cleared
        · intro a; have := h0.joined a; simp [haft] at this
      · exact h0
    · intro h' hh
      have hlk := hs.lock h' hh
      obtain ⟨who, job, stage⟩ := h'
      cases stage with
      | look k => simpa [LockOk] using hlk
      | mark k =>
        obtain ⟨a, w', hk, hr'⟩ := hlk
        have hne : i ≠ k := by
          intro e; subst e; rw [hw] at hk; injection hk with hk; subst hk; simp [hb.1] at hr'
        exact ⟨a, w', by simp [modify_get hk, hne], hr'⟩
      | hand k =>
        obtain ⟨a, w', hk, hr', hq', hp'⟩ := hlk
        have hne : i ≠ k := by
          intro e; subst e; rw [hw] at hk; injection hk with hk; subst hk; simp [haft] at hp'
        exact ⟨a, w', by simp [modify_get hk, hne], hr', hq', hp'⟩
      | clear k => simpa [LockOk] using hlk
      | join k => simpa [LockOk] using hlk
    · refine hs.jobs.trans ?_
      have := flatMap_modify_same (ws := s.workers) (i := i)
        (f := fun w => { w with running := false, place := .popping }) (·.queue) (fun _ _ => rfl)
      exact ((this.symm.append_left _).append_right _).append_right _
    · refine hs.done.trans ?_
      have := flatMap_modify_same (ws := s.workers) (i := i)
        (f := fun w => { w with running := false, place := .popping }) insideJob
        (fun w' hw' => by
          rw [hw] at hw'; injection hw' with hw'; subst hw'; simp [insideJob, haft])
      exact this.symm.append_right _

theorem inv_run {s s' : State} {es : List Event} (hs : Inv s) (h : run s es = some s') :
    Inv s' := by
  induction es generalizing s with
  | nil => simp [run] at h; exact h ▸ hs
  | cons e es ih =>
    simp only [run, Option.bind_eq_some_iff] at h
    obtain ⟨s₁, h1, h2⟩ := h
    exact ih (inv_step hs h1) h2

end Verif.Threads
