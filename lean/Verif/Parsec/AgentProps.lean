import Verif.Parsec.AgentStep
/-!
# Properties of the agent (C50, C70)
-/
namespace Verif.Parsec.Agent

/-! ### Specification -/

/-- The requests that move a transaction forward or back. -/
inductive Kind
  | begin | function | commit | finish | rollback
  deriving DecidableEq

def kind : Out → Option Kind
  | .begin => some .begin
  | .lock .function _ _ _ => some .function
  | .commit _ _ => some .commit
  | .finish _ => some .finish
  | .rollback _ => some .rollback
  | _ => none

/-- The request an event answers. -/
def answers : Event → Option Kind
  | .begun _ => some .begin
  | .locked .function _ => some .function
  | .committed _ => some .commit
  | .finished _ => some .finish
  | .rolledBack _ => some .rollback
  | _ => none

/-- The last such request made. -/
def lastCall : Trace → Option Out
  | [] => none
  | (_, o) :: h => (o.reverse.find? fun x => (kind x).isSome).or (lastCall h)

/-- The last such request made, unless it was answered. -/
def pending : Trace → Option Kind
  | [] => none
  | (e, o) :: h => (o.reverse.findSome? kind).or
    (if (answers e).isSome then none else pending h)

/-- The result a call of the result callback passes. -/
def asResult : Out → Option Result
  | .result r => some r
  | _ => none

/-- Results reported. -/
def results (h : Trace) : List Result :=
  h.flatMap fun s => s.2.filterMap asResult

/-- How often `exec` was called. -/
def execs (h : Trace) : Nat := (h.filter fun s => s.1 = .exec).length

/-- What a transaction that computes `u` writes. -/
def payload (cfg : Config) (u : Update) : Update :=
  if cfg.readonly then [] else u

/-- A commit of `u` was the last request when the broker confirmed a commit, and
no rollback was requested since. -/
def Acked (cfg : Config) (u : Update) : Trace → Prop
  | [] => False
  | (e, o) :: h => (∀ t, Out.rollback t ∉ o) ∧
    ((e = .committed .ok ∧ ∃ t, lastCall h = some (.commit t (payload cfg u))) ∨
      Acked cfg u h)

/-- May the server call `exec`?  It does so once, and again whenever it is told
to retry (src/parsec/agent/server_interface.cpp:25-38, src/parsec/agent/runners/lua/server.cpp:56-67, 78). -/
def owed : Trace → Bool
  | [] => true
  | (e, o) :: h =>
    match (o.reverse.findSome? asResult) with
    | some r => r = .error .retry
    | none => if e = .exec then false else owed h

/-- The server calls `exec` when it may, and the broker answers a request once.
Nothing is assumed about the locks of runners. -/
def Served : Trace → Prop
  | [] => True
  | (e, _) :: h => (e = .exec → owed h = true) ∧
    (∀ k, answers e = some k → pending h = some k) ∧ Served h

/-! ### Success is reported only after commit and finish -/

structure Tracked (cfg : Config) (h : Trace) (a : Agent) : Prop where
  committing : a.state = .commitSent → ∃ t u, a.result = some (.ok u) ∧
    lastCall h = some (.commit t (payload cfg u))
  finishing : a.state = .finishSent ∨ a.state = .finishFailed ∨
    a.state = .finishComplete → ∀ u, a.result = some (.ok u) → Acked cfg u h
  finishSent : a.state = .finishSent → ∃ t, lastCall h = some (.finish t)

theorem quiet_call {x : Out} (h : quiet x = true) : kind x = none := by
  cases x <;> simp [quiet, kind] at h ⊢
  split at h <;> simp_all

theorem Quiet.find {o : List Out} (h : Quiet o) :
    (o.reverse.find? fun x => (kind x).isSome) = none := by
  rw [List.find?_eq_none]
  intro x hx
  rw [quiet_call (h x (List.mem_reverse.mp hx))]
  simp

theorem Quiet.rollback {o : List Out} (h : Quiet o) (t : Nat) :
    Out.rollback t ∉ o := fun hx => by simpa [quiet] using h _ hx

theorem Quiet.result {o : List Out} (h : Quiet o) (r : Result) :
    Out.result r ∉ o := fun hx => by simpa [quiet] using h _ hx

theorem Quiet.crash {o : List Out} (h : Quiet o) : Out.crash ∉ o :=
  fun hx => by simpa [quiet] using h _ hx

theorem Tracked.step {cfg : Config} {p : Can} {h : Trace} {a : Agent}
    (rest : Rest a) (tr : Tracked cfg h a) (e : Event) :
    Tracked cfg ((e, (step cfg p a e).2) :: h) (step cfg p a e).1 := by
  have key := outcome (cfg := cfg) (p := p) rest e
  generalize Agent.step cfg p a e = m at key
  cases key with
  | idle hf hs ht hr ho =>
    by_cases hst : a.state = .functionStarted
    · rw [hst] at hs
      constructor <;> simp [hs]
    · obtain ⟨h1, _⟩ := hr hst
      constructor
      · intro hc
        rw [hs] at hc
        simpa [lastCall, ho.find, h1] using tr.committing hc
      · intro hc u hu
        rw [hs] at hc
        rw [h1] at hu
        exact ⟨ho.rollback, .inr (tr.finishing hc u hu)⟩
      · intro hc
        rw [hs] at hc
        simpa [lastCall, ho.find] using tr.finishSent hc
  | begun hb hst hs hw hk ho => constructor <;> simp [hs]
  | beginFailed hst hs hw hk x hx ho => constructor <;> simp [hs]
  | get t hst hs ht hw k w ho => constructor <;> simp [hs]
  | run t hst hs ht ho => constructor <;> simp [hs]
  | fall t hf hm =>
    cases hm with
    | sent o hs ht hfl hq ho => constructor <;> simp [hs]
    | stuck o hs ht hfl hq ho => constructor <;> simp [hs]
  | commit t u ha hst hs ht hr ho =>
    constructor
    · intro _
      exact ⟨t, u, hr, by simp [lastCall, ho, kind, payload]⟩
    · simp [hs]
    · simp [hs]
  | finish t ha hf hs ht hr ho =>
    constructor
    · simp [hs]
    · intro _ u hu
      rw [hr] at hu
      refine ⟨by simp [ho], ?_⟩
      rcases hf with ⟨hc, rfl⟩ | ⟨hc, _, hp⟩ | ⟨hc, _⟩
      · obtain ⟨t', u', hu', hl⟩ := tr.committing hc
        rw [hu] at hu'
        cases hu'
        exact .inl ⟨rfl, t', hl⟩
      · obtain ⟨x, hx, _⟩ := rest.falling (.inl hc) hp
        rw [hu] at hx
        cases hx
      · exact .inr (tr.finishing
          (hc.elim .inl (fun h => .inr (.inl h))) u hu)
    · intro _
      exact ⟨t, by simp [lastCall, ho, kind]⟩
  | finishFailed t ha hf hs ht x hx hr ho => constructor <;> simp [hs, hr]
  | complete t r ha hf hs ht hr hr' ho =>
    constructor
    · simp [hs]
    · intro _ u hu
      rw [hr', ← hr] at hu
      exact ⟨by simp [ho], .inr (tr.finishing (.inl hf.1) u hu)⟩
    · simp [hs]
  | rollbackFailed t ha hf hs ht hr ho => constructor <;> simp [hs]
  | retry t ha hf hs ht hr ho => constructor <;> simp [hs]
  | crash hf hm => constructor <;> simp [hm, hf.1]

theorem Run.tracked {cfg : Config} {h : Trace} {a : Agent} (r : Run cfg h a) :
    Tracked cfg h a := by
  induction r with
  | start => constructor <;> simp
  | step r ha p e ih => exact ih.step (r.rest ha) e

/-- **C50.**  A result is reported as a success only when the broker has just
confirmed `finish`, after it confirmed the commit of exactly that result, and
after that no rollback was requested.  This holds for every order of events. -/
theorem C50_success {cfg : Config} {e : Event} {o : List Out} {h : Trace}
    {a : Agent} (r : Run cfg ((e, o) :: h) a) {u : Update}
    (ho : Out.result (.ok u) ∈ o) :
    e = .finished true ∧ (∃ t, lastCall h = some (.finish t)) ∧
      Acked cfg u h := by
  cases r with
  | @step _ a r ha p _ =>
    have rest := r.rest ha
    have tr := r.tracked
    have key := outcome (cfg := cfg) (p := p) rest e
    generalize Agent.step cfg p a e = m at key ho
    cases key with
    | idle hf hs ht hr hq => exact absurd ho (hq.result _)
    | begun hb hst hs hw hk hm => simp [hm] at ho
    | beginFailed hst hs hw hk x hx hm => simp [hm] at ho
    | get t hst hs ht hw k w hm => simp [hm] at ho
    | run t hst hs ht hq => exact absurd ho (hq.result _)
    | fall t hf hm =>
      cases hm with
      | sent l hs ht hfl hq hm =>
        simp only [hm, List.mem_append] at ho
        rcases ho with ho | ho
        · exact absurd ho (hq.result _)
        · simp at ho
      | stuck l hs ht hfl hq hm =>
        simp only [hm, List.mem_append] at ho
        rcases ho with ho | ho
        · exact absurd ho (hq.result _)
        · simp at ho
    | commit t u ha hst hs ht hr hm => simp [hm] at ho
    | finish t ha hf hs ht hr hm => simp [hm] at ho
    | finishFailed t ha hf hs ht x hx hr hm => simp [hm] at ho
    | complete t r ha hf hs ht hr hr' hm =>
      simp [hm] at ho
      subst ho
      exact ⟨hf.2, tr.finishSent hf.1, tr.finishing (.inl hf.1) u hr⟩
    | rollbackFailed t ha hf hs ht hr hm => simp [hm] at ho
    | retry t ha hf hs ht hr hm => simp [hm] at ho
    | crash hf hm => simp [hm] at ho

/-! ### The caller is called at most once for every `exec` -/

/-- No request of this agent is under way. -/
def idleState : State → Bool
  | .init | .beginFailed | .rollbackComplete | .rollbackFailed | .finishFailed
  | .finishComplete => true
  | _ => false

theorem results_cons (e : Event) (o : List Out) (h : Trace) :
    results ((e, o) :: h) = (o.filterMap asResult) ++ results h := by
  simp [results]

theorem Quiet.results {o : List Out} (h : Quiet o) :
    (o.filterMap asResult) = ([] : List Result) := by
  rw [List.filterMap_eq_nil_iff]
  intro x hx
  have := h x hx
  cases x <;> simp [quiet, asResult] at this ⊢

theorem execs_cons (e : Event) (o : List Out) (h : Trace) :
    execs ((e, o) :: h) = execs h + if e = .exec then 1 else 0 := by
  unfold execs
  by_cases he : e = .exec <;> simp [he]

theorem execs_le (e : Event) (o : List Out) (h : Trace) :
    execs h ≤ execs ((e, o) :: h) := by
  rw [execs_cons]; omega

theorem count_step {cfg : Config} {p : Can} {h : Trace} {a : Agent}
    (rest : Rest a)
    (ih : (results h).length + (if idleState a.state then 0 else 1) ≤ execs h)
    (e : Event) :
    (results ((e, (step cfg p a e).2) :: h)).length +
      (if idleState (step cfg p a e).1.state then 0 else 1) ≤
      execs ((e, (step cfg p a e).2) :: h) := by
  have key := outcome (cfg := cfg) (p := p) rest e
  generalize Agent.step cfg p a e = m at key
  rw [results_cons, List.length_append, execs_cons]
  cases key with
  | idle hf hs ht hr ho =>
    rw [ho.results, hs]; simp only [List.length_nil]; omega
  | begun hb hst hs hw hk ho =>
    rcases hst with h | h | h <;> simp_all [idleState, asResult, List.filterMap_cons] <;> omega
  | beginFailed hst hs hw hk x hx ho =>
    rcases hst with ⟨_, h | h | h⟩ | ⟨_, h⟩ <;> simp_all [idleState, asResult, List.filterMap_cons] <;> omega
  | get t hst hs ht hw k w ho =>
    rcases hst with ⟨h, _⟩ | ⟨h, _, _⟩ <;> simp_all [idleState, asResult, List.filterMap_cons] <;> omega
  | run t hst hs ht ho =>
    rw [ho.results]
    rcases hst with (⟨h, _⟩ | ⟨h, _, _⟩) | ⟨h, _, _⟩ <;>
      simp_all [idleState, asResult, List.filterMap_cons] <;> omega
  | fall t hf hm =>
    have : (results h).length + 1 ≤ execs h + if e = .exec then 1 else 0 := by
      rcases hf with (⟨h, _⟩ | ⟨h, _, _⟩) | ⟨_, ⟨h, _⟩ | h | ⟨h, _⟩ |
        ⟨h | h, _⟩⟩ <;> simp_all [idleState] <;> omega
    cases hm with
    | sent o hs ht hfl hq ho =>
      rw [ho, List.filterMap_append, hq.results, hs]
      simpa [idleState, asResult, List.filterMap_cons] using this
    | stuck o hs ht hfl hq ho =>
      rw [ho, List.filterMap_append, hq.results, hs]
      simp only [idleState, if_true]
      simp only [List.nil_append, List.filterMap_cons, List.filterMap_nil,
        asResult, List.length_cons, List.length_nil]
      omega
  | commit t u ha hst hs ht hr ho =>
    rcases hst with ⟨h, _⟩ | ⟨h, _, _⟩ <;> simp_all [idleState, asResult, List.filterMap_cons] <;> omega
  | finish t ha hf hs ht hr ho =>
    rcases hf with ⟨h, _⟩ | ⟨h, _, _⟩ | ⟨h | h, _⟩ <;>
      simp_all [idleState, asResult, List.filterMap_cons] <;> omega
  | finishFailed t ha hf hs ht x hx hr ho =>
    rcases hf with (⟨h, _⟩ | ⟨h, _, _⟩ | ⟨h | h, _⟩) | ⟨h, _⟩ <;>
      simp_all [idleState, asResult, List.filterMap_cons] <;> omega
  | complete t r ha hf hs ht hr hr' ho =>
    simp_all [idleState, asResult, List.filterMap_cons]; omega
  | rollbackFailed t ha hf hs ht hr ho => simp_all [idleState, asResult, List.filterMap_cons]; omega
  | retry t ha hf hs ht hr ho => simp_all [idleState, asResult, List.filterMap_cons]; omega
  | crash hf hm => simp_all [idleState, asResult, List.filterMap_cons]; omega

theorem Run.count {cfg : Config} {h : Trace} {a : Agent} (r : Run cfg h a) :
    (results h).length + (if idleState a.state then 0 else 1) ≤ execs h := by
  induction r with
  | start => simp [results, execs, idleState]
  | step r ha p e ih => exact count_step (r.rest ha) ih e

/-- **C50.**  The caller is told no more results than it called `exec`. -/
theorem C50_once {cfg : Config} {h : Trace} {a : Agent} (r : Run cfg h a) :
    (results h).length ≤ execs h := by
  have := r.count
  omega

/-! ### Read-only runs -/

/-- Neither a write lock nor a commit that writes. -/
def harmless : Out → Bool
  | .lock _ _ _ w => !w
  | .commit _ u => u.isEmpty
  | _ => true

def Harmless (m : M) : Prop := ∀ x ∈ m.2, harmless x = true

theorem Harmless.after {m : M} {f : Agent → M} (h : Harmless m)
    (g : ∀ a, Harmless (f a)) : Harmless (m.then f) := by
  intro x hx
  rcases List.mem_append.mp hx with hx | hx
  · exact h x hx
  · exact g _ x hx

theorem harmless_nil (a : Agent) : Harmless (a, []) := by simp [Harmless]

theorem harmless_one (a : Agent) {x : Out} (h : harmless x = true) :
    Harmless (a, [x]) := by simpa [Harmless] using h

theorem report_harmless (a : Agent) : Harmless (report a) := by
  unfold report
  split
  · exact harmless_one _ rfl
  · exact harmless_one _ rfl

theorem doRollback_harmless (p : Can) (f : Bool) (a : Agent) :
    Harmless (doRollback p f a) := by
  unfold doRollback
  repeat' split
  all_goals first
    | exact report_harmless _
    | exact harmless_one _ rfl

theorem doResult_harmless (p : Can) (a : Agent) :
    Harmless (doResult p a) := by
  unfold doResult
  repeat' split
  all_goals first
    | exact report_harmless _
    | exact doRollback_harmless _ _ _
    | exact harmless_one _ rfl

theorem doRunner_harmless (p : Can) (v : Nat) (a : Agent) :
    Harmless (doRunner p v a) := by
  simp only [doRunner]
  split
  · exact harmless_one _ rfl
  · exact (harmless_one _ rfl).after fun _ => doResult_harmless _ _

theorem again_harmless (p : Can) (i : Nat) (a : Agent) :
    Harmless (again p i a) := by
  simp only [again]
  repeat' split
  all_goals first
    | exact doRunner_harmless _ _ _
    | exact harmless_nil _

theorem handleLock_harmless (p : Can) (c : Cont) (res : LockRes) (a : Agent) :
    Harmless (handleLock p c res a) := by
  simp only [handleLock]
  repeat' split
  all_goals first
    | exact again_harmless _ _ _
    | exact harmless_nil _
    | exact harmless_one _ rfl

theorem tryLock_harmless {cfg : Config} (hc : cfg.readonly = true) (p : Can)
    (c : Cont) (k : Nat) (w : Bool) (a : Agent) :
    Harmless (tryLock cfg p c k w a).1 := by
  simp only [tryLock]
  repeat' split
  all_goals first
    | exact handleLock_harmless _ _ _ _
    | exact harmless_nil _
    | exact harmless_one _ rfl
    | exact absurd hc ‹_›

theorem acquire_harmless {cfg : Config} (hc : cfg.readonly = true) (p : Can)
    (i : Nat) (l : List (Nat × Bool)) (a : Agent) :
    Harmless (acquire cfg p i l a) := by
  induction l generalizing a with
  | nil => exact harmless_nil _
  | cons e l ih =>
    obtain ⟨k, w⟩ := e
    simp only [acquire]
    split
    · exact (tryLock_harmless hc _ _ _ _ _).after ih
    · exact (tryLock_harmless hc _ _ _ _ _).after fun _ =>
        doResult_harmless _ _

theorem handleFunction_harmless {cfg : Config} (hc : cfg.readonly = true)
    (p : Can) (res : LockRes) (a : Agent) :
    Harmless (handleFunction cfg p res a) := by
  simp only [handleFunction]
  repeat' split
  all_goals first
    | exact acquire_harmless hc _ _ _ _
    | exact doRunner_harmless _ _ _
    | exact doResult_harmless _ _
    | exact harmless_nil _

theorem doStart_harmless {cfg : Config} (hc : cfg.readonly = true)
    (p : Can) (a : Agent) : Harmless (doStart cfg p a) := by
  simp only [doStart]
  repeat' split
  all_goals first
    | exact handleFunction_harmless hc _ _ _
    | exact doResult_harmless _ _
    | exact harmless_one _ rfl
    | exact absurd hc ‹_›

theorem doCommit_harmless {cfg : Config} (hc : cfg.readonly = true)
    (p : Can) (a : Agent) : Harmless (doCommit cfg p a) := by
  simp only [doCommit]
  repeat' split
  all_goals first
    | exact doResult_harmless _ _
    | exact harmless_one _ rfl
    | exact absurd hc ‹_›

theorem doFinish_harmless (p : Can) (a : Agent) : Harmless (doFinish p a) := by
  simp only [doFinish]
  repeat' split
  all_goals first
    | exact doResult_harmless _ _
    | exact harmless_one _ rfl

theorem step_harmless {cfg : Config} (hc : cfg.readonly = true)
    (p : Can) (a : Agent) (e : Event) : Harmless (step cfg p a e) := by
  cases e <;> simp only [step, exec, handleBegin, handleRun, handleCommit,
    handleFinish, handleRollback] <;> repeat' split
  all_goals first
    | exact doStart_harmless hc _ _
    | exact doCommit_harmless hc _ _
    | exact handleFunction_harmless hc _ _ _
    | exact tryLock_harmless hc _ _ _ _ _
    | exact (tryLock_harmless hc _ _ _ _ _).after fun _ => harmless_one _ rfl
    | exact handleLock_harmless _ _ _ _
    | exact doFinish_harmless _ _
    | exact doRollback_harmless _ _ _
    | exact doResult_harmless _ _
    | exact harmless_nil _
    | exact harmless_one _ rfl

/-- **C50.**  A read-only run never requests a write lock and never commits
anything. -/
theorem C50_readonly {cfg : Config} (hc : cfg.readonly = true) {h : Trace}
    {a : Agent} (r : Run cfg h a) : ∀ s ∈ h,
    (∀ c t k, Out.lock c t k true ∉ s.2) ∧
    (∀ t u, Out.commit t u ∈ s.2 → u = []) := by
  induction r with
  | start => simp
  | @step h a r ha p e ih =>
    intro s hs
    rcases List.mem_cons.mp hs with rfl | hs
    · have := step_harmless hc p a e
      constructor
      · intro c t k hx
        simpa [harmless] using this _ hx
      · intro t u hx
        simpa [harmless] using this _ hx
    · exact ih s hs

end Verif.Parsec.Agent
