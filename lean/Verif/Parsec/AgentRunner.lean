import Verif.Parsec.AgentServed
/-!
# The runners of an agent (C71)

If no lock is answered after the attempt that requested it, every attempt starts
at most one runner, and only that runner is told about locks.
-/
namespace Verif.Parsec.Agent

/-! ### Specification -/

/-- Who waits for the lock that is requested. -/
def lockCont : Out → Option Cont
  | .lock .function _ _ _ => none
  | .lock c _ _ _ => some c
  | _ => none

def startOf : Out → Option Nat
  | .start r _ => some r
  | _ => none

def isRollback : Out → Bool
  | .rollback _ => true
  | _ => false

/-- The locks requested since the last rollback and not answered. -/
def waiting : Trace → List Cont
  | [] => []
  | (e, o) :: h =>
    if o.any isRollback then []
    else (match e with
      | .locked c _ => (waiting h).erase c
      | _ => waiting h) ++ o.filterMap lockCont

/-- The runners started since the last rollback, newest first. -/
def started : Trace → List Nat
  | [] => []
  | (_, o) :: h =>
    if o.any isRollback then []
    else (o.filterMap startOf).reverse ++ started h

/-- Locks are answered once, and not after a rollback was requested.  A runner
requests locks only in its own attempt. -/
def Timely : Trace → Prop
  | [] => True
  | (e, _) :: h =>
    (match e with
      | .locked .function _ => True
      | .locked c _ => c ∈ waiting h
      | .request r _ _ _ => r ∈ started h
      | _ => True) ∧ Timely h

/-! ### The invariant -/

/-- States before the function runs. -/
def cleared : State → Bool
  | .init | .beginSent | .beginFailed | .functionGetSent | .rollbackSent
  | .rollbackComplete => true
  | _ => false

inductive Phase (h : Trace) (a : Agent) : Prop
  | acquiring (id : Nat) (n : Counter) (hn : a.counters[id]? = some n)
    (hg : n.got < n.need) (hw : ∀ c ∈ waiting h, c = .again id)
    (hl : (waiting h).length + n.got = n.need) (hs : started h = [])
  | running (r : Nat) (hs : started h = [r]) (hr : a.runners = r + 1)
    (hw : ∀ c ∈ waiting h, ∃ q, c = .runner r q)

structure Runners (h : Trace) (a : Agent) : Prop where
  few : (started h).length ≤ 1
  clear : cleared a.state = true → waiting h = [] ∧ started h = []
  phase : a.state = .functionStarted → Phase h a

theorem acquire_detail {cfg : Config} {p : Can} {id : Nat}
    {l : List (Nat × Bool)} {a : Agent} {t : Nat}
    (hs : a.state = .functionStarted) (ht : a.ticket = some t)
    (hw : a.wounded = false)
    (he : (acquire cfg p id l a).1.state = .functionStarted) :
    (acquire cfg p id l a).2.filterMap lockCont =
        List.replicate l.length (.again id) ∧
      (acquire cfg p id l a).2.filterMap startOf = [] ∧
      (acquire cfg p id l a).2.any isRollback = false ∧
      (acquire cfg p id l a).1.counters = a.counters := by
  induction l generalizing a with
  | nil => simp [acquire]
  | cons e l ih =>
    obtain ⟨k, w⟩ := e
    obtain ⟨h1, h2, h3, h4⟩ := tryLock_plain (cfg := cfg) (p := p)
      (c := .again id) (k := k) (w := w) (by simp) hs ht hw
    simp only [acquire] at he ⊢
    split at he
    · next hr =>
      rw [if_pos hr]
      obtain ⟨h5, h6, h7, h8⟩ := ih h1 h2 h3 he
      have hd : (tryLock cfg p (.again id) k w a).1 =
          ({ a with locks := remember a.locks k w },
            [.lock (.again id) t k (if cfg.readonly then false else w)]) := by
        revert hr
        simp only [tryLock, ht]
        rw [if_neg (show ¬ a.state ≠ .functionStarted by simp [hs])]
        split
        · simp
        · rw [if_neg (by simp [hw])]
          split
          · intro _; rw [← ht]
          · simp
      simp only [M.then]
      rw [hd] at h5 h6 h7 h8 ⊢
      simp only at h5 h6 h7 h8 ⊢
      rw [List.filterMap_append, List.filterMap_append, List.any_append, h5, h6,
        h7, h8]
      simp [lockCont, startOf, isRollback, List.filterMap_cons,
        List.replicate_succ]
    · exfalso
      have hf : Fall t (M.then (tryLock cfg p (.again id) k w a).1 fun a =>
          doResult p { a with
            state := .functionGetFailed
            result := some (.error .functionRetrieval) }) :=
        .after (doResult_fall (e := .functionRetrieval) rfl h2 rfl (by simp)) h4
      cases hf with
      | sent o hs _ _ _ _ => rw [hs] at he; cases he
      | stuck o hs _ _ _ _ => rw [hs] at he; cases he

theorem doRunner_detail {p : Can} {v : Nat} {a : Agent} {t : Nat}
    (ht : a.ticket = some t)
    (he : (doRunner p v a).1.state = .functionStarted) :
    doRunner p v a =
      ({ a with runners := a.runners + 1 }, [.start a.runners v]) := by
  simp only [doRunner] at he ⊢
  split
  · rfl
  · next hp =>
    rw [if_neg hp] at he
    exfalso
    have hf : Fall t (M.then ({ a with runners := a.runners + 1 },
        [Out.start a.runners v]) fun a => doResult p { a with
          state := .functionFailed
          result := some (.error .functionExecution) }) :=
      .after (doResult_fall (e := .functionExecution) rfl ht rfl (by simp))
        (.single rfl)
    cases hf with
    | sent o hs _ _ _ _ => rw [hs] at he; cases he
    | stuck o hs _ _ _ _ => rw [hs] at he; cases he

/-- What is requested when the function's code arrives. -/
inductive Begins (a : Agent) (m : M) : Prop
  | run (v : Nat) (ho : m.2 = [.start a.runners v])
    (hr : m.1.runners = a.runners + 1)
  | acquire (id : Nat) (n : Counter) (hn : m.1.counters[id]? = some n)
    (h0 : n.got = 0) (hp : 0 < n.need)
    (hc : m.2.filterMap lockCont = List.replicate n.need (.again id))
    (hs : m.2.filterMap startOf = []) (hb : m.2.any isRollback = false)

theorem handleFunction_detail {cfg : Config} {p : Can} {res : LockRes}
    {a : Agent} {t : Nat} (hs : a.state = .functionGetSent)
    (ht : a.ticket = some t) (hw : a.wounded = false)
    (he : (handleFunction cfg p res a).1.state = .functionStarted) :
    Begins a (handleFunction cfg p res a) := by
  by_cases hv : ∃ v, res = .value v
  · obtain ⟨v, rfl⟩ := hv
    have hdef : handleFunction cfg p (.value v) a =
        if a.locks.isEmpty then
          doRunner p v { a with state := .functionStarted, locks := [] }
        else acquire cfg p a.counters.length a.locks { a with
          state := .functionStarted
          locks := []
          counters := a.counters ++
            [{ got := 0, need := a.locks.length, value := v }] } := by
      unfold handleFunction
      rw [if_neg (by simp [hs])]
    rw [hdef] at he ⊢
    split at he
    · next hl =>
      rw [if_pos hl]
      rw [doRunner_detail (by exact ht) he]
      exact .run v rfl rfl
    · next hl =>
      rw [if_neg hl]
      obtain ⟨h1, h2, h3, h4⟩ := acquire_detail rfl (by exact ht) (by exact hw)
        he
      refine .acquire a.counters.length
        { got := 0, need := a.locks.length, value := v } ?_ rfl ?_ h1 h2 h3
      · rw [h4]; simp
      · simp only
        cases hlk : a.locks with
        | nil => simp [hlk] at hl
        | cons x l => simp
  · have := (handleFunction_ends (cfg := cfg) (p := p) (res := res) hs ht hw).2
      fun v hv' => hv ⟨v, hv'⟩
    cases this with
    | sent o hs _ _ _ _ => rw [hs] at he; cases he
    | stuck o hs _ _ _ _ => rw [hs] at he; cases he

theorem doStart_detail {cfg : Config} {p : Can} {a : Agent} {t : Nat}
    (hs : a.state = .beginSent ∨ a.state = .rollbackComplete)
    (ht : a.ticket = some t) (hw : a.wounded = false)
    (he : (doStart cfg p a).1.state = .functionStarted) :
    Begins a (doStart cfg p a) := by
  have hc : (doStart cfg p a).1.state = .functionStarted →
      ∃ v, doStart cfg p a =
        handleFunction cfg p (.value v) { a with state := .functionGetSent } := by
    simp only [doStart, ht]
    rw [if_neg (by rcases hs with h | h <;> simp [h])]
    split
    · intro _; exact ⟨0, by rw [← ht]⟩
    · split
      · intro _; exact ⟨cfg.key, by rw [← ht]⟩
      · split
        · simp
        · intro he
          have := doResult_fall (p := p) (t := t) (e := .brokerUnreachable)
            (a := { a with
              state := .functionGetFailed
              result := some (.error .brokerUnreachable) }) rfl ht rfl (by simp)
          rw [← ht] at he
          cases this with
          | sent o hs _ _ _ _ => rw [hs] at he; cases he
          | stuck o hs _ _ _ _ => rw [hs] at he; cases he
  obtain ⟨v, hv⟩ := hc he
  rw [hv] at he ⊢
  have := handleFunction_detail (a := { a with state := .functionGetSent }) rfl
    ht hw he
  cases this with
  | run v ho hr => exact .run v ho hr
  | acquire id n hn h0 hp hc hs hb => exact .acquire id n hn h0 hp hc hs hb

theorem Begins.phase {h : Trace} {a : Agent} {m : M} (hb : Begins a m)
    {e : Event} (hw : waiting h = []) (hs : started h = []) :
    Phase ((e, m.2) :: h) m.1 := by
  have hw' : (match e with
      | .locked c _ => (waiting h).erase c
      | _ => waiting h) = [] := by
    split <;> simp [hw]
  cases hb with
  | run v ho hr =>
    refine .running a.runners ?_ hr ?_
    · simp [started, ho, startOf, isRollback, hs, List.filterMap_cons]
    · simp [waiting, ho, lockCont, isRollback, hw', List.filterMap_cons]
  | acquire id n hn h0 hp hc hs' hb =>
    have hwt : waiting ((e, m.2) :: h) = List.replicate n.need (.again id) := by
      simp only [waiting, hb, hw', hc]
      simp
    refine .acquiring id n hn (by omega) ?_ ?_ ?_
    · rw [hwt]; intro c hc; exact (List.mem_replicate.mp hc).2
    · rw [hwt, List.length_replicate]; omega
    · simp [started, hb, hs', hs]

theorem Quiet.norollback {o : List Out} (h : Quiet o) :
    o.any isRollback = false := by
  rw [List.any_eq_false]
  intro x hx
  have := h x hx
  cases x <;> simp [quiet, isRollback] at this ⊢

/-- What one event may tell runners. -/
structure Told (h : Trace) (o : List Out) : Prop where
  start : o.filterMap startOf ≠ [] →
    started h = [] ∧ (o.filterMap startOf).length = 1
  answer : ∀ r q x, Out.answer r q x ∈ o → started h = [r]

/-- Neither starts nor answers. -/
def silent : Out → Bool
  | .start _ _ => false
  | .answer _ _ _ => false
  | _ => true

def Silent (o : List Out) : Prop := ∀ x ∈ o, silent x = true

theorem Silent.starts {o : List Out} (h : Silent o) :
    o.filterMap startOf = [] := by
  rw [List.filterMap_eq_nil_iff]
  intro x hx
  have := h x hx
  cases x <;> simp [silent, startOf] at this ⊢

theorem Silent.told {o : List Out} (s : Silent o) (h : Trace) : Told h o where
  start hs := absurd s.starts hs
  answer r q x hx := by simpa [silent] using s _ hx

theorem report_silent (a : Agent) : Silent (report a).2 := by
  unfold report crash
  split <;> simp [Silent, silent]

theorem doRollback_silent (p : Can) (f : Bool) (a : Agent) :
    Silent (doRollback p f a).2 := by
  unfold doRollback
  repeat' split
  all_goals first
    | exact report_silent _
    | simp [Silent, silent, crash]

theorem doResult_silent (p : Can) (a : Agent) : Silent (doResult p a).2 := by
  unfold doResult
  repeat' split
  all_goals first
    | exact report_silent _
    | exact doRollback_silent _ _ _
    | simp [Silent, silent, crash]

theorem doRunner_told (p : Can) (v : Nat) (a : Agent) {h : Trace}
    (hs : started h = []) : Told h (doRunner p v a).2 := by
  simp only [doRunner]
  split
  · exact ⟨by simp [startOf, hs, List.filterMap_cons], by simp⟩
  · simp only [M.then]
    have := doResult_silent p { a with
      state := .functionFailed, result := some (.error .functionExecution)
      runners := a.runners + 1 }
    constructor
    · intro _
      refine ⟨hs, ?_⟩
      rw [List.filterMap_append, this.starts]
      simp [startOf, List.filterMap_cons]
    · intro r q x hx
      rw [List.mem_append] at hx
      rcases hx with hx | hx
      · simp at hx
      · exact (this.told h).answer r q x hx

theorem acquire_silent {cfg : Config} {p : Can} {id : Nat}
    {l : List (Nat × Bool)} {a : Agent} {t : Nat}
    (hs : a.state = .functionStarted) (ht : a.ticket = some t)
    (hw : a.wounded = false) : Silent (acquire cfg p id l a).2 := by
  induction l generalizing a with
  | nil => simp [acquire, Silent]
  | cons e l ih =>
    obtain ⟨k, w⟩ := e
    obtain ⟨h1, h2, h3, h4⟩ := tryLock_plain (cfg := cfg) (p := p)
      (c := .again id) (k := k) (w := w) (by simp) hs ht hw
    have h5 : Silent (tryLock cfg p (.again id) k w a).1.2 := by
      simp only [tryLock, ht]
      rw [if_neg (show ¬ a.state ≠ .functionStarted by simp [hs])]
      split
      · simp [Silent]
      · rw [if_neg (by simp [hw])]
        split <;> simp [Silent, silent]
    simp only [acquire]
    split
    · intro x hx
      rcases List.mem_append.mp hx with hx | hx
      · exact h5 x hx
      · exact ih h1 h2 h3 x hx
    · intro x hx
      rcases List.mem_append.mp hx with hx | hx
      · exact h5 x hx
      · exact doResult_silent _ _ x hx

theorem handleFunction_told {cfg : Config} {p : Can} {res : LockRes}
    {a : Agent} {t : Nat} {h : Trace} (ht : a.ticket = some t)
    (hw : a.wounded = false) (hst : started h = []) :
    Told h (handleFunction cfg p res a).2 := by
  simp only [handleFunction]
  split
  · exact Silent.told (by simp [Silent]) h
  · cases res with
    | value v =>
      simp only
      split
      · exact doRunner_told _ _ _ hst
      · exact (acquire_silent rfl (by exact ht) (by exact hw)).told h
    | broker => exact (doResult_silent _ _).told h
    | wounded => exact (doResult_silent _ _).told h
    | shard => exact (doResult_silent _ _).told h

theorem doStart_told {cfg : Config} {p : Can} {a : Agent} {t : Nat} {h : Trace}
    (ht : a.ticket = some t) (hw : a.wounded = false) (hst : started h = []) :
    Told h (doStart cfg p a).2 := by
  simp only [doStart, ht]
  split
  · exact Silent.told (by simp [Silent, silent, crash]) h
  · split
    · exact handleFunction_told rfl (by exact hw) hst
    · split
      · exact handleFunction_told rfl (by exact hw) hst
      · split
        · exact Silent.told (by simp [Silent, silent]) h
        · exact (doResult_silent _ _).told h

/-- A lock that was requested again is answered. -/
theorem Phase.again {p : Can} {h : Trace} {a : Agent} {t i : Nat}
    {res : LockRes}
    (ph : Phase h a) (hs : a.state = .functionStarted) (ht : a.ticket = some t)
    (hm : Cont.again i ∈ waiting h) {m : M}
    (hmm : m = handleLock p (.again i) res a) :
    Told h m.2 ∧ (m.1.state = .functionStarted →
      Phase ((.locked (.again i) res, m.2) :: h) m.1) := by
  cases ph with
  | running r hst hr hw =>
    obtain ⟨q, hq⟩ := hw _ hm
    cases hq
  | acquiring id n hn hg hw hl hst =>
    have hi : i = id := by
      have := hw _ hm
      simpa using this
    subst hi
    have hlen : ((waiting h).erase (.again i)).length + 1 =
        (waiting h).length := by
      rw [List.length_erase_of_mem hm]
      have := List.length_pos_of_mem hm
      omega
    -- the agent the callback sees
    generalize hb : (if res = .wounded then { a with wounded := true } else a)
      = b at *
    have hbs : b.state = .functionStarted := by
      rw [← hb]; split <;> exact hs
    have hbt : b.ticket = some t := by rw [← hb]; split <;> exact ht
    have hbc : b.counters = a.counters := by rw [← hb]; split <;> rfl
    have hdef : m = Agent.again p i b := by
      rw [hmm, ← hb]
      simp only [handleLock]
      rw [if_neg (by simp [hs])]
    rw [hdef]
    simp only [Agent.again, hbc, hn]
    split
    · next hlast =>
      refine ⟨doRunner_told _ _ _ hst, ?_⟩
      intro he
      rw [doRunner_detail (by exact hbt) he]
      refine .running b.runners ?_ rfl ?_
      · simp [started, startOf, isRollback, hst, List.filterMap_cons]
      · have : (waiting h).erase (.again i) = [] := by
          rw [← List.length_eq_zero_iff]; omega
        simp [waiting, lockCont, isRollback, this, List.filterMap_cons]
    · next hlast =>
      refine ⟨Silent.told (by simp [Silent]) h, ?_⟩
      intro he
      refine .acquiring i { n with got := n.got + 1 } ?_ ?_ ?_ ?_ ?_
      · simp only
        have : i < a.counters.length := by
          rw [List.getElem?_eq_some_iff] at hn
          exact hn.1
        simp [this]
      · simp only; omega
      · intro c hc
        simp only [waiting, List.any_nil, List.filterMap_nil,
          List.append_nil] at hc
        exact hw c (List.mem_of_mem_erase hc)
      · simp only [waiting, List.any_nil, List.filterMap_nil, List.append_nil]
        simp only [Bool.false_eq_true, if_false]
        omega
      · simp [started, hst]

/-- Nothing happens to the runner. -/
theorem Phase.same {h : Trace} {a b : Agent} (ph : Phase h a) {e : Event}
    {o : List Out} (he : ∀ c x, e ≠ .locked c x)
    (ho : o.any isRollback = false) (hl : o.filterMap lockCont = [])
    (hs : o.filterMap startOf = []) (hc : b.counters = a.counters)
    (hr : b.runners = a.runners) : Phase ((e, o) :: h) b := by
  have hw : waiting ((e, o) :: h) = waiting h := by
    have : (match e with
        | .locked c _ => (waiting h).erase c
        | _ => waiting h) = waiting h := by
      cases e with
      | locked c x => exact absurd rfl (he c x)
      | _ => rfl
    simp only [waiting, ho, this, hl]
    simp
  have hst : started ((e, o) :: h) = started h := by
    simp [started, ho, hs]
  cases ph with
  | acquiring id n hn hg hw' hl' hs' =>
    exact .acquiring id n (by rw [hc]; exact hn) hg (by rw [hw]; exact hw')
      (by rw [hw]; exact hl') (by rw [hst]; exact hs')
  | running r hs' hr' hw' =>
    exact .running r (by rw [hst]; exact hs') (by rw [hr]; exact hr')
      (by rw [hw]; exact hw')

theorem doCommit_silent (cfg : Config) (p : Can) (a : Agent) :
    Silent (doCommit cfg p a).2 := by
  unfold doCommit
  repeat' split
  all_goals first
    | exact doResult_silent _ _
    | simp [Silent, silent, crash]

theorem doFinish_silent (p : Can) (a : Agent) : Silent (doFinish p a).2 := by
  unfold doFinish
  repeat' split
  all_goals first
    | exact doResult_silent _ _
    | simp [Silent, silent, crash]

theorem Silent.nil : Silent [] := by simp [Silent]

/-- The function does not run. -/
theorem told_other {cfg : Config} {p : Can} {a : Agent} {h : Trace}
    (rest : Rest a) (hs : a.state ≠ .functionStarted)
    (cl : cleared a.state = true → started h = []) (e : Event) :
    Told h (Agent.step cfg p a e).2 := by
  cases e with
  | exec =>
    simp only [Agent.step, exec]
    split
    iterate 3
      · split
        · exact Silent.told (by simp [Silent, silent]) h
        · exact (doResult_silent _ _).told h
    · next hx =>
      obtain ⟨t, ht⟩ := rest.ticket (by simp [hx]) (by simp [hx]) (by simp [hx])
      exact doStart_told (t := t) ht rfl (cl (by simp [hx, cleared]))
    all_goals first
      | exact (doCommit_silent _ _ _).told h
      | exact (doRollback_silent _ _ _).told h
      | exact (doFinish_silent _ _).told h
      | exact Silent.nil.told h
  | begun res =>
    simp only [Agent.step, handleBegin]
    split
    · exact Silent.nil.told h
    · next hx =>
      have hx : a.state = .beginSent := Classical.not_not.mp hx
      cases res with
      | none => exact (doResult_silent _ _).told h
      | some n =>
        exact doStart_told (t := n) rfl
          (by exact rest.wounded (.inr (.inl hx))) (cl (by simp [hx, cleared]))
  | locked c res =>
    cases c with
    | function =>
      simp only [Agent.step]
      by_cases hx : a.state = .functionGetSent
      · obtain ⟨t, ht⟩ :=
          rest.ticket (by simp [hx]) (by simp [hx]) (by simp [hx])
        exact handleFunction_told ht (rest.wounded (.inr (.inr (.inr hx))))
          (cl (by simp [hx, cleared]))
      · unfold handleFunction
        rw [if_pos hx]
        exact Silent.nil.told h
    | again i =>
      simp only [Agent.step, handleLock]
      rw [if_pos hs]
      exact Silent.nil.told h
    | runner r q =>
      simp only [Agent.step, handleLock]
      rw [if_pos hs]
      exact Silent.nil.told h
  | request r q k w =>
    simp only [Agent.step]
    split
    · exact Silent.nil.told h
    · apply Silent.told
      unfold tryLock
      cases a.ticket with
      | none => simp [Silent, silent, crash]
      | some t =>
        simp only
        rw [if_pos hs]
        simp [Silent, silent, M.then]
  | ran res =>
    simp only [Agent.step, handleRun]
    rw [if_pos hs]
    exact Silent.nil.told h
  | committed res =>
    simp only [Agent.step, handleCommit]
    split
    · exact Silent.nil.told h
    · cases res
      · exact (doFinish_silent _ _).told h
      all_goals exact (doResult_silent _ _).told h
  | finished ok =>
    simp only [Agent.step, handleFinish]
    repeat' split
    all_goals first
      | exact Silent.nil.told h
      | exact (doResult_silent _ _).told h
  | rolledBack ok =>
    simp only [Agent.step, handleRollback]
    repeat' split
    all_goals first
      | exact Silent.nil.told h
      | exact (doFinish_silent _ _).told h
      | exact (doResult_silent _ _).told h

/-- The function runs. -/
theorem Phase.step {cfg : Config} {p : Can} {h : Trace} {a : Agent} {t : Nat}
    (ph : Phase h a) (hs : a.state = .functionStarted) (ht : a.ticket = some t)
    {e : Event} {o : List Out} (ti : Timely ((e, o) :: h)) :
    Told h (Agent.step cfg p a e).2 ∧
      ((Agent.step cfg p a e).1.state = .functionStarted →
        Phase ((e, (Agent.step cfg p a e).2) :: h) (Agent.step cfg p a e).1) := by
  have hnil : (∀ c x, e ≠ .locked c x) → Phase ((e, []) :: h) a := fun he =>
    ph.same he rfl rfl rfl rfl rfl
  have hfall : ∀ {m : M}, Fall t m → m.1.state ≠ .functionStarted := by
    intro m hf
    cases hf with
    | sent o hs _ _ _ _ => rw [hs]; simp
    | stuck o hs _ _ _ _ => rw [hs]; simp
  cases e with
  | exec =>
    have hx : Agent.step cfg p a .exec = doRollback p false a := by
      simp only [Agent.step, exec, hs]
    rw [hx]
    refine ⟨(doRollback_silent _ _ _).told h, fun he => absurd he ?_⟩
    exact hfall (doRollback_fall (by simp [hs, canRollback]) ht (by simp))
  | begun res =>
    have hx : Agent.step cfg p a (.begun res) = (a, []) := by
      simp only [Agent.step, handleBegin]
      rw [if_pos (by simp [hs])]
    rw [hx]
    exact ⟨Silent.nil.told h, fun _ => hnil (by simp)⟩
  | committed res =>
    have hx : Agent.step cfg p a (.committed res) = (a, []) := by
      simp only [Agent.step, handleCommit]
      rw [if_pos (by simp [hs])]
    rw [hx]
    exact ⟨Silent.nil.told h, fun _ => hnil (by simp)⟩
  | finished res =>
    have hx : Agent.step cfg p a (.finished res) = (a, []) := by
      simp only [Agent.step, handleFinish]
      rw [if_pos (by simp [hs])]
    rw [hx]
    exact ⟨Silent.nil.told h, fun _ => hnil (by simp)⟩
  | rolledBack res =>
    have hx : Agent.step cfg p a (.rolledBack res) = (a, []) := by
      simp only [Agent.step, handleRollback]
      rw [if_pos (by simp [hs])]
    rw [hx]
    exact ⟨Silent.nil.told h, fun _ => hnil (by simp)⟩
  | ran res =>
    simp only [Agent.step, handleRun]
    rw [if_neg (by simp [hs])]
    cases res with
    | ok u =>
      refine ⟨(doCommit_silent _ _ _).told h, fun he => absurd he ?_⟩
      rcases doCommit_cases (cfg := cfg) (p := p) (u := u)
        (a := { a with result := some (.ok u) }) (.inl hs) rfl ht with hc | hc
      · simp only [hc]; simp
      · exact hfall hc
    | wounded =>
      exact ⟨(doResult_silent _ _).told h, fun he => absurd he (hfall
        (doResult_fall (e := .functionExecution) rfl ht rfl (by simp)))⟩
    | failed =>
      exact ⟨(doResult_silent _ _).told h, fun he => absurd he (hfall
        (doResult_fall (e := .functionExecution) rfl ht rfl (by simp)))⟩
  | locked c res =>
    cases c with
    | function =>
      have hx : Agent.step cfg p a (.locked .function res) = (a, []) := by
        simp only [Agent.step, handleFunction]
        rw [if_pos (by simp [hs])]
      rw [hx]
      refine ⟨Silent.nil.told h, fun _ => ?_⟩
      have hm : Cont.function ∉ waiting h := by
        intro hm
        cases ph with
        | acquiring id n hn hg hw hl hst => cases hw _ hm
        | running r hst hr hw =>
          obtain ⟨q, hq⟩ := hw _ hm
          cases hq
      have h1 : waiting ((.locked .function res, []) :: h) = waiting h := by
        simp [waiting, List.erase_of_not_mem hm]
      have h2 : started ((.locked .function res, []) :: h) = started h := by
        simp [started]
      cases ph with
      | acquiring id n hn hg hw hl hst =>
        exact .acquiring id n hn hg (by rw [h1]; exact hw) (by rw [h1]; exact hl)
          (by rw [h2]; exact hst)
      | running r hst hr hw =>
        exact .running r (by rw [h2]; exact hst) hr (by rw [h1]; exact hw)
    | again i =>
      exact ph.again hs ht ti.1 (m := handleLock p (.again i) res a) rfl
    | runner r q =>
      have hm : Cont.runner r q ∈ waiting h := ti.1
      cases ph with
      | acquiring id n hn hg hw hl hst => cases hw _ hm
      | running r' hst hr hw =>
        obtain ⟨q', hq⟩ := hw _ hm
        cases hq
        simp only [Agent.step, handleLock]
        rw [if_neg (by simp [hs])]
        refine ⟨⟨by simp [startOf, List.filterMap_cons], ?_⟩, fun _ => ?_⟩
        · intro r' q' x hx
          simp only [List.mem_singleton, Out.answer.injEq] at hx
          rw [hx.1]; exact hst
        · refine .running r ?_ ?_ ?_
          · simp [started, isRollback, startOf, hst, List.filterMap_cons]
          · split <;> exact hr
          · intro c hc
            simp [waiting, isRollback, lockCont, List.filterMap_cons] at hc
            exact hw c (List.mem_of_mem_erase hc)
  | request r q k w =>
    have hm : r ∈ started h := ti.1
    cases ph with
    | acquiring id n hn hg hw hl hst => simp [hst] at hm
    | running r' hst hr hw =>
      obtain rfl : r = r' := by simpa [hst] using hm
      have ph : Phase h a := .running r hst hr hw
      have hsame : ∀ {b : Agent} {o : List Out}, o.any isRollback = false →
          o.filterMap startOf = [] → b.runners = a.runners →
          (∀ c ∈ o.filterMap lockCont, ∃ q, c = .runner r q) →
          Phase ((.request r q k w, o) :: h) b := by
        intro b o h1 h2 h3 h4
        refine .running r ?_ (by rw [h3]; exact hr) ?_
        · simp [started, h1, h2, hst]
        · intro c hc
          simp only [waiting, h1] at hc
          rcases List.mem_append.mp hc with hc | hc
          · exact hw c hc
          · exact h4 c hc
      simp only [Agent.step]
      rw [if_neg (by omega)]
      simp only [tryLock, ht]
      rw [if_neg (show ¬ a.state ≠ .functionStarted by simp [hs])]
      split
      · refine ⟨Silent.told (by simp [Silent, silent, M.then]) h, fun _ => ?_⟩
        simp only [M.then]
        exact hsame (by simp [isRollback])
          (by simp [startOf, List.filterMap_cons]) rfl
          (by simp [lockCont, List.filterMap_cons])
      · split
        · simp only [handleLock, if_true]
          rw [if_neg (by simp [hs])]
          refine ⟨⟨by simp [startOf, List.filterMap_cons], ?_⟩, fun _ => ?_⟩
          · intro r' q' x hx
            simp at hx
            rw [hx.1]; exact hst
          · exact hsame (by simp [isRollback])
              (by simp [startOf, List.filterMap_cons]) rfl
              (by simp [lockCont, List.filterMap_cons])
        · split
          · refine ⟨Silent.told (by simp [Silent, silent]) h, fun _ => ?_⟩
            simp only [if_true]
            exact hsame (by simp [isRollback])
              (by simp [startOf, List.filterMap_cons]) rfl
              (by simp [lockCont, List.filterMap_cons])
          · refine ⟨Silent.told (by simp [Silent, silent, M.then]) h,
              fun _ => ?_⟩
            simp only [M.then]
            exact hsame (by simp [isRollback])
              (by simp [startOf, List.filterMap_cons]) rfl
              (by simp [lockCont, List.filterMap_cons])

theorem Runners.told {cfg : Config} {p : Can} {h : Trace} {a : Agent}
    (rest : Rest a) (ru : Runners h a) {e : Event} {o : List Out}
    (ti : Timely ((e, o) :: h)) : Told h (Agent.step cfg p a e).2 := by
  by_cases hs : a.state = .functionStarted
  · obtain ⟨t, ht⟩ := rest.ticket (by simp [hs]) (by simp [hs]) (by simp [hs])
    exact ((ru.phase hs).step hs ht ti).1
  · exact told_other rest hs (fun hc => (ru.clear hc).2) e

theorem cleared_cons {h : Trace} {e : Event} {o : List Out}
    (hw : waiting h = [] ∧ started h = []) (h1 : o.filterMap lockCont = [])
    (h2 : o.filterMap startOf = []) :
    waiting ((e, o) :: h) = [] ∧ started ((e, o) :: h) = [] := by
  have : (match e with
      | .locked c _ => (waiting h).erase c
      | _ => waiting h) = [] := by
    split <;> simp [hw.1]
  constructor
  · simp only [waiting, this, h1]; simp
  · simp [started, hw.2, h2]

theorem Runners.step {cfg : Config} {p : Can} {h : Trace} {a : Agent}
    (rest : Rest a) (ru : Runners h a) {e : Event} {o : List Out}
    (ti : Timely ((e, o) :: h)) :
    Runners ((e, (Agent.step cfg p a e).2) :: h) (Agent.step cfg p a e).1 := by
  have told := ru.told (cfg := cfg) (p := p) rest ti
  refine ⟨?_, ?_, ?_⟩
  · simp only [started]
    split
    · simp
    · by_cases hn : (Agent.step cfg p a e).2.filterMap startOf = []
      · simpa [hn] using ru.few
      · obtain ⟨h1, h2⟩ := told.start hn
        simp [h1, h2]
  · intro hc
    have key := outcome (cfg := cfg) (p := p) rest e
    generalize Agent.step cfg p a e = m at key hc
    cases key with
    | idle hf hs ht hr ho =>
      rw [hs] at hc
      obtain ⟨_, _, _, _, hx⟩ := hr (by intro h; simp [h, cleared] at hc)
      refine cleared_cons (ru.clear hc) ?_ ?_
      · rw [List.filterMap_eq_nil_iff]
        intro x hm
        obtain ⟨r, q, rfl⟩ := hx x hm
        rfl
      · rw [List.filterMap_eq_nil_iff]
        intro x hm
        obtain ⟨r, q, rfl⟩ := hx x hm
        rfl
    | begun hb hst hs hw hk ho =>
      rw [ho]
      exact cleared_cons (ru.clear (by
        rcases hst with h | h | h <;> simp [h, cleared])) rfl rfl
    | beginFailed hst hs hw hk x hx ho =>
      rw [ho]
      exact cleared_cons (ru.clear (by
        rcases hst with ⟨_, h | h | h⟩ | ⟨_, h⟩ <;> simp [h, cleared])) rfl rfl
    | get t hst hs ht hw k w ho =>
      rw [ho]
      exact cleared_cons (ru.clear (by
        rcases hst with ⟨h, _⟩ | ⟨h, _⟩ <;> simp [h, cleared])) rfl rfl
    | run t hst hs ht ho => simp [hs, cleared] at hc
    | fall t hf hm =>
      cases hm with
      | sent o hs ht hfl hq ho =>
        rw [ho]; simp [waiting, started, isRollback]
      | stuck o hs ht hfl hq ho => simp [hs, cleared] at hc
    | commit t u ha hst hs ht hr ho => simp [hs, cleared] at hc
    | finish t ha hf hs ht hr ho => simp [hs, cleared] at hc
    | finishFailed t ha hf hs ht x hx hr ho => simp [hs, cleared] at hc
    | complete t r ha hf hs ht hr hr' ho => simp [hs, cleared] at hc
    | rollbackFailed t ha hf hs ht hr ho => simp [hs, cleared] at hc
    | retry t ha hf hs ht hr ho =>
      rw [ho]
      exact cleared_cons (ru.clear (by simp [hf.1, cleared])) rfl rfl
    | crash hf hm =>
      rw [hm]
      exact cleared_cons (ru.clear (by simp [hf.1, cleared])) rfl rfl
  · intro he
    by_cases hs : a.state = .functionStarted
    · obtain ⟨t, ht⟩ := rest.ticket (by simp [hs]) (by simp [hs]) (by simp [hs])
      exact ((ru.phase hs).step hs ht ti).2 he
    · have key := outcome (cfg := cfg) (p := p) rest e
      have hrun : ∃ t, Starting a t e ∨ (a.state = .functionGetSent ∧
          a.ticket = some t ∧ ∃ v, e = .locked .function (.value v)) := by
        generalize Agent.step cfg p a e = m at key he
        cases key with
        | idle hf hs' ht hr ho => exact absurd (hs' ▸ he) hs
        | begun hb hst hs ht hw hk => rw [hs] at he; cases he
        | beginFailed hst hs hw hk x hx ho => rw [hs] at he; cases he
        | get t hst hs ht hw k w ho => rw [hs] at he; cases he
        | run t hst hs ht ho => exact ⟨t, hst⟩
        | fall t hf hm =>
          cases hm with
          | sent o hs ht hfl hq ho => rw [hs] at he; cases he
          | stuck o hs ht hfl hq ho => rw [hs] at he; cases he
        | commit t u ha hst hs ht hr ho => rw [hs] at he; cases he
        | finish t ha hf hs ht hr ho => rw [hs] at he; cases he
        | finishFailed t ha hf hs ht x hx hr ho => rw [hs] at he; cases he
        | complete t r ha hf hs ht hr hr' ho => rw [hs] at he; cases he
        | rollbackFailed t ha hf hs ht hr ho => rw [hs] at he; cases he
        | retry t ha hf hs ht hr ho => rw [hs] at he; cases he
        | crash hf hm => rw [hm] at he; exact absurd he hs
      obtain ⟨t, (⟨hst, rfl⟩ | ⟨hst, rfl, ht⟩) | ⟨hst, ht, v, rfl⟩⟩ := hrun
      · have hx : Agent.step cfg p a (.begun (some t)) =
            doStart cfg p { a with ticket := some t } := by
          simp only [Agent.step, handleBegin]
          rw [if_neg (by simp [hst])]
        rw [hx] at he ⊢
        have hc := ru.clear (by simp [hst, cleared])
        exact (doStart_detail (a := { a with ticket := some t }) (.inl hst) rfl
          (by exact rest.wounded (.inr (.inl hst))) he).phase hc.1 hc.2
      · have hx : Agent.step cfg p a .exec =
            doStart cfg p { a with result := none, wounded := false } := by
          simp only [Agent.step, exec, hst]
        rw [hx] at he ⊢
        have hc := ru.clear (by simp [hst, cleared])
        exact (doStart_detail
          (a := { a with result := none, wounded := false }) (.inr hst)
          (by exact ht) rfl he).phase hc.1 hc.2
      · have hc := ru.clear (by simp [hst, cleared])
        exact (handleFunction_detail hst ht
          (rest.wounded (.inr (.inr (.inr hst)))) he).phase hc.1 hc.2

theorem Run.runners {cfg : Config} {h : Trace} {a : Agent} (r : Run cfg h a)
    (ti : Timely h) : Runners h a := by
  induction r with
  | start => exact ⟨by simp [started], by simp [waiting, started], by simp⟩
  | step r alive p e ih => exact (ih ti.2).step (r.rest alive) ti

/-! ### C71 -/

/-- **C71, if no lock is answered after its attempt:** an attempt starts one
runner at most, and a lock is answered only to that runner, while it exists. -/
theorem C71_runner_partial {cfg : Config} {h : Trace} {a : Agent} {e : Event}
    {o : List Out} (r : Run cfg ((e, o) :: h) a) (ti : Timely ((e, o) :: h)) :
    (started ((e, o) :: h)).length ≤ 1 ∧
    (∀ k v, Out.start k v ∈ o → started h = []) ∧
    ∀ k q x, Out.answer k q x ∈ o → started h = [k] := by
  refine ⟨(r.runners ti).few, ?_⟩
  cases r with
  | step r alive p e =>
    have told := (r.runners ti.2).told (cfg := cfg) (p := p) (r.rest alive) ti
    refine ⟨fun k v hm => (told.start ?_).1, told.answer⟩
    intro hn
    rw [List.filterMap_eq_nil_iff] at hn
    simpa [startOf] using hn _ hm

/-- A run with a retry, in which the lock of the first attempt is taken again
before the second runner starts and asks for another one. -/
def again2 : List (Can × Event) :=
  [({}, .locked (.runner 1 0) (.value 4)), ({}, .request 1 0 6 true),
   ({}, .locked (.again 0) (.value 1)), ({}, .locked .function (.value 9)),
   ({}, .exec), ({}, .rolledBack true), ({}, .ran .wounded),
   ({}, .locked (.runner 0 0) .wounded), ({}, .request 0 0 5 true),
   ({}, .locked .function (.value 9)), ({}, .begun (some 3)), ({}, .exec)]

example : Run cfg7 (play cfg7 again2).1 (play cfg7 again2).2 ∧
    Timely (play cfg7 again2).1 ∧ started (play cfg7 again2).1 = [1] ∧
    (play cfg7 again2).1.head? =
      some (.locked (.runner 1 0) (.value 4), [.answer 1 0 (.value 4)]) := by
  refine ⟨play_run _ _ (by decide), ?_, by decide, rfl⟩
  refine ⟨?_, ?_, ?_, ?_, ?_, ?_, ?_, ?_, ?_, ?_, ?_, ?_, trivial⟩ <;>
    first | trivial | decide

end Verif.Parsec.Agent
