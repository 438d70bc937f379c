import Verif.Parsec.Agent
/-!
# What one event does to an agent

A table of the outcomes of an event, from which the invariants are proved.
-/
namespace Verif.Parsec.Agent

/-- Locks for the runner, and what the runner is told. -/
def quiet : Out → Bool
  | .lock .function _ _ _ => false
  | .lock _ _ _ _ => true
  | .start _ _ => true
  | .answer _ _ _ => true
  | .refuse _ _ => true
  | _ => false

def Quiet (o : List Out) : Prop := ∀ x ∈ o, quiet x = true

theorem Quiet.nil : Quiet [] := by simp [Quiet]

theorem Quiet.append {o l : List Out} (h : Quiet o) (g : Quiet l) :
    Quiet (o ++ l) := by
  intro x hx
  rcases List.mem_append.mp hx with hx | hx
  · exact h x hx
  · exact g x hx

theorem Quiet.single {x : Out} (h : quiet x = true) : Quiet [x] := by
  simpa [Quiet] using h

/-- The result of a permanent error. -/
def Failed (a : Agent) : Prop :=
  a.permanent = true → ∃ e, a.result = some (.error e) ∧ e ≠ .retry

/-- The transaction is being rolled back, or the broker cannot be reached for
that. -/
inductive Fall (t : Nat) (m : M) : Prop
  | sent (o : List Out) (hs : m.1.state = .rollbackSent)
    (ht : m.1.ticket = some t) (hf : Failed m.1) (hq : Quiet o)
    (ho : m.2 = o ++ [.rollback t])
  | stuck (o : List Out) (hs : m.1.state = .rollbackFailed)
    (ht : m.1.ticket = some t) (hf : Failed m.1) (hq : Quiet o)
    (ho : m.2 = o ++ [.result (.error .brokerUnreachable)])

/-- The function runs, or the transaction falls. -/
inductive Ends (t : Nat) (m : M) : Prop
  | stay (hs : m.1.state = .functionStarted) (ht : m.1.ticket = some t)
    (hq : Quiet m.2)
  | fall (h : Fall t m)

theorem Fall.prepend {t : Nat} {m : M} (h : Fall t m) {o : List Out}
    (hq : Quiet o) : Fall t (m.1, o ++ m.2) := by
  cases h with
  | sent l hs ht hf hl ho =>
    exact .sent (o ++ l) hs ht hf (hq.append hl) (by simp [ho])
  | stuck l hs ht hf hl ho =>
    exact .stuck (o ++ l) hs ht hf (hq.append hl) (by simp [ho])

theorem Fall.after {t : Nat} {m : M} {f : Agent → M} (h : Fall t (f m.1))
    (hq : Quiet m.2) : Fall t (m.then f) := h.prepend hq

theorem Ends.prepend {t : Nat} {m : M} (h : Ends t m) {o : List Out}
    (hq : Quiet o) : Ends t (m.1, o ++ m.2) := by
  cases h with
  | stay hs ht hl => exact .stay hs ht (hq.append hl)
  | fall h => exact .fall (h.prepend hq)

theorem Ends.after {t : Nat} {m : M} {f : Agent → M} (h : Ends t (f m.1))
    (hq : Quiet m.2) : Ends t (m.then f) := h.prepend hq

/-- States in which `doRollback` is allowed. -/
def canRollback : State → Bool
  | .commitFailed | .rollbackSent | .functionException | .functionFailed
  | .commitError | .functionGetFailed | .functionGetError | .functionStarted
  | .rollbackFailed => true
  | _ => false

theorem doRollback_fall {p : Can} {f : Bool} {a : Agent} {t : Nat}
    (hs : canRollback a.state = true) (ht : a.ticket = some t)
    (hf : f = true → ∃ e, a.result = some (.error e) ∧ e ≠ .retry) :
    Fall t (doRollback p f a) := by
  have key : doRollback p f a =
      if p.rollback then
        ({ a with state := .rollbackSent, permanent := f }, [.rollback t])
      else report { a with
        state := .rollbackFailed, permanent := f
        result := some (.error .brokerUnreachable) } := by
    obtain ⟨s, t', r, pe, w, l, cs, n⟩ := a
    simp only at ht hs
    subst ht
    cases s <;> simp [canRollback] at hs <;> rfl
  rw [key]
  split
  · exact .sent [] rfl ht hf .nil rfl
  · exact .stuck [] rfl ht (fun _ => ⟨_, rfl, by simp⟩) .nil rfl

/-- States in which `doResult` rolls back. -/
def failing : State → Bool
  | .functionGetFailed | .functionFailed | .commitFailed | .functionGetError
  | .commitError | .functionException => true
  | _ => false

theorem doResult_fall {p : Can} {a : Agent} {t : Nat} {e : Err}
    (hs : failing a.state = true) (ht : a.ticket = some t)
    (hr : a.result = some (.error e)) (he : e ≠ .retry) :
    Fall t (doResult p a) := by
  have key : ∃ f, doResult p a = doRollback p f a := by
    obtain ⟨s, t', r, pe, w, l, cs, n⟩ := a
    cases s <;> simp [failing] at hs
    all_goals first
      | exact ⟨false, rfl⟩
      | exact ⟨true, rfl⟩
  obtain ⟨f, hf⟩ := key
  rw [hf]
  refine doRollback_fall ?_ ht (fun _ => ⟨e, hr, he⟩)
  cases hx : a.state <;> simp_all [failing, canRollback]

theorem doRunner_ends {p : Can} {v : Nat} {a : Agent} {t : Nat}
    (hs : a.state = .functionStarted) (ht : a.ticket = some t) :
    Ends t (doRunner p v a) := by
  simp only [doRunner]
  split
  · exact .stay hs ht (.single rfl)
  · exact .fall (.after (doResult_fall (e := .functionExecution) rfl ht rfl
      (by simp)) (.single rfl))

theorem again_ends {p : Can} {id : Nat} {a : Agent} {t : Nat}
    (hs : a.state = .functionStarted) (ht : a.ticket = some t) :
    Ends t (again p id a) := by
  unfold again
  split
  · exact .stay hs ht .nil
  · simp only
    split
    · exact doRunner_ends hs ht
    · exact .stay hs ht .nil

theorem handleLock_ends {p : Can} {c : Cont} {res : LockRes} {a : Agent}
    {t : Nat} (hs : a.state = .functionStarted) (ht : a.ticket = some t) :
    Ends t (handleLock p c res a) := by
  have hs' : (if res = .wounded then { a with wounded := true } else a).state =
      .functionStarted := by split <;> exact hs
  have ht' : (if res = .wounded then { a with wounded := true } else a).ticket =
      some t := by split <;> exact ht
  unfold handleLock
  rw [if_neg (by simp [hs])]
  cases c with
  | function => exact .stay hs' ht' .nil
  | again id => exact again_ends hs' ht'
  | runner r q => exact .stay hs' ht' (.single rfl)

theorem tryLock_ends {cfg : Config} {p : Can} {c : Cont} {k : Nat} {w : Bool}
    {a : Agent} {t : Nat} (hc : c ≠ .function)
    (hs : a.state = .functionStarted)
    (ht : a.ticket = some t) :
    Ends t (tryLock cfg p c k w a).1 ∧
      ((tryLock cfg p c k w a).2 = false →
        (tryLock cfg p c k w a).1.1.state = .functionStarted ∧
        (tryLock cfg p c k w a).1.1.ticket = some t ∧
        (tryLock cfg p c k w a).1.2 = []) := by
  simp only [tryLock, ht]
  rw [if_neg (show ¬ a.state ≠ .functionStarted by simp [hs])]
  split
  · exact ⟨.stay hs ht .nil, fun _ => ⟨hs, ht, rfl⟩⟩
  · split
    · exact ⟨handleLock_ends hs ht, by simp⟩
    · split
      · refine ⟨.stay hs rfl (.single ?_), by simp⟩
        cases c with
        | function => exact absurd rfl hc
        | again id => rfl
        | runner r q => rfl
      · exact ⟨.stay hs rfl .nil, fun _ => ⟨hs, rfl, rfl⟩⟩

theorem tryLock_plain {cfg : Config} {p : Can} {c : Cont} {k : Nat} {w : Bool}
    {a : Agent} {t : Nat} (hc : c ≠ .function)
    (hs : a.state = .functionStarted) (ht : a.ticket = some t)
    (hw : a.wounded = false) :
    (tryLock cfg p c k w a).1.1.state = .functionStarted ∧
      (tryLock cfg p c k w a).1.1.ticket = some t ∧
      (tryLock cfg p c k w a).1.1.wounded = false ∧
      Quiet (tryLock cfg p c k w a).1.2 := by
  simp only [tryLock, ht]
  rw [if_neg (show ¬ a.state ≠ .functionStarted by simp [hs])]
  split
  · exact ⟨hs, ht, hw, .nil⟩
  · rw [if_neg (by simp [hw])]
    split
    · refine ⟨hs, rfl, hw, .single ?_⟩
      cases c with
      | function => exact absurd rfl hc
      | again id => rfl
      | runner r q => rfl
    · exact ⟨hs, rfl, hw, .nil⟩

theorem acquire_ends {cfg : Config} {p : Can} {id : Nat}
    {l : List (Nat × Bool)} {a : Agent} {t : Nat}
    (hs : a.state = .functionStarted) (ht : a.ticket = some t)
    (hw : a.wounded = false) : Ends t (acquire cfg p id l a) := by
  induction l generalizing a with
  | nil => exact .stay hs ht .nil
  | cons e l ih =>
    obtain ⟨k, w⟩ := e
    obtain ⟨h1, h2, h3, h4⟩ := tryLock_plain (cfg := cfg) (p := p)
      (c := .again id) (k := k) (w := w) (by simp) hs ht hw
    simp only [acquire]
    split
    · exact .after (ih h1 h2 h3) h4
    · exact .fall (.after (doResult_fall (e := .functionRetrieval) rfl h2 rfl
        (by simp)) h4)

theorem handleFunction_ends {cfg : Config} {p : Can} {res : LockRes}
    {a : Agent} {t : Nat} (hs : a.state = .functionGetSent)
    (ht : a.ticket = some t) (hw : a.wounded = false) :
    Ends t (handleFunction cfg p res a) ∧
      ((∀ v, res ≠ .value v) → Fall t (handleFunction cfg p res a)) := by
  unfold handleFunction
  rw [if_neg (by simp [hs])]
  cases res with
  | value v =>
    refine ⟨?_, fun h => absurd rfl (h v)⟩
    simp only
    split
    · exact doRunner_ends rfl ht
    · exact acquire_ends rfl ht hw
  | broker =>
    have := doResult_fall (p := p) (a := { a with
      state := .functionGetFailed
      result := some (.error .functionRetrieval) }) (e := .functionRetrieval)
      rfl ht rfl (by simp)
    exact ⟨.fall this, fun _ => this⟩
  | wounded =>
    have := doResult_fall (p := p) (a := { a with
      state := .functionGetFailed
      result := some (.error .functionRetrieval) }) (e := .functionRetrieval)
      rfl ht rfl (by simp)
    exact ⟨.fall this, fun _ => this⟩
  | shard =>
    have := doResult_fall (p := p) (a := { a with
      state := .functionGetError
      result := some (.error .functionRetrieval) }) (e := .functionRetrieval)
      rfl ht rfl (by simp)
    exact ⟨.fall this, fun _ => this⟩

/-- The function's code is requested, the function runs, or the transaction
falls. -/
inductive Starts (t : Nat) (m : M) : Prop
  | get (hs : m.1.state = .functionGetSent) (ht : m.1.ticket = some t)
    (hw : m.1.wounded = false)
    (k : Nat) (w : Bool) (ho : m.2 = [.lock .function t k w])
  | ends (h : Ends t m)

theorem doStart_starts {cfg : Config} {p : Can} {a : Agent} {t : Nat}
    (hs : a.state = .beginSent ∨ a.state = .rollbackComplete)
    (ht : a.ticket = some t) (hw : a.wounded = false) :
    Starts t (doStart cfg p a) := by
  simp only [doStart, ht]
  rw [if_neg (by rcases hs with h | h <;> simp [h])]
  split
  · exact .ends (handleFunction_ends rfl rfl (by exact hw)).1
  · split
    · exact .ends (handleFunction_ends rfl rfl (by exact hw)).1
    · split
      · exact .get rfl rfl hw _ _ rfl
      · exact .ends (.fall (doResult_fall (e := .brokerUnreachable) rfl rfl rfl
          (by simp)))

theorem doCommit_cases {cfg : Config} {p : Can} {a : Agent} {t : Nat}
    {u : Update} (hs : a.state = .functionStarted ∨ a.state = .commitSent)
    (hr : a.result = some (.ok u)) (ht : a.ticket = some t) :
    (doCommit cfg p a = ({ a with state := .commitSent },
      [.commit t (if cfg.readonly then [] else u)])) ∨
    Fall t (doCommit cfg p a) := by
  have key : doCommit cfg p a =
      if p.commit then ({ a with state := .commitSent },
        [.commit t (if cfg.readonly then [] else u)])
      else doResult p { a with
        state := .commitFailed, result := some (.error .brokerUnreachable) } := by
    obtain ⟨s, t', r, pe, w, l, cs, n⟩ := a
    simp only at ht hs hr
    subst ht hr
    rcases hs with rfl | rfl <;> rfl
  rw [key]
  split
  · exact .inl rfl
  · exact .inr (doResult_fall (e := .brokerUnreachable) rfl ht rfl (by simp))

theorem doFinish_cases {p : Can} {a : Agent} {t : Nat}
    (hs : a.state = .commitSent ∨ a.state = .finishFailed ∨
      a.state = .finishSent ∨ a.state = .rollbackComplete)
    (ht : a.ticket = some t) :
    doFinish p a = ({ a with state := .finishSent }, [.finish t]) ∨
    doFinish p a = ({ a with
        state := .finishFailed, result := some (.error .brokerUnreachable) },
      [.result (.error .brokerUnreachable)]) := by
  have key : doFinish p a =
      if p.finish then ({ a with state := .finishSent }, [.finish t])
      else ({ a with
        state := .finishFailed, result := some (.error .brokerUnreachable) },
      [.result (.error .brokerUnreachable)]) := by
    obtain ⟨s, t', r, pe, w, l, cs, n⟩ := a
    simp only at ht hs
    subst ht
    rcases hs with rfl | rfl | rfl | rfl <;> rfl
  rw [key]
  split
  · exact .inl rfl
  · exact .inr rfl

/-! ### The table -/

/-- The agent is at rest: what holds between events. -/
structure Rest (a : Agent) : Prop where
  notFailing : failing a.state = false
  ticket : a.state ≠ .init → a.state ≠ .beginSent → a.state ≠ .beginFailed →
    ∃ t, a.ticket = some t
  wounded : a.state = .init ∨ a.state = .beginSent ∨ a.state = .beginFailed ∨
    a.state = .functionGetSent → a.wounded = false
  committing : a.state = .commitSent → ∃ u, a.result = some (.ok u)
  falling : a.state = .rollbackSent ∨ a.state = .rollbackFailed → Failed a
  finishing : a.state = .finishSent ∨ a.state = .finishFailed ∨
    a.state = .finishComplete → ∃ r, a.result = some r ∧ r ≠ .error .retry
  made : a.runners ≠ 0 → ∃ t, a.ticket = some t
  retrying : a.state = .rollbackComplete → a.result = some (.error .retry)

/-- A transaction starts: with a new number, or again. -/
def Starting (a : Agent) (t : Nat) (e : Event) : Prop :=
  (a.state = .beginSent ∧ e = .begun (some t)) ∨
  (a.state = .rollbackComplete ∧ e = .exec ∧ a.ticket = some t)

/-- The event that makes the agent ask for `finish`. -/
def Finishing (a : Agent) (e : Event) : Prop :=
  (a.state = .commitSent ∧ e = .committed .ok) ∨
  (a.state = .rollbackSent ∧ e = .rolledBack true ∧ a.permanent = true) ∨
  ((a.state = .finishSent ∨ a.state = .finishFailed) ∧ e = .exec)

/-- The event that makes the transaction fall. -/
def Falling (a : Agent) (t : Nat) (e : Event) : Prop :=
  Starting a t e ∨
  (a.ticket = some t ∧
    ((a.state = .functionGetSent ∧ ∃ res, e = .locked .function res) ∨
     a.state = .functionStarted ∨
     (a.state = .commitSent ∧ (e = .exec ∨ ∃ r, e = .committed r ∧ r ≠ .ok)) ∨
     ((a.state = .rollbackSent ∨ a.state = .rollbackFailed) ∧ e = .exec)))

/-- Events that do not concern the state the agent is in. -/
def Foreign (a : Agent) : Event → Prop
  | .exec => a.state = .finishComplete
  | .begun _ => a.state ≠ .beginSent
  | .locked .function _ => a.state ≠ .functionGetSent
  | .locked _ _ => True
  | .request _ _ _ _ => True
  | .ran _ => a.state ≠ .functionStarted
  | .committed _ => a.state ≠ .commitSent
  | .finished _ => a.state ≠ .finishSent
  | .rolledBack _ => a.state ≠ .rollbackSent

/-- Everything an event can do to an agent at rest. -/
inductive Outcome (cfg : Config) (a : Agent) (e : Event) (m : M) : Prop
  | idle (h : Foreign a e) (hs : m.1.state = a.state)
    (ht : m.1.ticket = a.ticket)
    (hr : a.state ≠ .functionStarted → m.1.result = a.result ∧
      m.1.permanent = a.permanent ∧ m.1.wounded = a.wounded ∧
      m.1.runners = a.runners ∧ ∀ x ∈ m.2, ∃ r q, x = .refuse r q)
    (ho : Quiet m.2)
  | begun (h : e = .exec) (hb : a.state = .init ∨ a.state = .beginSent ∨
      a.state = .beginFailed)
    (hs : m.1.state = .beginSent) (hw : m.1.wounded = a.wounded)
    (hk : m.1.runners = a.runners ∧ m.1.ticket = a.ticket)
    (ho : m.2 = [.begin])
  | beginFailed (hb : (e = .exec ∧ (a.state = .init ∨ a.state = .beginSent ∨
      a.state = .beginFailed)) ∨ (e = .begun none ∧ a.state = .beginSent))
    (hs : m.1.state = .beginFailed) (hw : m.1.wounded = a.wounded)
    (hk : m.1.runners = a.runners ∧ m.1.ticket = a.ticket)
    (x : Err) (hx : x = .brokerUnreachable ∨ x = .ticketNumberAssignment)
    (ho : m.2 = [.result (.error x)])
  | get (t : Nat) (h : Starting a t e) (hs : m.1.state = .functionGetSent)
    (ht : m.1.ticket = some t) (hw : m.1.wounded = false) (k : Nat) (w : Bool)
    (ho : m.2 = [.lock .function t k w])
  | run (t : Nat) (h : Starting a t e ∨ (a.state = .functionGetSent ∧
      a.ticket = some t ∧ ∃ v, e = .locked .function (.value v)))
    (hs : m.1.state = .functionStarted) (ht : m.1.ticket = some t)
    (ho : Quiet m.2)
  | fall (t : Nat) (h : Falling a t e) (hf : Fall t m)
  | commit (t : Nat) (u : Update) (ha : a.ticket = some t)
    (h : (a.state = .functionStarted ∧ e = .ran (.ok u)) ∨
      (a.state = .commitSent ∧ e = .exec ∧ a.result = some (.ok u)))
    (hs : m.1.state = .commitSent) (ht : m.1.ticket = some t)
    (hr : m.1.result = some (.ok u))
    (ho : m.2 = [.commit t (if cfg.readonly then [] else u)])
  | finish (t : Nat) (ha : a.ticket = some t) (h : Finishing a e)
    (hs : m.1.state = .finishSent)
    (ht : m.1.ticket = some t) (hr : m.1.result = a.result)
    (ho : m.2 = [.finish t])
  | finishFailed (t : Nat) (ha : a.ticket = some t)
    (h : Finishing a e ∨ (a.state = .finishSent ∧ e = .finished false))
    (hs : m.1.state = .finishFailed)
    (ht : m.1.ticket = some t) (x : Err)
    (hx : x = .brokerUnreachable ∨ x = .finishError)
    (hr : m.1.result = some (.error x)) (ho : m.2 = [.result (.error x)])
  | complete (t : Nat) (r : Result) (ha : a.ticket = some t)
    (h : a.state = .finishSent ∧ e = .finished true)
    (hs : m.1.state = .finishComplete) (ht : m.1.ticket = some t)
    (hr : a.result = some r) (hr' : m.1.result = some r)
    (ho : m.2 = [.result r])
  | rollbackFailed (t : Nat) (ha : a.ticket = some t)
    (h : a.state = .rollbackSent ∧ e = .rolledBack false)
    (hs : m.1.state = .rollbackFailed) (ht : m.1.ticket = some t)
    (hr : m.1.result = some (.error .rollbackError))
    (ho : m.2 = [.result (.error .rollbackError)])
  | retry (t : Nat) (ha : a.ticket = some t)
    (h : a.state = .rollbackSent ∧ e = .rolledBack true)
    (hs : m.1.state = .rollbackComplete) (ht : m.1.ticket = some t)
    (hr : m.1.result = some (.error .retry))
    (ho : m.2 = [.result (.error .retry)])
  | crash (h : a.state = .functionGetSent ∧ e = .exec) (hm : m = (a, [.crash]))

theorem outcome {cfg : Config} {p : Can} {a : Agent} (rest : Rest a)
    (e : Event) : Outcome cfg a e (step cfg p a e) := by
  have hfall : ∀ {t m}, Falling a t e → Ends t m →
      (m.1.state = .functionStarted → m.1.ticket = some t → Quiet m.2 →
        Outcome cfg a e m) → Outcome cfg a e m := by
    intro t m hf he hst
    cases he with
    | stay hs ht hq => exact hst hs ht hq
    | fall h => exact .fall t hf h
  have hstart : ∀ {t} {b : Agent}, Starting a t e →
      (b.state = .beginSent ∨ b.state = .rollbackComplete) →
      b.ticket = some t → b.wounded = false →
      Outcome cfg a e (doStart cfg p b) := by
    intro t b hst hb ht hw
    cases doStart_starts (cfg := cfg) (p := p) hb ht hw with
    | get hs ht hw k w ho => exact .get t hst hs ht hw k w ho
    | ends h =>
      exact hfall (.inl hst) h fun hs ht hq => .run t (.inl hst) hs ht hq
  cases e with
  | exec =>
    simp only [step]
    cases hs : a.state with
    | init =>
      simp only [exec, hs]
      split
      · exact .begun rfl (.inl hs) rfl rfl ⟨rfl, rfl⟩ rfl
      · exact .beginFailed (.inl ⟨rfl, .inl hs⟩) rfl rfl ⟨rfl, rfl⟩ _ (.inl rfl) rfl
    | beginSent =>
      simp only [exec, hs]
      split
      · exact .begun rfl (.inr (.inl hs)) rfl rfl ⟨rfl, rfl⟩ rfl
      · exact .beginFailed (.inl ⟨rfl, .inr (.inl hs)⟩) rfl rfl ⟨rfl, rfl⟩ _ (.inl rfl) rfl
    | beginFailed =>
      simp only [exec, hs]
      split
      · exact .begun rfl (.inr (.inr hs)) rfl rfl ⟨rfl, rfl⟩ rfl
      · exact .beginFailed (.inl ⟨rfl, .inr (.inr hs)⟩) rfl rfl ⟨rfl, rfl⟩ _ (.inl rfl) rfl
    | rollbackComplete =>
      obtain ⟨t, ht⟩ := rest.ticket (by simp [hs]) (by simp [hs]) (by simp [hs])
      simp only [exec, hs]
      exact hstart (.inr ⟨hs, rfl, ht⟩) (.inr rfl) ht rfl
    | commitSent =>
      obtain ⟨t, ht⟩ := rest.ticket (by simp [hs]) (by simp [hs]) (by simp [hs])
      obtain ⟨u, hu⟩ := rest.committing hs
      simp only [exec, hs]
      rcases doCommit_cases (cfg := cfg) (p := p) (.inr hs) hu ht with h | h
      · rw [h]
        exact .commit t u ht (.inr ⟨hs, rfl, hu⟩) rfl ht hu rfl
      · exact .fall t (.inr ⟨ht, .inr (.inr (.inl ⟨hs, .inl rfl⟩))⟩) h
    | rollbackFailed =>
      obtain ⟨t, ht⟩ := rest.ticket (by simp [hs]) (by simp [hs]) (by simp [hs])
      simp only [exec, hs]
      exact .fall t (.inr ⟨ht, .inr (.inr (.inr ⟨.inr hs, rfl⟩))⟩)
        (doRollback_fall (by simp [hs, canRollback]) ht
          (rest.falling (.inr hs)))
    | rollbackSent =>
      obtain ⟨t, ht⟩ := rest.ticket (by simp [hs]) (by simp [hs]) (by simp [hs])
      simp only [exec, hs]
      exact .fall t (.inr ⟨ht, .inr (.inr (.inr ⟨.inl hs, rfl⟩))⟩)
        (doRollback_fall (by simp [hs, canRollback]) ht
          (rest.falling (.inl hs)))
    | functionGetSent =>
      refine .crash ⟨hs, rfl⟩ ?_
      simp only [exec, hs, doRollback, Agent.crash]
    | functionStarted =>
      obtain ⟨t, ht⟩ := rest.ticket (by simp [hs]) (by simp [hs]) (by simp [hs])
      simp only [exec, hs]
      exact .fall t (.inr ⟨ht, .inr (.inl hs)⟩)
        (doRollback_fall (by simp [hs, canRollback]) ht (by simp))
    | finishSent =>
      obtain ⟨t, ht⟩ := rest.ticket (by simp [hs]) (by simp [hs]) (by simp [hs])
      have hfin : Finishing a .exec := .inr (.inr ⟨.inl hs, rfl⟩)
      simp only [exec, hs]
      rcases doFinish_cases (p := p) (.inr (.inr (.inl hs))) ht with h | h <;>
        rw [h]
      · exact .finish t ht hfin rfl ht rfl rfl
      · exact .finishFailed t ht (.inl hfin) rfl ht _ (.inl rfl) rfl rfl
    | finishFailed =>
      obtain ⟨t, ht⟩ := rest.ticket (by simp [hs]) (by simp [hs]) (by simp [hs])
      have hfin : Finishing a .exec := .inr (.inr ⟨.inr hs, rfl⟩)
      simp only [exec, hs]
      rcases doFinish_cases (p := p) (.inr (.inl hs)) ht with h | h <;>
        rw [h]
      · exact .finish t ht hfin rfl ht rfl rfl
      · exact .finishFailed t ht (.inl hfin) rfl ht _ (.inl rfl) rfl rfl
    | finishComplete =>
      simp only [exec, hs]
      exact .idle hs rfl rfl (fun _ => ⟨rfl, rfl, rfl, rfl, by simp⟩) .nil
    | functionGetFailed => have := rest.notFailing; simp [hs, failing] at this
    | functionGetError => have := rest.notFailing; simp [hs, failing] at this
    | functionFailed => have := rest.notFailing; simp [hs, failing] at this
    | functionException => have := rest.notFailing; simp [hs, failing] at this
    | commitFailed => have := rest.notFailing; simp [hs, failing] at this
    | commitError => have := rest.notFailing; simp [hs, failing] at this
  | begun res =>
    simp only [step, handleBegin]
    split
    · next hs => exact .idle hs rfl rfl (fun _ => ⟨rfl, rfl, rfl, rfl, by simp⟩) .nil
    · next hs =>
      have hs : a.state = .beginSent := Classical.byContradiction hs
      have hw := rest.wounded (.inr (.inl hs))
      cases res with
      | some n => exact hstart (.inl ⟨hs, rfl⟩) (.inl hs) rfl hw
      | none =>
        exact .beginFailed (.inr ⟨rfl, hs⟩) rfl rfl ⟨rfl, rfl⟩ _ (.inr rfl) rfl
  | locked c res =>
    by_cases hc : c = .function
    · subst hc
      simp only [step]
      by_cases hs : a.state = .functionGetSent
      · obtain ⟨t, ht⟩ :=
          rest.ticket (by simp [hs]) (by simp [hs]) (by simp [hs])
        have hw := rest.wounded (.inr (.inr (.inr hs)))
        obtain ⟨h1, h2⟩ := handleFunction_ends (cfg := cfg) (p := p)
          (res := res) hs ht hw
        have hf : Falling a t (.locked .function res) :=
          .inr ⟨ht, .inl ⟨hs, res, rfl⟩⟩
        by_cases hv : ∃ v, res = .value v
        · obtain ⟨v, rfl⟩ := hv
          exact hfall hf h1 fun hs' ht' hq =>
            .run t (.inr ⟨hs, ht, v, rfl⟩) hs' ht' hq
        · exact .fall t hf (h2 fun v hv' => hv ⟨v, hv'⟩)
      · have : handleFunction cfg p res a = (a, []) := by
          simp only [handleFunction]; rw [if_pos hs]
        rw [this]
        exact .idle hs rfl rfl (fun _ => ⟨rfl, rfl, rfl, rfl, by simp⟩) .nil
    · have hstep : step cfg p a (.locked c res) = handleLock p c res a := by
        cases c with
        | function => exact absurd rfl hc
        | again id => rfl
        | runner r q => rfl
      have hfor : Foreign a (.locked c res) := by
        cases c with
        | function => exact absurd rfl hc
        | again id => trivial
        | runner r q => trivial
      rw [hstep]
      by_cases hs : a.state = .functionStarted
      · obtain ⟨t, ht⟩ :=
          rest.ticket (by simp [hs]) (by simp [hs]) (by simp [hs])
        cases handleLock_ends (p := p) (c := c) (res := res) hs ht with
        | stay hs' ht' hq =>
          exact .idle hfor (hs'.trans hs.symm) (ht'.trans ht.symm)
            (fun h => absurd hs h) hq
        | fall h => exact .fall t (.inr ⟨ht, .inr (.inl hs)⟩) h
      · have : handleLock p c res a = (a, []) := by
          simp only [handleLock]; rw [if_pos hs]
        rw [this]
        exact .idle hfor rfl rfl (fun _ => ⟨rfl, rfl, rfl, rfl, by simp⟩) .nil
  | request r q k w =>
    have hfor : Foreign a (.request r q k w) := trivial
    simp only [step]
    by_cases hr : a.runners ≤ r
    · rw [if_pos hr]
      exact .idle hfor rfl rfl (fun _ => ⟨rfl, rfl, rfl, rfl, by simp⟩) .nil
    rw [if_neg hr]
    by_cases hs : a.state = .functionStarted
    · obtain ⟨t, ht⟩ := rest.ticket (by simp [hs]) (by simp [hs]) (by simp [hs])
      obtain ⟨h1, h2⟩ := tryLock_ends (cfg := cfg) (p := p) (c := .runner r q)
        (k := k) (w := w) (by simp) hs ht
      split
      · cases h1 with
        | stay hs' ht' hq =>
          exact .idle hfor (hs'.trans hs.symm) (ht'.trans ht.symm)
            (fun h => absurd hs h) hq
        | fall h => exact .fall t (.inr ⟨ht, .inr (.inl hs)⟩) h
      · next hb =>
        obtain ⟨h3, h4, h5⟩ := h2 (by simpa using hb)
        refine .idle hfor (h3.trans hs.symm) (h4.trans ht.symm)
            (fun h => absurd hs h) ?_
        simp only [M.then, h5]
        exact .single rfl
    · obtain ⟨t, ht⟩ := rest.made (by omega)
      have h : tryLock cfg p (.runner r q) k w a = ((a, []), false) := by
        simp only [tryLock, ht]
        rw [if_pos hs]
      rw [h]
      exact .idle hfor rfl rfl (fun _ => ⟨rfl, rfl, rfl, rfl, by simp [M.then]⟩) (.single rfl)
  | ran res =>
    simp only [step, handleRun]
    split
    · next hs => exact .idle hs rfl rfl (fun _ => ⟨rfl, rfl, rfl, rfl, by simp⟩) .nil
    · next hs =>
      have hs : a.state = .functionStarted := Classical.byContradiction hs
      obtain ⟨t, ht⟩ := rest.ticket (by simp [hs]) (by simp [hs]) (by simp [hs])
      have hf : Falling a t (.ran res) := .inr ⟨ht, .inr (.inl hs)⟩
      cases res with
      | ok u =>
        rcases doCommit_cases (cfg := cfg) (p := p)
          (a := { a with result := some (.ok u) }) (.inl hs) rfl ht with h | h
        · simp only [h]
          exact .commit t u ht (.inl ⟨hs, rfl⟩) rfl ht rfl rfl
        · exact .fall t hf h
      | wounded =>
        exact .fall t hf (doResult_fall (e := .functionExecution) rfl ht rfl
          (by simp))
      | failed =>
        exact .fall t hf (doResult_fall (e := .functionExecution) rfl ht rfl
          (by simp))
  | committed res =>
    simp only [step, handleCommit]
    split
    · next hs => exact .idle hs rfl rfl (fun _ => ⟨rfl, rfl, rfl, rfl, by simp⟩) .nil
    · next hs =>
      have hs : a.state = .commitSent := Classical.byContradiction hs
      obtain ⟨t, ht⟩ := rest.ticket (by simp [hs]) (by simp [hs]) (by simp [hs])
      have hf : res ≠ .ok → Falling a t (.committed res) := fun h =>
        .inr ⟨ht, .inr (.inr (.inl ⟨hs, .inr ⟨res, rfl, h⟩⟩))⟩
      cases res with
      | ok =>
        have hfin : Finishing a (.committed .ok) := .inl ⟨hs, rfl⟩
        rcases doFinish_cases (p := p) (.inl hs) ht with h | h <;>
          simp only [h]
        · exact .finish t ht hfin rfl ht rfl rfl
        · exact .finishFailed t ht (.inl hfin) rfl ht _ (.inl rfl) rfl rfl
      | hazard =>
        exact .fall t (hf (by simp)) (doResult_fall (e := .commitError) rfl ht
          rfl (by simp))
      | broker =>
        exact .fall t (hf (by simp)) (doResult_fall (e := .commitError) rfl ht
          rfl (by simp))
      | wounded =>
        exact .fall t (hf (by simp)) (doResult_fall (e := .commitError) rfl ht
          rfl (by simp))
      | shard =>
        exact .fall t (hf (by simp)) (doResult_fall (e := .commitError) rfl ht
          rfl (by simp))
  | finished ok =>
    simp only [step, handleFinish]
    split
    · next hs => exact .idle hs rfl rfl (fun _ => ⟨rfl, rfl, rfl, rfl, by simp⟩) .nil
    · next hs =>
      have hs : a.state = .finishSent := Classical.byContradiction hs
      obtain ⟨t, ht⟩ := rest.ticket (by simp [hs]) (by simp [hs]) (by simp [hs])
      obtain ⟨r, hr, _⟩ := rest.finishing (.inl hs)
      cases ok with
      | true =>
        refine .complete t r ht ⟨hs, rfl⟩ ?_ ?_ hr ?_ ?_ <;>
          simp [doResult, report, hr, ht]
      | false =>
        exact .finishFailed t ht (.inr ⟨hs, rfl⟩) rfl ht _ (.inr rfl) rfl rfl
  | rolledBack ok =>
    simp only [step, handleRollback]
    split
    · next hs => exact .idle hs rfl rfl (fun _ => ⟨rfl, rfl, rfl, rfl, by simp⟩) .nil
    · next hs =>
      have hs : a.state = .rollbackSent := Classical.byContradiction hs
      obtain ⟨t, ht⟩ := rest.ticket (by simp [hs]) (by simp [hs]) (by simp [hs])
      cases ok with
      | true =>
        simp only [if_true]
        split
        · next hp =>
          have hfin : Finishing a (.rolledBack true) := .inr (.inl ⟨hs, rfl, hp⟩)
          rcases doFinish_cases (p := p) (a := { a with
            state := .rollbackComplete }) (.inr (.inr (.inr rfl))) ht with h | h
            <;> simp only [h]
          · exact .finish t ht hfin rfl ht rfl rfl
          · exact .finishFailed t ht (.inl hfin) rfl ht _ (.inl rfl) rfl rfl
        · exact .retry t ht ⟨hs, rfl⟩ rfl ht rfl rfl
      | false =>
        exact .rollbackFailed t ht ⟨hs, rfl⟩ rfl ht rfl rfl

/-- An agent is at rest after every event that does not end the process. -/
theorem Rest.step {cfg : Config} {p : Can} {a : Agent} (rest : Rest a)
    {e : Event} (h : Out.crash ∉ (step cfg p a e).2) :
    Rest (step cfg p a e).1 := by
  have key := outcome (cfg := cfg) (p := p) rest e
  generalize Agent.step cfg p a e = m at key h
  cases key with
  | idle hf hs ht hr ho =>
    by_cases hst : a.state = .functionStarted
    · rw [hst] at hs
      obtain ⟨t, ht'⟩ :=
        rest.ticket (by simp [hst]) (by simp [hst]) (by simp [hst])
      rw [ht'] at ht
      constructor <;> simp_all [failing]
    · obtain ⟨h1, h2, h3, h4, _⟩ := hr hst
      constructor
      · rw [hs]; exact rest.notFailing
      · rw [hs, ht]; exact rest.ticket
      · rw [hs, h3]; exact rest.wounded
      · rw [hs, h1]; exact rest.committing
      · rw [hs]; unfold Failed; rw [h1, h2]; exact rest.falling
      · rw [hs, h1]; exact rest.finishing
      · rw [h4, ht]; exact rest.made
      · rw [hs, h1]; exact rest.retrying
  | begun hb hst hs hw hk ho =>
    have hw' := rest.wounded (by rcases hst with h | h | h <;> simp [h])
    have := rest.made
    constructor <;> simp_all [failing]
  | beginFailed hst hs hw hk x hx ho =>
    have hw' := rest.wounded (by
      rcases hst with ⟨_, h | h | h⟩ | ⟨_, h⟩ <;> simp [h])
    have := rest.made
    constructor <;> simp_all [failing]
  | get t hst hs ht hw k w ho => constructor <;> simp_all [failing]
  | run t hst hs ht ho => constructor <;> simp_all [failing]
  | fall t hf hm =>
    cases hm with
    | sent o hs ht hfl hq ho => constructor <;> simp_all [failing]
    | stuck o hs ht hfl hq ho => constructor <;> simp_all [failing]
  | commit t u ha hst hs ht hr ho => constructor <;> simp_all [failing]
  | finish t ha hf hs ht hr ho =>
    have : ∃ r, a.result = some r ∧ r ≠ .error .retry := by
      rcases hf with ⟨h, _⟩ | ⟨h, _, hp⟩ | ⟨h, _⟩
      · obtain ⟨u, hu⟩ := rest.committing h
        exact ⟨_, hu, by simp⟩
      · obtain ⟨x, hx, hne⟩ := rest.falling (.inl h) hp
        exact ⟨_, hx, by simpa using hne⟩
      · exact rest.finishing (h.elim .inl (fun h => .inr (.inl h)))
    constructor <;> simp_all [failing]
  | finishFailed t ha hf hs ht x hx hr ho =>
    have : x ≠ .retry := by rcases hx with rfl | rfl <;> simp
    constructor <;> simp_all [failing]
  | complete t r ha hf hs ht hr hr' ho =>
    have := rest.finishing (.inl hf.1)
    constructor <;> simp_all [failing]
  | rollbackFailed t ha hf hs ht hr ho =>
    constructor <;> simp_all [failing, Failed]
  | retry t ha hf hs ht hr ho => constructor <;> simp_all [failing]
  | crash hf hm => simp [hm] at h

theorem Rest.init : Rest {} := by
  constructor <;> simp [failing]

theorem Run.rest {cfg : Config} {h : Trace} {a : Agent} (r : Run cfg h a)
    (alive : Alive h) : Rest a := by
  cases r with
  | start => exact .init
  | step r ha p e =>
    induction r generalizing p e with
    | start => exact Rest.init.step (alive _ (List.mem_cons_self ..))
    | step r ha' p' e' ih =>
      exact (ih ha' p' e' ha).step (alive _ (List.mem_cons_self ..))

end Verif.Parsec.Agent
