import Verif.Parsec.AgentProps
/-!
# Agents run by a server (C50, C70)

The server calls `exec` once and after every `retry`; the broker answers every
request once (`Served`).
-/
namespace Verif.Parsec.Agent

/-- The request an agent waits for. -/
def expect : State → Option Kind
  | .beginSent => some .begin
  | .functionGetSent => some .function
  | .commitSent => some .commit
  | .finishSent => some .finish
  | .rollbackSent => some .rollback
  | _ => none

/-- The end, for a server. -/
def final : State → Bool
  | .beginFailed | .rollbackFailed | .finishFailed | .finishComplete => true
  | _ => false

def committedState : State → Bool
  | .finishSent | .finishFailed | .finishComplete => true
  | _ => false

/-- Results other than `retry`. -/
def finals (h : Trace) : List Result :=
  (results h).filter fun r => r ≠ .error .retry

structure Inv (h : Trace) (a : Agent) : Prop where
  pend : pending h = expect a.state
  owe : owed h = true → a.state = .init ∨ a.state = .rollbackComplete
  acked : (∃ o, (Event.committed .ok, o) ∈ h) → committedState a.state = true
  ended : finals h ≠ [] → final a.state = true
  once : (finals h).length ≤ 1

theorem Quiet.findSome {o : List Out} (h : Quiet o) :
    o.reverse.findSome? kind = none := by
  rw [List.findSome?_eq_none_iff]
  intro x hx
  exact quiet_call (h x (List.mem_reverse.mp hx))

theorem Quiet.owed {o : List Out} (h : Quiet o) :
    (o.reverse.findSome? asResult) = (none : Option Result) := by
  rw [List.findSome?_eq_none_iff]
  intro x hx
  have := h x (List.mem_reverse.mp hx)
  cases x <;> simp [quiet, asResult] at this ⊢

/-- What a served event finds. -/
structure Met (a : Agent) (e : Event) : Prop where
  exec : e = .exec → a.state = .init ∨ a.state = .rollbackComplete
  answer : ∀ k, answers e = some k → expect a.state = some k

/-- The invariant from what the event says. -/
theorem Inv.next {h : Trace} {a b : Agent} {e : Event} {o : List Out}
    (inv : Inv h a)
    (hp : (o.reverse.findSome? kind).or
      (if (answers e).isSome then none else expect a.state) = expect b.state)
    (hr : ((o.filterMap asResult) = [] ∧ (e ≠ .exec → b.state = a.state ∨
          (a.state ≠ .init ∧ a.state ≠ .rollbackComplete)) ∧
          (final a.state = true → final b.state = true)) ∨
      (∃ q r, Quiet q ∧ o = q ++ [.result r] ∧ final a.state = false ∧
        ((r = .error .retry ∧ b.state = .rollbackComplete) ∨
          (r ≠ .error .retry ∧ final b.state = true))))
    (hc : committedState a.state = true ∨ e = .committed .ok → committedState b.state = true) :
    Inv ((e, o) :: h) b := by
  have hfin : finals ((e, o) :: h) = ((o.filterMap asResult).filter fun r => r ≠ .error .retry) ++ finals h := by
    unfold finals
    rw [results_cons, List.filter_append]
  constructor
  · rw [← hp]
    simp only [pending, inv.pend]
  · intro ho
    rcases hr with ⟨hr, hst, _⟩ | ⟨q, r, hq, rfl, _, hr⟩
    · have : (o.reverse.findSome? asResult) = (none : Option Result) := by
        rw [List.findSome?_eq_none_iff]
        intro x hx
        rw [List.filterMap_eq_nil_iff] at hr
        exact hr x (List.mem_reverse.mp hx)
      simp only [Agent.owed, this] at ho
      split at ho
      · cases ho
      · next he =>
        have ha := inv.owe ho
        rcases hst he with h | h
        · rw [h]; exact ha
        · rcases ha with ha | ha
          · exact absurd ha h.1
          · exact absurd ha h.2
    · simp only [Agent.owed, List.reverse_append, List.reverse_cons,
        List.reverse_nil, List.nil_append, List.singleton_append,
        List.findSome?_cons] at ho
      rcases hr with ⟨_, hb⟩ | ⟨hne, _⟩
      · exact .inr hb
      · simp [asResult, hne] at ho
  · rintro ⟨o', ho'⟩
    apply hc
    rcases List.mem_cons.mp ho' with h | h
    · exact .inr (by rw [Prod.mk.injEq] at h; exact h.1.symm)
    · exact .inl (inv.acked ⟨o', h⟩)
  · rw [hfin]
    intro hne
    rcases hr with ⟨hr, _, hfl⟩ | ⟨q, r, hq, rfl, ha, hr⟩
    · rw [hr] at hne
      exact hfl (inv.ended hne)
    · rcases hr with ⟨rfl, hb⟩ | ⟨_, hb⟩
      · rw [List.filterMap_append, hq.results] at hne
        have := inv.ended (by simpa [asResult, List.filterMap_cons] using hne)
        rw [ha] at this
        cases this
      · exact hb
  · rw [hfin]
    rcases hr with ⟨hr, _, hfl⟩ | ⟨q, r, hq, rfl, ha, hr⟩
    · rw [hr]; exact inv.once
    · have : finals h = [] := by
        by_cases hf : finals h = []
        · exact hf
        · have := inv.ended hf
          rw [ha] at this
          cases this
      rw [this, List.filterMap_append, hq.results]
      simp only [List.append_nil, List.nil_append, List.filterMap_cons,
        List.filterMap_nil]
      exact List.length_filter_le _ _

theorem Inv.step {cfg : Config} {p : Can} {h : Trace} {a : Agent}
    (rest : Rest a) (inv : Inv h a) {e : Event} (met : Met a e) :
    Inv ((e, (step cfg p a e).2) :: h) (step cfg p a e).1 ∧
      Out.crash ∉ (step cfg p a e).2 := by
  have key := outcome (cfg := cfg) (p := p) rest e
  generalize Agent.step cfg p a e = m at key
  obtain ⟨b, o⟩ := m
  have hx := met.exec
  have hans := met.answer
  cases key with
  | idle hf hs ht hr ho =>
    have hq : answers e = none ∧ e ≠ .exec := by
      cases e with
      | exec => rcases hx rfl with h | h <;> simp [Foreign, h] at hf
      | begun r =>
        have := hans _ rfl
        exact absurd (by cases h : a.state <;> simp_all [expect]) hf
      | locked c r =>
        cases c with
        | function =>
          have := hans _ rfl
          exact absurd (by cases h : a.state <;> simp_all [expect]) hf
        | again i => exact ⟨rfl, by simp⟩
        | runner r q => exact ⟨rfl, by simp⟩
      | request r q k w => exact ⟨rfl, by simp⟩
      | ran r => exact ⟨rfl, by simp⟩
      | committed r =>
        have := hans _ rfl
        exact absurd (by cases h : a.state <;> simp_all [expect]) hf
      | finished r =>
        have := hans _ rfl
        exact absurd (by cases h : a.state <;> simp_all [expect]) hf
      | rolledBack r =>
        have := hans _ rfl
        exact absurd (by cases h : a.state <;> simp_all [expect]) hf
    simp only at hs ho
    refine ⟨inv.next ?_ (.inl ⟨ho.results, fun _ => .inl hs, ?_⟩) ?_, ho.crash⟩
    · rw [ho.findSome, hs]; simp [hq.1]
    · rw [hs]; exact id
    · rw [hs]
      rintro (h | rfl)
      · exact h
      · simp [answers] at hq
  | begun hb hst hs hw hk ho =>
    simp only at hs ho
    subst hb ho
    have hst := hx rfl
    refine ⟨inv.next ?_ (.inl ⟨rfl, by simp, ?_⟩) ?_, by simp⟩
    · simp [kind, hs, expect]
    · rcases hst with h | h <;> simp [h, final]
    · rcases hst with h | h <;> simp [h, committedState]
  | beginFailed hst hs hw hk x hx' ho =>
    simp only at hs ho
    subst ho
    have hne : Result.error x ≠ .error .retry := by
      rcases hx' with rfl | rfl <;> simp
    refine ⟨inv.next ?_ (.inr ⟨[], _, .nil, rfl, ?_, .inr ⟨hne, ?_⟩⟩) ?_,
      by simp⟩
    · rcases hst with ⟨rfl, h⟩ | ⟨rfl, h⟩
      · rcases hx rfl with h | h <;> simp [kind, answers, h, hs, expect]
      · simp [kind, answers, hs, expect]
    · rcases hst with ⟨rfl, h⟩ | ⟨rfl, h⟩
      · rcases hx rfl with h | h <;> simp [h, final]
      · simp [h, final]
    · simp [hs, final]
    · rcases hst with ⟨rfl, h⟩ | ⟨rfl, h⟩
      · rcases hx rfl with h | h <;> simp [h, committedState]
      · simp [h, committedState]
  | get t hst hs ht hw k w ho =>
    simp only at hs ho
    subst ho
    refine ⟨inv.next ?_ (.inl ⟨rfl, ?_, ?_⟩) ?_, by simp⟩
    · simp [kind, hs, expect]
    · rcases hst with ⟨h, _⟩ | ⟨h, rfl, _⟩ <;> simp [h]
    · rcases hst with ⟨h, _⟩ | ⟨h, _, _⟩ <;> simp [h, final]
    · rcases hst with ⟨h, rfl⟩ | ⟨h, rfl, _⟩ <;> simp [h, committedState]
  | run t hst hs ht ho =>
    simp only at hs ho
    refine ⟨inv.next ?_ (.inl ⟨ho.results, ?_, ?_⟩) ?_, ho.crash⟩
    · rw [ho.findSome]
      rcases hst with (⟨h, rfl⟩ | ⟨h, rfl, _⟩) | ⟨h, _, v, rfl⟩ <;>
        simp [answers, h, hs, expect]
    · rcases hst with (⟨h, rfl⟩ | ⟨h, rfl, _⟩) | ⟨h, _, v, rfl⟩ <;> simp [h]
    · rcases hst with (⟨h, rfl⟩ | ⟨h, rfl, _⟩) | ⟨h, _, v, rfl⟩ <;>
        simp [h, final]
    · rcases hst with (⟨h, rfl⟩ | ⟨h, rfl, _⟩) | ⟨h, _, v, rfl⟩ <;>
        simp [h, committedState]
  | fall t hf hm =>
    have hcases : final a.state = false ∧ committedState a.state = false ∧
        e ≠ .committed .ok ∧
        (e ≠ .exec → a.state ≠ .init ∧ a.state ≠ .rollbackComplete) ∧
        ((answers e).isSome ∨ expect a.state = none) := by
      rcases hf with (⟨h, rfl⟩ | ⟨h, rfl, _⟩) | ⟨_, ⟨h, v, rfl⟩ | h | ⟨h, h'⟩ |
        ⟨h, rfl⟩⟩
      · simp [h, final, committedState, answers]
      · simp [h, final, committedState, expect]
      · simp [h, final, committedState, answers]
      · refine ⟨by simp [h, final], by simp [h, committedState], ?_,
          by simp [h], by simp [h, expect]⟩
        rintro rfl
        have := hans _ rfl
        simp [h, expect] at this
      · rcases h' with rfl | ⟨r, rfl, hr⟩
        · rcases hx rfl with h' | h' <;> simp [h'] at h
        · simp [h, final, committedState, answers, hr]
      · rcases hx rfl with h' | h' <;> simp [h'] at h
    obtain ⟨h1, h2, h3, h4, h5⟩ := hcases
    have hc : ∀ s : State, committedState a.state = true ∨ e = .committed .ok → committedState s = true := by
      intro s hx
      rcases hx with hx | hx
      · rw [h2] at hx; cases hx
      · exact absurd hx h3
    cases hm with
    | sent q hs ht hfl hq ho =>
      simp only at hs ho
      subst ho
      refine ⟨inv.next ?_ (.inl ⟨?_, fun he => .inr (h4 he), ?_⟩) (hc _), ?_⟩
      · simp [kind, hs, expect, List.findSome?_cons]
      · rw [List.filterMap_append, hq.results]; rfl
      · rw [h1]; simp
      · simp [hq.crash]
    | stuck q hs ht hfl hq ho =>
      simp only at hs ho
      subst ho
      refine ⟨inv.next ?_ (.inr ⟨q, _, hq, rfl, h1, .inr ⟨by simp, ?_⟩⟩)
        (hc _), ?_⟩
      · have := hq.findSome
        simp only [List.reverse_append, List.reverse_cons, List.reverse_nil,
          List.nil_append, List.singleton_append, List.findSome?_cons, kind,
          this, hs]
        rcases h5 with h | h
        · simp [h, expect]
        · rw [h]; simp [expect]
      · simp [hs, final]
      · simp [hq.crash]
  | commit t u ha hst hs ht hr ho =>
    simp only at hs ho
    subst ho
    rcases hst with ⟨h, rfl⟩ | ⟨h, rfl, _⟩
    · refine ⟨inv.next ?_ (.inl ⟨rfl, by simp [h], by simp [h, final]⟩) ?_,
        by simp⟩
      · simp [kind, hs, expect]
      · simp [h, committedState]
    · rcases hx rfl with h' | h' <;> simp [h'] at h
  | finish t ha hf hs ht hr ho =>
    simp only at hs ho
    subst ho
    refine ⟨inv.next ?_ (.inl ⟨rfl, ?_, ?_⟩) ?_, by simp⟩
    · simp [kind, hs, expect]
    · rcases hf with ⟨h, _⟩ | ⟨h, _, _⟩ | ⟨h | h, _⟩ <;> simp [h]
    · rcases hf with ⟨h, _⟩ | ⟨h, _, _⟩ | ⟨h | h, rfl⟩
      · simp [h, final]
      · simp [h, final]
      · simp [h, final]
      · rcases hx rfl with h' | h' <;> simp [h'] at h
    · simp [hs, committedState]
  | finishFailed t ha hf hs ht x hx' hr ho =>
    simp only at hs ho
    subst ho
    have hne : Result.error x ≠ .error .retry := by
      rcases hx' with rfl | rfl <;> simp
    have hans : (answers e).isSome ∧ final a.state = false := by
      rcases hf with (⟨h, rfl⟩ | ⟨h, rfl, _⟩ | ⟨h, rfl⟩) | ⟨h, rfl⟩
      · simp [h, answers, final]
      · simp [h, answers, final]
      · rcases hx rfl with h' | h' <;> simp [h'] at h
      · simp [h, answers, final]
    refine ⟨inv.next ?_ (.inr ⟨[], _, .nil, rfl, hans.2, .inr ⟨hne, ?_⟩⟩) ?_,
      by simp⟩
    · simp [kind, hans.1, hs, expect]
    · simp [hs, final]
    · simp [hs, committedState]
  | complete t r ha hf hs ht hr hr' ho =>
    simp only at hs ho
    subst ho
    obtain ⟨h, rfl⟩ := hf
    obtain ⟨r', hr1, hr2⟩ := rest.finishing (.inl h)
    rw [hr] at hr1
    cases hr1
    refine ⟨inv.next ?_ (.inr ⟨[], _, .nil, rfl, by simp [h, final],
      .inr ⟨hr2, by simp [hs, final]⟩⟩) (by simp [hs, committedState]),
      by simp⟩
    simp [kind, answers, hs, expect]
  | rollbackFailed t ha hf hs ht hr ho =>
    simp only at hs ho
    subst ho
    obtain ⟨h, rfl⟩ := hf
    refine ⟨inv.next ?_ (.inr ⟨[], _, .nil, rfl, by simp [h, final],
      .inr ⟨by simp, by simp [hs, final]⟩⟩) (by simp [h, committedState]),
      by simp⟩
    simp [kind, answers, hs, expect]
  | retry t ha hf hs ht hr ho =>
    simp only at hs ho
    subst ho
    obtain ⟨h, rfl⟩ := hf
    refine ⟨inv.next ?_ (.inr ⟨[], _, .nil, rfl, by simp [h, final],
      .inl ⟨rfl, hs⟩⟩) (by simp [h, committedState]), by simp⟩
    simp [kind, answers, hs, expect]
  | crash hf hm =>
    obtain ⟨h, rfl⟩ := hf
    rcases hx rfl with h' | h' <;> simp [h'] at h

theorem Inv.met {h : Trace} {a : Agent} (inv : Inv h a) {e : Event}
    {o : List Out} (s : Served ((e, o) :: h)) : Met a e where
  exec he := inv.owe (s.1 he)
  answer k hk := by rw [← inv.pend]; exact s.2.1 k hk

theorem Run.served {cfg : Config} {h : Trace} {a : Agent} (r : Run cfg h a)
    (s : Served h) : Inv h a ∧ Alive h := by
  induction r with
  | start =>
    refine ⟨?_, by simp [Alive]⟩
    constructor <;> simp [pending, expect, finals, results]
  | step r ha p e ih =>
    obtain ⟨inv, _⟩ := ih s.2.2
    obtain ⟨h1, h2⟩ := inv.step (cfg := cfg) (p := p) (r.rest ha) (inv.met s)
    refine ⟨h1, ?_⟩
    intro x hx
    rcases List.mem_cons.mp hx with rfl | hx
    · exact h2
    · exact ha x hx

/-- **C50.**  Once the broker has confirmed a commit, no rollback is ever
requested. -/
theorem C50_no_rollback {cfg : Config} {h : Trace} {a : Agent}
    (r : Run cfg h a) (s : Served h) {post pre : Trace} {o : List Out}
    (hh : h = post ++ (.committed .ok, o) :: pre) :
    ∀ x ∈ post ++ [(Event.committed .ok, o)], ∀ t, Out.rollback t ∉ x.2 := by
  induction r generalizing post with
  | start => simp at hh
  | @step h a r ha p e ih =>
    obtain ⟨inv, _⟩ := r.served s.2.2
    have met := inv.met s
    have hc : committedState a.state = true ∨ e = .committed .ok := by
      cases post with
      | nil =>
        simp only [List.nil_append, List.cons.injEq, Prod.mk.injEq] at hh
        exact .inr hh.1.1
      | cons y post =>
        simp only [List.cons_append, List.cons.injEq] at hh
        exact .inl (inv.acked ⟨o, by rw [hh.2]; simp⟩)
    have hno : ∀ t, Out.rollback t ∉ (step cfg p a e).2 := by
      have key := outcome (cfg := cfg) (p := p) (r.rest ha) e
      generalize Agent.step cfg p a e = m at key
      cases key with
      | idle hf hs ht hr ho => exact ho.rollback
      | begun hb hst hs hw hk ho => simp [ho]
      | beginFailed hst hs hw hk x hx ho => simp [ho]
      | get t hst hs ht hw k w ho => simp [ho]
      | run t hst hs ht ho => exact ho.rollback
      | fall t hf hm =>
        exfalso
        rcases hc with hc | rfl
        · rcases hf with (⟨h, _⟩ | ⟨h, _, _⟩) | ⟨_, ⟨h, _⟩ | h | ⟨h, _⟩ |
            ⟨h | h, _⟩⟩ <;> simp [h, committedState] at hc
        · have := met.answer _ rfl
          rcases hf with (⟨h, h'⟩ | ⟨h, h', _⟩) | ⟨_, ⟨h, h'⟩ | h |
            ⟨h, h' | ⟨r, h', hne⟩⟩ | ⟨h | h, h'⟩⟩ <;> simp_all [expect]
      | commit t u ha hst hs ht hr ho => simp [ho]
      | finish t ha hf hs ht hr ho => simp [ho]
      | finishFailed t ha hf hs ht x hx hr ho => simp [ho]
      | complete t r ha hf hs ht hr hr' ho => simp [ho]
      | rollbackFailed t ha hf hs ht hr ho => simp [ho]
      | retry t ha hf hs ht hr ho => simp [ho]
      | crash hf hm => simp [hm]
    intro x hx
    cases post with
    | nil =>
      simp only [List.nil_append, List.cons.injEq, Prod.mk.injEq] at hh
      simp only [List.nil_append, List.mem_singleton] at hx
      subst hx
      simp only [← hh.1.2]
      exact hno
    | cons y post =>
      simp only [List.cons_append, List.cons.injEq] at hh
      rcases List.mem_cons.mp hx with rfl | hx
      · rw [← hh.1]; exact hno
      · exact ih s.2.2 hh.2 x hx

/-- **C50.**  An agent run by a server never ends the process by an assertion or
a fatal error. -/
theorem C50_no_crash {cfg : Config} {h : Trace} {a : Agent} (r : Run cfg h a)
    (s : Served h) : Alive h := (r.served s).2

/-- **C50.**  The client of the server is answered at most once. -/
theorem C50_answer_once {cfg : Config} {h : Trace} {a : Agent}
    (r : Run cfg h a) (s : Served h) :
    ((results h).filter serverDestroys).length ≤ 1 := by
  have := (r.served s).1.once
  unfold finals at this
  exact this

/-- **C70, partly.**  The server destroys an agent after reporting a result other
than `retry`.  If that is a success or an error of the function or the commit,
the destructor does not end the process. -/
theorem C70_destroy_partial {cfg : Config} {e : Event} {o : List Out}
    {h : Trace} {a : Agent} (r : Run cfg ((e, o) :: h) a) {x : Result}
    (hx : Out.result x ∈ o) (hd : serverDestroys x = true)
    (h1 : x ≠ .error .brokerUnreachable)
    (h2 : x ≠ .error .ticketNumberAssignment)
    (h3 : x ≠ .error .finishError) (h4 : x ≠ .error .rollbackError) :
    destroyFatal a = false := by
  cases r with
  | @step _ a r ha p _ =>
    have key := outcome (cfg := cfg) (p := p) (r.rest ha) e
    generalize Agent.step cfg p a e = m at key hx
    cases key with
    | idle hf hs ht hr hq => exact absurd hx (hq.result _)
    | begun hb hst hs hw hk hm => simp [hm] at hx
    | beginFailed hst hs hw hk y hy hm =>
      simp [hm] at hx
      subst hx
      rcases hy with rfl | rfl <;> simp_all
    | get t hst hs ht hw k w hm => simp [hm] at hx
    | run t hst hs ht hq => exact absurd hx (hq.result _)
    | fall t hf hm =>
      cases hm with
      | sent l hs ht hfl hq hm =>
        simp only [hm, List.mem_append] at hx
        rcases hx with hx | hx
        · exact absurd hx (hq.result _)
        · simp at hx
      | stuck l hs ht hfl hq hm =>
        simp only [hm, List.mem_append] at hx
        rcases hx with hx | hx
        · exact absurd hx (hq.result _)
        · simp at hx
          exact absurd hx h1
    | commit t u ha hst hs ht hr hm => simp [hm] at hx
    | finish t ha hf hs ht hr hm => simp [hm] at hx
    | finishFailed t ha hf hs ht y hy hr hm =>
      simp [hm] at hx
      subst hx
      rcases hy with rfl | rfl <;> simp_all
    | complete t r ha hf hs ht hr hr' hm => simp [destroyFatal, hs]
    | rollbackFailed t ha hf hs ht hr hm =>
      simp [hm] at hx
      exact absurd hx h4
    | retry t ha hf hs ht hr hm =>
      simp [hm] at hx
      subst hx
      simp [serverDestroys] at hd
    | crash hf hm => simp [hm] at hx

/-! ### Concrete runs -/

/-- A list of events with what can be sent, oldest first. -/
def play (cfg : Config) : List (Can × Event) → Trace × Agent
  | [] => ([], {})
  | (p, e) :: l =>
    let r := play cfg l
    ((e, (step cfg p r.2 e).2) :: r.1, (step cfg p r.2 e).1)

/-- Newest first: whether the process lives all the while. -/
def aliveB (h : Trace) : Bool := h.all fun s => !s.2.contains .crash

theorem aliveB_sound {h : Trace} (hb : aliveB h = true) : Alive h := by
  intro s hs hc
  have := List.all_eq_true.mp hb s hs
  simp [List.contains_iff_mem] at this
  exact this hc

theorem play_run (cfg : Config) (l : List (Can × Event))
    (h : aliveB (play cfg l.tail).1 = true) :
    Run cfg (play cfg l).1 (play cfg l).2 := by
  induction l with
  | nil => exact .start
  | cons x l ih =>
    refine .step (ih ?_) (aliveB_sound h) x.1 x.2
    cases l with
    | nil => rfl
    | cons y l =>
      simp only [List.tail_cons] at h ⊢
      simp only [play, aliveB, List.all_cons, Bool.and_eq_true] at h
      exact h.2

/-- The function is stored under key 7, the run writes. -/
def cfg7 : Config :=
  { key := 7, size := 4, initialWrite := false, readonly := false }

/-- A run that is wounded, starts again, re-acquires its lock and commits;
newest event first. -/
def good : List (Can × Event) :=
  [({}, .finished true), ({}, .committed .ok), ({}, .ran (.ok [(5, 6)])),
   ({}, .locked (.again 0) (.value 1)), ({}, .locked .function (.value 9)),
   ({}, .exec), ({}, .rolledBack true), ({}, .ran .wounded),
   ({}, .locked (.runner 0 0) .wounded), ({}, .request 0 0 5 true),
   ({}, .locked .function (.value 9)), ({}, .begun (some 3)), ({}, .exec)]

example : Run cfg7 (play cfg7 good).1 (play cfg7 good).2 ∧
    Served (play cfg7 good).1 ∧
    results (play cfg7 good).1 = [.ok [(5, 6)], .error .retry] ∧
    (play cfg7 good).2.runners = 2 := by
  refine ⟨play_run _ _ (by decide), ?_, by decide, rfl⟩
  refine ⟨by decide, ?_, by decide, ?_, by decide, ?_, by decide, ?_,
    by decide, ?_, by decide, ?_, by decide, ?_, by decide, ?_, by decide, ?_,
    by decide, ?_, by decide, ?_, by decide, ?_, by decide, ?_, trivial⟩ <;>
    intro k hk <;> cases k <;> revert hk <;> decide

/-- **C70 is violated:** when the broker has no ticket number for a request, the
agent's destructor ends the server's process, with all other transactions. -/
theorem C70_violated : ∃ h a, Run cfg7 h a ∧ Served h ∧
    h.head? = some (.begun none, [.result (.error .ticketNumberAssignment)]) ∧
    serverDestroys (.error .ticketNumberAssignment) = true ∧
    destroyFatal a = true := by
  refine ⟨_, _, play_run cfg7 [({}, .begun none), ({}, .exec)] (by decide), ?_,
    rfl, rfl, rfl⟩
  refine ⟨by decide, ?_, by decide, ?_, trivial⟩ <;>
    intro k hk <;> cases k <;> revert hk <;> decide

/-- The same happens to a transaction that was committed, when the broker cannot
be reached for `finish`: its client is told of an error. -/
theorem C70_committed_violated : ∃ h a, Run cfg7 h a ∧ Served h ∧
    h.head? = some (.committed .ok, [.result (.error .brokerUnreachable)]) ∧
    destroyFatal a = true := by
  refine ⟨_, _, play_run cfg7 [({ finish := false }, .committed .ok),
    ({}, .ran (.ok [(5, 6)])),
    ({}, .locked .function (.value 9)), ({}, .begun (some 3)), ({}, .exec)]
    (by decide), ?_, rfl, rfl⟩
  refine ⟨by decide, ?_, by decide, ?_, by decide, ?_, by decide, ?_,
    by decide, ?_, trivial⟩ <;>
    intro k hk <;> cases k <;> revert hk <;> decide

/-- Without `Served` an assertion fails: `exec` is called again while the
function is being retrieved (src/parsec/agent/impl.cpp:70-75 and 599-607 disagree). -/
theorem C50_exec_violated : ∃ h a, Run cfg7 h a ∧
    h.head? = some (.exec, [.crash]) := by
  exact ⟨_, _, play_run cfg7 [({}, .exec), ({}, .begun (some 3)), ({}, .exec)]
    (by decide), rfl⟩

/-- After an answer to `finish` was an error, a second `exec` finishes the
transaction, but the caller is told of the error although all was written. -/
theorem C50_error_after_commit : ∃ h a, Run cfg7 h a ∧
    h.head? = some (.finished true, [.result (.error .finishError)]) ∧
    (∃ o, (Event.committed .ok, o) ∈ h) ∧ a.state = .finishComplete := by
  refine ⟨_, _, play_run cfg7 [({}, .finished true), ({}, .exec),
    ({}, .finished false), ({}, .committed .ok), ({}, .ran (.ok [(5, 6)])),
    ({}, .locked .function (.value 9)), ({}, .begun (some 3)), ({}, .exec)]
    (by decide), rfl, ⟨[.finish 3], ?_⟩, rfl⟩
  decide

/-- **C71 is violated:** a late answer to a lock request of the first attempt is
passed to the runner of that attempt, which was destroyed. -/
theorem C71_destroyed_violated : ∃ h a, Run cfg7 h a ∧
    h.head? = some (.locked (.runner 0 1) (.value 4),
      [.answer 0 1 (.value 4)]) ∧ a.runners = 2 ∧
    (∃ o, (Event.request 0 1 6 true, o) ∈ h ∧
      Out.lock (.runner 0 1) 3 6 true ∈ o) := by
  refine ⟨_, _, play_run cfg7 [({}, .locked (.runner 0 1) (.value 4)),
    ({}, .locked (.again 0) (.value 1)), ({}, .locked (.again 0) (.value 1)),
    ({}, .locked .function (.value 9)),
    ({}, .exec), ({}, .rolledBack true), ({}, .ran .wounded),
    ({}, .locked (.runner 0 0) .wounded), ({}, .request 0 1 6 true),
    ({}, .request 0 0 5 true),
    ({}, .locked .function (.value 9)), ({}, .begun (some 3)), ({}, .exec)]
    (by decide), rfl, rfl, ⟨[.lock (.runner 0 1) 3 6 true], ?_,
      List.mem_cons_self ..⟩⟩
  decide

end Verif.Parsec.Agent
