import Verif.Parsec.ServerReach

/-!
# C86: what the client of an agent is told is what happened on the shards

The statements are about the states which agents, their broker, its shards and the
network can reach (`Reaches`).  They use what the agents report (`Agent.Out.result`),
which numbers the broker gave them (`Given`), and what the shards store and served.
-/
namespace Verif.Parsec.Agent

/-- After success was reported nothing changes. -/
theorem ok_stays {cfg : Config} {tr : Trace} {a : Agent} (r : Run cfg tr a) {u : Update}
    (h : ∃ x ∈ tr, Out.result (.ok u) ∈ x.2) : a.state = .finishComplete ∧ a.result = some (.ok u) := by
  induction r with
  | start => obtain ⟨x, hx, _⟩ := h; cases hx
  | @step tr a r ha p e ih =>
    have rest := r.rest ha
    have key := outcome (cfg := cfg) (p := p) rest e
    obtain ⟨x, hx, h1⟩ := h
    rcases List.mem_cons.mp hx with rfl | hx
    · obtain ⟨he, _, _⟩ := C50_success (Run.step r ha p e) h1
      dsimp only at h1
      generalize Agent.step cfg p a e = m at key h1
      subst he
      cases key with
      | complete t r ha' hst hs ht hres hres' ho =>
        rw [ho] at h1
        simp only [List.mem_singleton, Out.result.injEq] at h1
        exact ⟨hs, by rw [hres', h1]⟩
      | idle hf hs ht hr hq => exact absurd h1 (hq.result _)
      | begun hb => cases hb
      | beginFailed hb => simp at hb
      | get t hst hs ht hw k w hm => simp [hm] at h1
      | run t hst hs ht hq => exact absurd h1 (hq.result _)
      | fall t hf hm =>
        cases hm with
        | sent l hs ht hfl hq hm =>
          simp only [hm, List.mem_append] at h1
          rcases h1 with h1 | h1
          · exact absurd h1 (hq.result _)
          · simp at h1
        | stuck l hs ht hfl hq hm =>
          simp only [hm, List.mem_append] at h1
          rcases h1 with h1 | h1
          · exact absurd h1 (hq.result _)
          · simp at h1
      | commit t u ha hst hs ht hr hm => simp [hm] at h1
      | finish t ha hf hs ht hr hm => simp [hm] at h1
      | finishFailed t ha hf hs ht x hx hr hm => simp [hm] at h1
      | rollbackFailed t ha hf hs ht hr hm => simp [hm] at h1
      | retry t ha hf hs ht hr hm => simp [hm] at h1
      | crash hf hm => simp [hm] at h1
    · obtain ⟨h2, h3⟩ := ih ⟨x, hx, h1⟩
      obtain ⟨h4, h5⟩ := still key h2
      exact ⟨h4, by rw [h5, h3]⟩
where
  still {cfg : Config} {a : Agent} {e : Event} {m : M} (key : Outcome cfg a e m) (h2 : a.state = .finishComplete) :
      m.1.state = .finishComplete ∧ m.1.result = a.result := by
    cases key with
    | idle hf hs ht hr hq => exact ⟨by rw [hs, h2], (hr (by rw [h2]; decide)).1⟩
    | begun hb hst => rw [h2] at hst; simp at hst
    | beginFailed hb => rw [h2] at hb; simp at hb
    | get t hst => unfold Starting at hst; rw [h2] at hst; simp at hst
    | run t hst => unfold Starting at hst; rw [h2] at hst; simp at hst
    | fall t hf hm => unfold Falling Starting at hf; rw [h2] at hf; simp at hf
    | commit t u ha hst => rw [h2] at hst; simp at hst
    | finish t ha hf => unfold Finishing at hf; rw [h2] at hf; simp at hf
    | finishFailed t ha hf => unfold Finishing at hf; rw [h2] at hf; simp at hf
    | complete t r ha hf => rw [h2] at hf; simp at hf
    | rollbackFailed t ha hf => rw [h2] at hf; simp at hf
    | retry t ha hf => rw [h2] at hf; simp at hf
    | crash hf => rw [h2] at hf; simp at hf

/-- Where an agent is after it reported the error `x` and until it is run again. -/
def FailedWith (x : Err) (a : Agent) : Prop :=
  a.state = .rollbackComplete ∨ (a.state = .finishComplete ∧ a.result = some (.error x)) ∨ a.state = .beginFailed

theorem error_stays {cfg : Config} {e : Event} {o : List Out} {tl : Trace} {x : Err}
    (ho : Out.result (.error x) ∈ o) (h1 : x ≠ .brokerUnreachable) (h2 : x ≠ .finishError) (h3 : x ≠ .rollbackError) :
    ∀ {late : Trace} {a : Agent}, Run cfg (late ++ (e, o) :: tl) a → (∀ y ∈ late, y.1 ≠ .exec) → FailedWith x a := by
  intro late
  induction late with
  | nil =>
    intro a r _
    rw [List.nil_append] at r
    cases r with
    | @step _ b r ha p _ =>
      have rest := r.rest ha
      have key := outcome (cfg := cfg) (p := p) rest e
      generalize Agent.step cfg p b e = m at key ho
      cases key with
      | idle hf hs ht hr hq => exact absurd ho (hq.result _)
      | begun hb hst hs hw hk hm => simp [hm] at ho
      | beginFailed hst hs hw hk y hy hm => exact .inr (.inr hs)
      | get t hst hs ht hw k w hm => simp [hm] at ho
      | run t hst hs ht hq => exact absurd ho (hq.result _)
      | fall t hf hm =>
        cases hm with
        | sent l hs ht hfl hq hm =>
          simp only [hm, List.mem_append] at ho
          rcases ho with ho | ho
          · exact absurd ho (hq.result _)
          · simp at ho
        | stuck l hs ht hfl hq hm =>
          simp only [hm, List.mem_append] at ho
          rcases ho with ho | ho
          · exact absurd ho (hq.result _)
          · simp at ho
            exact absurd ho h1
      | commit t u ha hst hs ht hr hm => simp [hm] at ho
      | finish t ha hf hs ht hr hm => simp [hm] at ho
      | finishFailed t ha hf hs ht y hy hr hm =>
        simp [hm] at ho
        subst ho
        rcases hy with hy | hy
        · exact absurd hy h1
        · exact absurd hy h2
      | complete t r ha hf hs ht hr hr' hm =>
        simp [hm] at ho
        exact .inr (.inl ⟨hs, by rw [hr', ho]⟩)
      | rollbackFailed t ha hf hs ht hr hm =>
        simp [hm] at ho
        exact absurd ho h3
      | retry t ha hf hs ht hr hm => exact .inl hs
      | crash hf hm => simp [hm] at ho
  | cons y late ih =>
    intro a r hl
    rw [List.cons_append] at r
    cases r with
    | @step _ b r ha p e' =>
      have rest := r.rest ha
      have key := outcome (cfg := cfg) (p := p) rest e'
      have hne : e' ≠ .exec := hl _ List.mem_cons_self
      have hb := ih r fun z hz => hl z (List.mem_cons_of_mem _ hz)
      generalize Agent.step cfg p b e' = m at key
      rcases hb with hb | ⟨hb, hb'⟩ | hb
      · left
        cases key with
        | idle hf hs ht hr hq => rw [hs, hb]
        | begun he => exact absurd he hne
        | beginFailed hst => rw [hb] at hst; simp at hst
        | get t hst => unfold Starting at hst; rw [hb] at hst; simp [hne] at hst
        | run t hst => unfold Starting at hst; rw [hb] at hst; simp [hne] at hst
        | fall t hf hm => unfold Falling Starting at hf; rw [hb] at hf; simp [hne] at hf
        | commit t u ha hst => rw [hb] at hst; simp at hst
        | finish t ha hf => unfold Finishing at hf; rw [hb] at hf; simp at hf
        | finishFailed t ha hf => unfold Finishing at hf; rw [hb] at hf; simp at hf
        | complete t r ha hf => rw [hb] at hf; simp at hf
        | rollbackFailed t ha hf => rw [hb] at hf; simp at hf
        | retry t ha hf => rw [hb] at hf; simp at hf
        | crash hf => rw [hb] at hf; simp at hf
      · obtain ⟨h4, h5⟩ := ok_stays.still key hb
        exact .inr (.inl ⟨h4, by rw [h5, hb']⟩)
      · right; right
        cases key with
        | idle hf hs ht hr hq => rw [hs, hb]
        | begun he => exact absurd he hne
        | beginFailed hst hs => exact hs
        | get t hst => unfold Starting at hst; rw [hb] at hst; simp at hst
        | run t hst => unfold Starting at hst; rw [hb] at hst; simp at hst
        | fall t hf hm => unfold Falling Starting at hf; rw [hb] at hf; simp at hf
        | commit t u ha hst => rw [hb] at hst; simp at hst
        | finish t ha hf => unfold Finishing at hf; rw [hb] at hf; simp at hf
        | finishFailed t ha hf => unfold Finishing at hf; rw [hb] at hf; simp at hf
        | complete t r ha hf => rw [hb] at hf; simp at hf
        | rollbackFailed t ha hf => rw [hb] at hf; simp at hf
        | retry t ha hf => rw [hb] at hf; simp at hf
        | crash hf => rw [hb] at hf; simp at hf

end Verif.Parsec.Agent

namespace Verif.Parsec.Broker.Server

section
variable {cfg : Nat → Agent.Config} {κ : Nat → Key} {ν : Nat → Value} {n me : Nat} {own : Tn → Prop} {S : Server}

/-- **C86.** Agents keep the order of calls which the broker needs. -/
theorem C86_orderly (hr : Reaches cfg κ ν n me own S) : Runs n me own Orderly S.w := hr.inv.runs

/-- **C86.** So no transaction of an agent happens on some of its shards only. -/
theorem C86_atomic (hr : Reaches cfg κ ν n me own S) {k : Nat} {t : Tn} (hc : Committed S.w k t) (i : Nat)
    (hi : Touched t S.w.h i) :
    (∃ u, UserUpdate S.w t u ∧ (WillWritePart S.w i t u ∨ WrotePart S.w i t u)) ∧
      ∀ r ∈ S.w.net i, ∀ c, r.call ≠ .rollback i t c :=
  C85_atomic (C86_orderly hr) hc i hi

/-- An event that reports a commit is the answer of a shard. -/
theorem next_to_committed {e : Event} {tk tk' : Ticket} (hs : tk.state = .prepared)
    (hn : (next e (some tk)).1 = some tk') (hs' : tk'.state = .committed) :
    ∃ c t i r p, e = .committed c t i r p := by
  cases e with
  | committed c t i r p => exact ⟨c, t, i, r, p, rfl⟩
  | ticketNumber cb r => cases r <;> simp [next, stay] at hn <;> rw [← hn, hs] at hs' <;> cases hs'
  | tryLock cb t ok => simp [next, stay, hs] at hn; rw [← hn, hs] at hs'; cases hs'
  | foundKey cb t k ty r ok => cases r <;> simp [next, stay, hs] at hn <;> rw [← hn, hs] at hs' <;> cases hs'
  | locked cb t k i r =>
    exfalso
    cases r with
    | error e => simp [next, stay] at hn; rw [← hn, hs] at hs'; cases hs'
    | value v =>
      simp only [next] at hn
      repeat' split at hn
      all_goals
        simp only [stay, Option.some.injEq] at hn
        rw [← hn] at hs'
        dsimp only at hs'
        rw [hs] at hs'
        cases hs'
  | commit cb t u p =>
    simp only [next, Option.some.injEq] at hn
    rw [← hn, Ticket.commit_state, hs] at hs'; cases hs'
  | prepared c t i r p => simp [next, stay, hs] at hn; rw [← hn, hs] at hs'; cases hs'
  | rollback cb t p => simp [next, stay, hs] at hn; rw [← hn, hs] at hs'; cases hs'
  | rolledBack c t i r p => simp [next, stay, hs] at hn; rw [← hn, hs] at hs'; cases hs'
  | finish cb t p => simp [next, stay, hs] at hn; rw [← hn, hs] at hs'; cases hs'
  | finished c t i r => simp [next, stay, hs] at hn; rw [← hn, hs] at hs'; cases hs'
  | recover cb => simp [next, stay] at hn; rw [← hn, hs] at hs'; cases hs'
  | gotTickets cb i r p => simp [next, stay] at hn; rw [← hn, hs] at hs'; cases hs'

theorem said_committed_asked {m : Nat} {h : Hist} {s : State} (hr : Run m h s) {j : Nat} {t : Tn}
    (hc : SaidCommitted j t h) : CommitAsked t h := by
  induction hr with
  | start => obtain ⟨x, hx, _⟩ := hc; cases hx
  | @step h s s' e o hr hp hs ih =>
    have mono : CommitAsked t h → CommitAsked t ((e, o) :: h) := by
      rintro ⟨x, hx, h1⟩
      exact ⟨x, List.mem_cons_of_mem _ hx, h1⟩
    obtain ⟨x, hx, h1⟩ := hc
    rcases List.mem_cons.mp hx with rfl | hx
    · obtain ⟨tk, tk', h2, h3, h4, h5⟩ := success_said hp hs h1
      have hbel := (step_belongs hp.plain hs).said _ h1
      have ht : e.ticket = some t := hbel.2.1.symm
      have h6 := (step_next hp.plain ht hs).own
      rw [h2] at h6
      dsimp only at h6
      obtain ⟨c, t', i, r, p, rfl⟩ := next_to_committed h3 (by rw [← h6]; exact h4) h5
      cases ht
      exact mono (asked_commit hp.2)
    · exact mono (ih ⟨x, hx, h1⟩)

/-- Everything of the update was written. -/
theorem committed_all (hr : Runs n me own Orderly S.w) {j : Nat} {t : Tn} (hc : SaidCommitted j t S.w.h)
    {u : List (Key × Value)} (hu : OnlyCommit t S.w.h u) :
    (∀ i, Touched t S.w.h i → WrotePart S.w i t u) ∧
      ∀ q ∈ u, ∃ i, Touched t S.w.h i ∧ ∃ a ∈ S.w.log i,
        ((∃ j c, a.req.call = .commit j t c) ∧ a.result = none) ∧ u.lookup q.1 = some (a.after q.1) := by
  have hl := hr.link
  have h1 := C85_whole_update hr hc hu
  refine ⟨h1.1, fun q hq => h1.2 ?_ q hq⟩
  obtain ⟨x, hx, i, c, h2⟩ := said_committed_asked hl.run hc
  obtain ⟨h3, _, h4⟩ := hl.decided t ⟨x, hx, i, c, h2⟩
  obtain ⟨_, h5⟩ := h4 i c ⟨x, hx, h2⟩
  obtain ⟨_, _, _, u', h6, _⟩ := reported_kept hl (hr.held i) h5 h3
  have := hu u' h6.1
  subst this
  obtain ⟨k, ty, f, cb, h7⟩ := h6.2 q hq
  exact ⟨k, q.1, ty, f, cb, h7⟩

/-- **C86.** Once an agent reported success with `u`, there is a number the broker gave
it under which each shard that was asked for a lock has committed, once, its part of
`u` (of nothing if the agent is read-only), and each key of `u` was written. -/
theorem C86_success (hr : Reaches cfg κ ν n me own S) {j : Nat} {u : Agent.Update}
    (ho : ∃ x ∈ S.tr j, Agent.Out.result (.ok u) ∈ x.2) :
    ∃ t, Given j t S.w.h ∧
      (∀ i, Touched t S.w.h i → WrotePart S.w i t (enc κ ν (Agent.payload (cfg j) u))) ∧
      ∀ q ∈ enc κ ν (Agent.payload (cfg j) u), ∃ i, Touched t S.w.h i ∧ ∃ a ∈ S.w.log i,
        ((∃ k c, a.req.call = .commit k t c) ∧ a.result = none) ∧
          (enc κ ν (Agent.payload (cfg j) u)).lookup q.1 = some (a.after q.1) := by
  have inv := hr.inv
  obtain ⟨h1, h2⟩ := Agent.ok_stays (inv.lives j) ho
  obtain ⟨t, h3⟩ : ∃ t, (S.ag j).ticket = some t := by
    cases hx : (S.ag j).ticket with
    | some t => exact ⟨t, rfl⟩
    | none =>
      exfalso
      have key : ∀ {c : Agent.Config} {tr : Agent.Trace} {a : Agent.Agent}, Agent.Run c tr a →
          a.state = .finishComplete → a.ticket = none → False := by
        intro c tr a r
        induction r with
        | start => intro h; cases h
        | @step tr a r ha p e ih =>
          have rest := r.rest ha
          have key := Agent.outcome (cfg := c) (p := p) rest e
          generalize Agent.step c p a e = m at key
          intro hs hn
          cases key with
          | idle hf hs' ht hr hq => exact ih (by rw [← hs', hs]) (by rw [← ht, hn])
          | begun hb hst hs' => rw [hs] at hs'; cases hs'
          | beginFailed hb hs' => rw [hs] at hs'; cases hs'
          | get t hst hs' => rw [hs] at hs'; cases hs'
          | run t hst hs' => rw [hs] at hs'; cases hs'
          | fall t hf hm => cases hm <;> simp_all
          | commit t u ha hst hs' => rw [hs] at hs'; cases hs'
          | finish t ha hf hs' => rw [hs] at hs'; cases hs'
          | finishFailed t ha hf hs' => rw [hs] at hs'; cases hs'
          | complete t r ha hf hs' ht => rw [hn] at ht; cases ht
          | rollbackFailed t ha hf hs' => rw [hs] at hs'; cases hs'
          | retry t ha hf hs' => rw [hs] at hs'; cases hs'
          | crash hf hm =>
            rw [hm] at hs
            dsimp only at hs
            rw [hf.1] at hs; cases hs
      exact key (inv.lives j) h1 hx
  obtain ⟨_, _, h4, _⟩ := (inv.phase j t h3).of_finishing (by rw [h1]; rfl)
  obtain ⟨h5, h6⟩ := h4 u h2
  exact ⟨t, inv.given j t h3, committed_all inv.runs h5 h6⟩

/-- Nothing of a ticket happened. -/
def Nothing (w : World) (t : Tn) : Prop :=
  ∀ i, (w.shard i).ticket t = none ∧ ¬Committed w i t ∧
    ∀ a ∈ w.log i, a.req.call.ticket = some (i, t) → a.after = a.before

theorem Undone.nothing {w : World} {t : Tn} (hr : Runs n me own Orderly w) (hu : Undone t w.h w.b) : Nothing w t := by
  obtain ⟨cb, post, e, o, pre, h1, h2, h3⟩ := hu.told
  exact C85_rolled_back hr h1 h2 fun x hx => (h3 x hx).1

/-- A number which its agent does not use. -/
theorem SInv.unused (inv : SInv cfg κ ν n me own S) {j : Nat} {t : Tn} (hj : (S.ag j).ticket ≠ some t)
    (hg : Given j t S.w.h) : Nothing S.w t := by
  have hl := inv.runs.link
  have key : ∀ x ∈ S.w.h, ∀ c ∈ x.2.calls, ∀ i, c.ticket ≠ some (i, t) := by
    intro x hx c hc i h1
    obtain ⟨h2, i', t', h3, h4⟩ := run_calls hl.run x hx c hc
    rw [h1] at h4
    cases h4
    have h5 := inv.users x hx h2 t h3
    have h6 := inv.unique _ _ _ (inv.given _ _ h5) hg
    rw [h6] at h5
    exact hj h5
  intro i
  obtain ⟨h1, h2⟩ := idle_clean inv.runs (hl.own t hg.issued) (fun c i hc ⟨x, hx, h1⟩ =>
    key x (attempt_subset hx) c h1 i hc) i
  refine ⟨h1, h2, fun a ha h3 => ?_⟩
  obtain ⟨t', h4⟩ := hl.origin i a.req (log_seq ha)
  obtain ⟨x, hx, h5⟩ := h4.asked
  exact absurd h3 (key x hx _ h5 i)

/-- **C86.** Once an agent reported an error, other than that the broker cannot be
reached, that the commit could not be cleaned up, or that the rollback failed, and
until it is run again, nothing happened under any number the broker gave it: no shard
keeps a record of it, none committed it, and nothing served for it changed a value. -/
theorem C86_failure (hr : Reaches cfg κ ν n me own S) {j : Nat} {late tl : Agent.Trace} {e : Agent.Event}
    {o : List Agent.Out} (htr : S.tr j = late ++ (e, o) :: tl) {x : Agent.Err} (ho : Agent.Out.result (.error x) ∈ o)
    (h1 : x ≠ .brokerUnreachable) (h2 : x ≠ .finishError) (h3 : x ≠ .rollbackError)
    (hl : ∀ y ∈ late, y.1 ≠ .exec) {t : Tn} (hg : Given j t S.w.h) : Nothing S.w t := by
  have inv := hr.inv
  by_cases hj : (S.ag j).ticket = some t
  · have hrun := inv.lives j
    rw [htr] at hrun
    have ph := inv.phase j t hj
    rcases Agent.error_stays ho h1 h2 h3 hrun hl with h4 | ⟨h4, h5⟩ | h4
    · exact (ph.of_fallen (by rw [h4]; rfl)).2.nothing inv.runs
    · exact ((ph.of_finishing (by rw [h4]; rfl)).2.2.2 x h5 h1 h2).nothing inv.runs
    · exact absurd (by rw [h4]; rfl) ph.late
  · exact inv.unused hj hg

/-- **C86.** An agent that is asked, or asks, to finish has been told how its
transaction ended: it is committed on all its shards or nothing of it happened.  So
this is so if it reports that finishing failed. -/
theorem C86_finishing (hr : Reaches cfg κ ν n me own S) {j : Nat} {t : Tn}
    (hs : (S.ag j).state = .finishSent ∨ (S.ag j).state = .finishFailed ∨ (S.ag j).state = .finishComplete)
    (ht : (S.ag j).ticket = some t) :
    (∀ i, Touched t S.w.h i → ∃ u, UserUpdate S.w t u ∧ WrotePart S.w i t u) ∨ Nothing S.w t := by
  have inv := hr.inv
  obtain ⟨_, h1, _⟩ := (inv.phase j t ht).of_finishing (by rcases hs with h | h | h <;> rw [h] <;> rfl)
  rcases h1 with h1 | h1
  · exact .inl fun i hi => C85_committed inv.runs h1 i hi
  · exact .inr (h1.nothing inv.runs)

end

end Verif.Parsec.Broker.Server
