import Verif.Parsec.ServerPhase

/-!
# The invariant of an agent server
-/
namespace Verif.Parsec.Broker.Server

/-! ### Events of an agent -/

theorem todo_locks {t : Tn} {o : List Agent.Out} (hq : Agent.Quiet o)
    (hf : ∀ x ∈ o, ∀ n, Agent.outTicket x = some n → some t = some n) : ∀ r ∈ o.filterMap asReq, AsksLock t r := by
  intro r hr
  obtain ⟨x, hx, h1⟩ := List.mem_filterMap.mp hr
  have h2 := hq x hx
  cases x with
  | lock c t' k w =>
    cases hf _ hx t' rfl
    simp only [asReq, Option.some.injEq] at h1
    exact ⟨k, w, .inl h1.symm⟩
  | _ => simp_all [asReq, Agent.quiet]

theorem todo_none {o : List Agent.Out} (hq : Agent.Quiet o) (hn : ∀ x ∈ o, Agent.isLock x = false) :
    o.filterMap asReq = [] := by
  refine List.filterMap_eq_nil_iff.mpr fun x hx => ?_
  have h1 := hq x hx
  have h2 := hn x hx
  cases x <;> simp_all [asReq, Agent.quiet, Agent.isLock]

/-- The constructor of `Phase` for a state. -/
def bucket : Agent.State → Nat
  | .functionGetSent => 1
  | .functionStarted => 1
  | .commitSent => 2
  | .rollbackSent => 3
  | .rollbackFailed => 3
  | .rollbackComplete => 4
  | .finishSent => 5
  | .finishFailed => 5
  | .finishComplete => 5
  | _ => 0

section
variable {cfg : Agent.Config} {κ : Nat → Key} {ν : Nat → Value} {j : Nat} {t : Tn} {h : Hist} {s : State}
  {a : Agent.Agent} {todo : List Req} {n : Nat}

theorem Phase.late (ph : Phase cfg κ ν j t h s a todo n) : bucket a.state ≠ 0 := by
  intro hb
  cases ph with
  | locking h1 => rcases h1 with h1 | h1 <;> rw [h1] at hb <;> cases hb
  | committing u h1 => rw [h1] at hb; cases hb
  | falling h1 => rcases h1 with h1 | h1 <;> rw [h1] at hb <;> cases hb
  | fallen h1 => rw [h1] at hb; cases hb
  | finishing h1 => rcases h1 with h1 | h1 | h1 <;> rw [h1] at hb <;> cases hb

theorem Phase.of_locking (ph : Phase cfg κ ν j t h s a todo n) (hb : bucket a.state = 1) : Clean t h ∧ n = 0 := by
  cases ph with
  | locking h1 hc hn hl => exact ⟨hc, hn⟩
  | committing u h1 => rw [h1] at hb; cases hb
  | falling h1 => rcases h1 with h1 | h1 <;> rw [h1] at hb <;> cases hb
  | fallen h1 => rw [h1] at hb; cases hb
  | finishing h1 => rcases h1 with h1 | h1 | h1 <;> rw [h1] at hb <;> cases hb

theorem Phase.of_committing (ph : Phase cfg κ ν j t h s a todo n) (hb : bucket a.state = 2) :
    ∃ u, a.result = some (.ok u) ∧ n = 0 ∧ ¬RollbackAsked t h ∧ OnlyCommit t h (enc κ ν (Agent.payload cfg u)) := by
  cases ph with
  | locking h1 => rcases h1 with h1 | h1 <;> rw [h1] at hb <;> cases hb
  | committing u h1 hr hn hc ht hu => exact ⟨u, hr, hn, hc, hu⟩
  | falling h1 => rcases h1 with h1 | h1 <;> rw [h1] at hb <;> cases hb
  | fallen h1 => rw [h1] at hb; cases hb
  | finishing h1 => rcases h1 with h1 | h1 | h1 <;> rw [h1] at hb <;> cases hb

theorem Phase.of_falling (ph : Phase cfg κ ν j t h s a todo n) (hb : bucket a.state = 3) :
    n = 0 ∨ n = 1 ∧ Undone t h s := by
  cases ph with
  | locking h1 => rcases h1 with h1 | h1 <;> rw [h1] at hb <;> cases hb
  | committing u h1 => rw [h1] at hb; cases hb
  | falling h1 l r ht hl hr hc hn => exact hn
  | fallen h1 => rw [h1] at hb; cases hb
  | finishing h1 => rcases h1 with h1 | h1 | h1 <;> rw [h1] at hb <;> cases hb

theorem Phase.of_fallen (ph : Phase cfg κ ν j t h s a todo n) (hb : bucket a.state = 4) : n = 0 ∧ Undone t h s := by
  cases ph with
  | locking h1 => rcases h1 with h1 | h1 <;> rw [h1] at hb <;> cases hb
  | committing u h1 => rw [h1] at hb; cases hb
  | falling h1 => rcases h1 with h1 | h1 <;> rw [h1] at hb <;> cases hb
  | fallen h1 ht hn hu => exact ⟨hn, hu⟩
  | finishing h1 => rcases h1 with h1 | h1 | h1 <;> rw [h1] at hb <;> cases hb

theorem Phase.of_finishing (ph : Phase cfg κ ν j t h s a todo n) (hb : bucket a.state = 5) :
    n = 0 ∧ (SaidCommitted j t h ∨ Undone t h s) ∧
      (∀ u, a.result = some (.ok u) → SaidCommitted j t h ∧ OnlyCommit t h (enc κ ν (Agent.payload cfg u))) ∧
      ∀ x, a.result = some (.error x) → x ≠ .brokerUnreachable → x ≠ .finishError → Undone t h s := by
  cases ph with
  | locking h1 => rcases h1 with h1 | h1 <;> rw [h1] at hb <;> cases hb
  | committing u h1 => rw [h1] at hb; cases hb
  | falling h1 => rcases h1 with h1 | h1 <;> rw [h1] at hb <;> cases hb
  | fallen h1 => rw [h1] at hb; cases hb
  | finishing h1 ht hn hd ho he => exact ⟨hn, hd, ho, he⟩

end

section
variable {cfg : Agent.Config} {κ : Nat → Key} {ν : Nat → Value} {j : Nat} {t : Tn} {h : Hist} {s : State}
  {a : Agent.Agent} {n n' : Nat} {e : Agent.Event} {p : Agent.Can} {m : Agent.M}

theorem fall_phase (hf : Agent.Fall t m) (ht : Agent.Fits (some t) m)
    (hc : Clean t h ∧ n = 0 ∨ Agent.NoLock m ∧ (n = 0 ∨ n = 1 ∧ Undone t h s)) :
    Phase cfg κ ν j t h s m.1 (m.2.filterMap asReq) n := by
  have hn : n = 0 ∨ n = 1 ∧ Undone t h s := by
    rcases hc with hc | hc
    · exact .inl hc.2
    · exact hc.2
  have key : ∀ o : List Agent.Out, Agent.Quiet o → (∀ x ∈ o, x ∈ m.2) →
      (∀ r ∈ o.filterMap asReq, AsksLock t r) ∧ (o.filterMap asReq ≠ [] → Clean t h ∧ n = 0) := by
    intro o hq ho
    refine ⟨todo_locks hq fun x hx => ht.2 x (ho x hx), fun hne => ?_⟩
    rcases hc with hc | ⟨hc, _⟩
    · exact hc
    · exact absurd (todo_none hq fun x hx => hc x (ho x hx)) hne
  cases hf with
  | sent o hs _ _ hq ho =>
    obtain ⟨h1, h2⟩ := key o hq (by rw [ho]; simp +contextual)
    exact .falling (.inl hs) (o.filterMap asReq) [.rollback t] (by simp [ho, asReq]) h1 (.inr rfl) h2 hn
  | stuck o hs _ _ hq ho =>
    obtain ⟨h1, h2⟩ := key o hq (by rw [ho]; simp +contextual)
    exact .falling (.inr hs) (o.filterMap asReq) [] (by simp [ho, asReq]) h1 (.inl rfl) h2 hn

/-- What follows a start. -/
theorem start_phase (ho : Agent.Outcome cfg a e m) (hf : Agent.Fits m.1.ticket m) (hst : Agent.Starting a t e)
    (hc : Clean t h) (hn : n = 0) : m.1.ticket = some t ∧ Phase cfg κ ν j t h s m.1 (m.2.filterMap asReq) n := by
  have hsb : a.state = .beginSent ∨ a.state = .rollbackComplete := by
    rcases hst with ⟨h1, _⟩ | ⟨h1, _⟩
    · exact .inl h1
    · exact .inr h1
  have same : ∀ t', Agent.Starting a t' e → t' = t := by
    rintro t' h1
    rcases hst with ⟨h2, h3⟩ | ⟨h2, h3, h4⟩ <;> rcases h1 with ⟨h5, h6⟩ | ⟨h5, h6, h7⟩
    · rw [h3] at h6; cases h6; rfl
    · rw [h2] at h5; cases h5
    · rw [h2] at h5; cases h5
    · rw [h4] at h7; cases h7; rfl
  cases ho with
  | idle hfo =>
    exfalso
    rcases hst with ⟨h2, h3⟩ | ⟨h2, h3, h4⟩
    · rw [h3] at hfo
      exact hfo h2
    · rw [h3] at hfo
      unfold Agent.Foreign at hfo
      rw [h2] at hfo; cases hfo
  | begun he hb =>
    exfalso
    rcases hst with ⟨h2, h3⟩ | ⟨h2, h3, h4⟩
    · rw [he] at h3; cases h3
    · rw [h2] at hb; simp at hb
  | beginFailed hb =>
    exfalso
    rcases hst with ⟨h2, h3⟩ | ⟨h2, h3, h4⟩
    · rw [h3] at hb; simp at hb
    · rw [h2] at hb; simp at hb
  | get t' h1 hs ht hw k w ho =>
    cases same t' h1
    exact ⟨ht, .locking (.inl hs) hc hn (by
      rw [ho]
      rintro r hr
      simp only [List.filterMap_cons, asReq, List.filterMap_nil, List.mem_singleton] at hr
      exact ⟨k, w, .inl hr⟩)⟩
  | run t' h1 hs ht ho =>
    have : t' = t := by
      rcases h1 with h1 | ⟨h1, _⟩
      · exact same t' h1
      · rw [h1] at hsb; simp at hsb
    subst this
    rw [ht] at hf
    exact ⟨ht, .locking (.inr hs) hc hn (todo_locks ho fun x hx => hf.2 x hx)⟩
  | fall t' h1 hfall =>
    have : t' = t := by
      rcases h1 with h1 | ⟨_, h1⟩
      · exact same t' h1
      · rcases hsb with h2 | h2 <;> rw [h2] at h1 <;> simp at h1
    subst this
    have ht : m.1.ticket = some t' := by cases hfall <;> assumption
    rw [ht] at hf
    exact ⟨ht, fall_phase hfall hf (.inl ⟨hc, hn⟩)⟩
  | commit t' u ha h1 => rcases h1 with ⟨h1, _⟩ | ⟨h1, _⟩ <;> rw [h1] at hsb <;> simp at hsb
  | finish t' ha h1 =>
    rcases h1 with ⟨h1, _⟩ | ⟨h1, _⟩ | ⟨h1 | h1, _⟩ <;> rw [h1] at hsb <;> simp at hsb
  | finishFailed t' ha h1 =>
    rcases h1 with (⟨h1, _⟩ | ⟨h1, _⟩ | ⟨h1 | h1, _⟩) | ⟨h1, _⟩ <;> rw [h1] at hsb <;> simp at hsb
  | complete t' r ha h1 => rw [h1.1] at hsb; simp at hsb
  | rollbackFailed t' ha h1 => rw [h1.1] at hsb; simp at hsb
  | retry t' ha h1 => rw [h1.1] at hsb; simp at hsb
  | crash h1 => rw [h1.1] at hsb; simp at hsb

/-- Events of an agent with a ticket. -/
theorem Phase.agent (ph : Phase cfg κ ν j t h s a [] n) (hr : Agent.Rest a) (ha : a.ticket = some t)
    (hm : m = Agent.step cfg p a e) (h1 : e = .rolledBack true → n = n' + 1) (h2 : e ≠ .rolledBack true → n' = n)
    (h3 : e = .committed .ok → SaidCommitted j t h) :
    m.1.ticket = some t ∧ Phase cfg κ ν j t h s m.1 (m.2.filterMap asReq) n' := by
  have ho := Agent.outcome (cfg := cfg) (p := p) hr e
  have hf := Agent.fits_step cfg p a e
  have hnl : a.state = .commitSent ∨ a.state = .rollbackSent ∨ a.state = .rollbackFailed → Agent.NoLock m := by
    intro hs
    rw [hm]
    exact Agent.noLock_step ha hs
  rw [← hm] at ho hf
  clear hm
  -- without a report of a rollback
  have hz : n = 0 → n' = 0 := by
    intro h0
    by_cases hx : e = .rolledBack true
    · have := h1 hx; omega
    · rw [h2 hx, h0]
  have hpost : (n = 0 ∨ n = 1 ∧ Undone t h s) → (n' = 0 ∨ n' = 1 ∧ Undone t h s) := by
    intro h4
    by_cases hx : e = .rolledBack true
    · have := h1 hx
      left
      omega
    · rw [h2 hx]
      exact h4
  have hun : (n = 0 ∨ n = 1 ∧ Undone t h s) → e = .rolledBack true → n' = 0 ∧ Undone t h s := by
    rintro h4 hx
    have := h1 hx
    rcases h4 with h4 | ⟨h4, h5⟩
    · omega
    · exact ⟨by omega, h5⟩
  have starts : ∀ t', Agent.Starting a t' e → t' = t ∧ Clean t h ∧ n' = 0 := by
    rintro t' (⟨h4, _⟩ | ⟨h4, _, h6⟩)
    · exact absurd (by rw [h4]; rfl) ph.late
    · rw [ha] at h6
      cases h6
      obtain ⟨hn, hu⟩ := ph.of_fallen (by rw [h4]; rfl)
      exact ⟨rfl, hu.clean, hz hn⟩
  cases ho with
  | idle hfo hs ht hrr hq =>
    rw [ht, ha] at hf
    refine ⟨ht.trans ha, ?_⟩
    have hnone : a.state ≠ .functionStarted → m.2.filterMap asReq = [] := by
      intro h4
      refine List.filterMap_eq_nil_iff.mpr fun x hx => ?_
      obtain ⟨r, q, rfl⟩ := (hrr h4).2.2.2.2 x hx
      rfl
    cases ph with
    | locking h4 hc hn hl =>
      exact .locking (by rw [hs]; exact h4) hc (hz hn) (todo_locks hq fun x hx => hf.2 x hx)
    | committing u h4 hres hn hc htd hu =>
      have h5 : a.state ≠ .functionStarted := by rw [h4]; decide
      exact .committing u (by rw [hs, h4]) (by rw [(hrr h5).1, hres]) (hz hn) hc (.inl (hnone h5)) hu
    | falling h4 l r htd hl hrq hc hn =>
      have h5 : a.state ≠ .functionStarted := by rcases h4 with h4 | h4 <;> rw [h4] <;> decide
      exact .falling (by rw [hs]; exact h4) [] [] (by rw [hnone h5]; rfl) (by simp) (.inl rfl) (by simp) (hpost hn)
    | fallen h4 htd hn hu =>
      have h5 : a.state ≠ .functionStarted := by rw [h4]; decide
      exact .fallen (by rw [hs, h4]) (hnone h5) (hz hn) hu
    | finishing h4 htd hn hd hok herr =>
      have h5 : a.state ≠ .functionStarted := by rcases h4 with h4 | h4 | h4 <;> rw [h4] <;> decide
      exact .finishing (by rw [hs]; exact h4) (.inl (hnone h5)) (hz hn) hd (by rw [(hrr h5).1]; exact hok)
        (by rw [(hrr h5).1]; exact herr)
  | begun he hb => exact absurd (by rcases hb with h4 | h4 | h4 <;> rw [h4] <;> rfl) ph.late
  | beginFailed hb =>
    refine absurd ?_ ph.late
    rcases hb with ⟨_, h4 | h4 | h4⟩ | ⟨_, h4⟩ <;> rw [h4] <;> rfl
  | get t' hst hs ht hw k w ho =>
    have ho := Agent.Outcome.get (cfg := cfg) t' hst hs ht hw k w ho
    obtain ⟨rfl, hc, hn⟩ := starts t' hst
    exact start_phase ho hf hst hc hn
  | run t' hst hs ht hq =>
    have : t' = t ∧ Clean t h ∧ n' = 0 := by
      rcases hst with h4 | ⟨h4, h6, _⟩
      · exact starts t' h4
      · rw [ha] at h6; cases h6
        obtain ⟨hc, hn⟩ := ph.of_locking (by rw [h4]; rfl)
        exact ⟨rfl, hc, hz hn⟩
    obtain ⟨rfl, hc, hn⟩ := this
    rw [ht] at hf
    exact ⟨ht, .locking (.inr hs) hc hn (todo_locks hq fun x hx => hf.2 x hx)⟩
  | fall t' hfa hfall =>
    have ht : m.1.ticket = some t' := by cases hfall <;> assumption
    rw [ht] at hf
    have key : t' = t ∧ (Clean t h ∧ n' = 0 ∨ Agent.NoLock m ∧ (n' = 0 ∨ n' = 1 ∧ Undone t h s)) := by
      rcases hfa with h4 | ⟨h6, h4⟩
      · obtain ⟨h5, hc, hn⟩ := starts t' h4
        exact ⟨h5, .inl ⟨hc, hn⟩⟩
      · rw [ha] at h6; cases h6
        refine ⟨rfl, ?_⟩
        rcases h4 with ⟨h4, _⟩ | h4 | ⟨h4, _⟩ | ⟨h4, _⟩
        · obtain ⟨hc, hn⟩ := ph.of_locking (by rw [h4]; rfl)
          exact .inl ⟨hc, hz hn⟩
        · obtain ⟨hc, hn⟩ := ph.of_locking (by rw [h4]; rfl)
          exact .inl ⟨hc, hz hn⟩
        · obtain ⟨u, _, hn, _⟩ := ph.of_committing (by rw [h4]; rfl)
          exact .inr ⟨hnl (.inl h4), .inl (hz hn)⟩
        · exact .inr ⟨hnl (.inr h4), hpost (ph.of_falling (by rcases h4 with h4 | h4 <;> rw [h4] <;> rfl))⟩
    obtain ⟨rfl, hk⟩ := key
    exact ⟨ht, fall_phase hfall hf hk⟩
  | commit t' u ha' hst hs ht hres ho =>
    rw [ha] at ha'; cases ha'
    refine ⟨ht, ?_⟩
    have htodo : m.2.filterMap asReq = [.commit t (Agent.payload cfg u)] := by
      rw [ho]; rfl
    rcases hst with ⟨h4, h5⟩ | ⟨h4, h5, h6⟩
    · obtain ⟨hc, hn⟩ := ph.of_locking (by rw [h4]; rfl)
      exact .committing u hs hres (hz hn) hc.not_rollback (.inr htodo) fun u' hu => absurd hu (hc.not_commit u')
    · obtain ⟨u', hres', hn, hc, hu⟩ := ph.of_committing (by rw [h4]; rfl)
      rw [h6] at hres'
      cases hres'
      exact .committing u hs hres (hz hn) hc (.inr htodo) hu
  | finish t' ha' hst hs ht hres ho =>
    rw [ha] at ha'; cases ha'
    refine ⟨ht, ?_⟩
    have htodo : m.2.filterMap asReq = [.finish t] := by
      rw [ho]; rfl
    rcases hst with ⟨h4, h5⟩ | ⟨h4, h5, h6⟩ | ⟨h4, h5⟩
    · obtain ⟨u, hres', hn, hc, hu⟩ := ph.of_committing (by rw [h4]; rfl)
      refine .finishing (.inl hs) (.inr htodo) (hz hn) (.inl (h3 h5)) (fun u' h8 => ?_) fun x h8 => ?_
      · rw [hres, hres'] at h8
        cases h8
        exact ⟨h3 h5, hu⟩
      · rw [hres, hres'] at h8
        cases h8
    · obtain ⟨h8, h9⟩ := hun (ph.of_falling (by rw [h4]; rfl)) h5
      obtain ⟨x, h10, _⟩ := hr.falling (.inl h4) h6
      refine .finishing (.inl hs) (.inr htodo) h8 (.inr h9) (fun u' h11 => ?_) fun _ _ _ _ => h9
      rw [hres, h10] at h11
      cases h11
    · obtain ⟨hn, hd, hok, herr⟩ := ph.of_finishing (by rcases h4 with h4 | h4 <;> rw [h4] <;> rfl)
      exact .finishing (.inl hs) (.inr htodo) (hz hn) hd (by rw [hres]; exact hok) (by rw [hres]; exact herr)
  | finishFailed t' ha' hst hs ht x hx hres ho =>
    rw [ha] at ha'; cases ha'
    refine ⟨ht, ?_⟩
    have htodo : m.2.filterMap asReq = [] := by
      rw [ho]; rfl
    have fin : n' = 0 → SaidCommitted j t h ∨ Undone t h s → Phase cfg κ ν j t h s m.1 (m.2.filterMap asReq) n' := by
      intro hn hd
      refine .finishing (.inr (.inl hs)) (.inl htodo) hn hd (fun u h4 => ?_) fun y h4 h5 h6 => ?_
      · rw [hres] at h4; cases h4
      · rw [hres] at h4
        cases h4
        rcases hx with hx | hx
        · exact absurd hx h5
        · exact absurd hx h6
    have old : bucket a.state = 5 → Phase cfg κ ν j t h s m.1 (m.2.filterMap asReq) n' := fun h4 =>
      fin (hz (ph.of_finishing h4).1) (ph.of_finishing h4).2.1
    rcases hst with (⟨h4, h5⟩ | ⟨h4, h5, h6⟩ | ⟨h4 | h4, h5⟩) | ⟨h4, h5⟩
    · obtain ⟨u, hres', hn, hc, hu⟩ := ph.of_committing (by rw [h4]; rfl)
      exact fin (hz hn) (.inl (h3 h5))
    · obtain ⟨h8, h9⟩ := hun (ph.of_falling (by rw [h4]; rfl)) h5
      exact fin h8 (.inr h9)
    · exact old (by rw [h4]; rfl)
    · exact old (by rw [h4]; rfl)
    · exact old (by rw [h4]; rfl)
  | complete t' r ha' hst hs ht hres hres' ho =>
    rw [ha] at ha'; cases ha'
    refine ⟨ht, ?_⟩
    have htodo : m.2.filterMap asReq = [] := by
      rw [ho]; rfl
    obtain ⟨hn, hd, hok, herr⟩ := ph.of_finishing (by rw [hst.1]; rfl)
    exact .finishing (.inr (.inr hs)) (.inl htodo) (hz hn) hd (by rw [hres', ← hres]; exact hok)
      (by rw [hres', ← hres]; exact herr)
  | rollbackFailed t' ha' hst hs ht hres ho =>
    rw [ha] at ha'; cases ha'
    refine ⟨ht, ?_⟩
    have htodo : m.2.filterMap asReq = [] := by
      rw [ho]; rfl
    exact .falling (.inr hs) [] [] (by rw [htodo]; rfl) (by simp) (.inl rfl) (by simp)
      (hpost (ph.of_falling (by rw [hst.1]; rfl)))
  | retry t' ha' hst hs ht hres ho =>
    rw [ha] at ha'; cases ha'
    refine ⟨ht, ?_⟩
    have htodo : m.2.filterMap asReq = [] := by
      rw [ho]; rfl
    obtain ⟨h8, h9⟩ := hun (ph.of_falling (by rw [hst.1]; rfl)) hst.2
    exact .fallen hs htodo h8 h9
  | crash hst hm =>
    rw [hm]
    refine ⟨ha, ?_⟩
    have : n' = n := h2 (by rw [hst.2]; simp)
    rw [this]
    exact ph

end

end Verif.Parsec.Broker.Server
