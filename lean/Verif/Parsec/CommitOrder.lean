import Verif.Parsec.CommitHist

/-!
# The order of the requests an orderly user causes
-/
namespace Verif.Parsec.Broker

/-- Requests for locks and to prepare come before rollbacks, those before the rest. -/
def Call.rank : Call → Nat
  | .rollback .. => 1
  | .commit .. => 2
  | .finish .. => 2
  | _ => 0

theorem rank_le (c : Call) : c.rank ≤ 2 := by cases c <;> simp [Call.rank]

/-- What is asked later in an attempt does not belong before what was asked. -/
theorem rank_step {h : Hist} {s s' : State} {e : Event} {o : Out} (inv : Inv h s) (ball : BAll h s)
    (hp : Plain h e) (ho : Orderly h e) (hs : step s e = some (s', o)) {c c' : Call} {t : Tn} {i j : Nat}
    (hc : c ∈ o.calls) (hct : c.ticket = some (i, t)) (ha : Asked t h c') (hct' : c'.ticket = some (j, t)) :
    c'.rank ≤ c.rank := by
  cases ht : e.ticket with
  | none =>
    obtain ⟨_, h2, _⟩ := no_ticket inv hp ht hs
    rw [h2] at hc; cases hc
  | some t0 =>
    have h1 := calls_ticket inv hp ht hs c hc
    rw [hct] at h1
    simp only [Option.some.injEq, Prod.mk.injEq, exists_eq_left'] at h1
    subst h1
    have hst := step_next hp.plain ht hs
    cases hl : s.tickets.lookup t with
    | none =>
      have h1 := hst.calls
      rw [hl, (next_none e).1] at h1
      dsimp only at h1
      rw [h1] at hc; cases hc
    | some tk =>
      have h1 := hst.calls
      rw [hl] at h1
      dsimp only at h1
      rw [h1] at hc
      have hm := next_makes ht hc
      generalize (next e (some tk)).1 = nx at hm
      have bt := ball.ticket t tk hl
      cases hm with
      | commit => exact rank_le _
      | finish => exact rank_le _
      | tryLock hb =>
        cases c' <;> simp only [Call.ticket, Option.some.injEq, Prod.mk.injEq] at hct' <;> simp only [Call.rank] <;>
          try exact Nat.zero_le _
        · rw [hct'.2] at ha; exact absurd ha (bt.early (.inl hb) _ _).1
        · rw [hct'.2] at ha; exact absurd ⟨_, _, ha⟩ ho.2
        · rw [hct'.2] at ha; exact absurd ha (bt.early (.inl hb) _ _).2
      | prepare hb =>
        cases c' <;> simp only [Call.ticket, Option.some.injEq, Prod.mk.injEq] at hct' <;> simp only [Call.rank] <;>
          try exact Nat.zero_le _
        · rw [hct'.2] at ha; exact absurd ha (bt.early (.inl hb) _ _).1
        · rw [hct'.2] at ha; exact absurd ⟨_, _, ha⟩ ho
        · rw [hct'.2] at ha; exact absurd ha (bt.early (.inl hb) _ _).2
      | rollback hb =>
        cases c' <;> simp only [Call.ticket, Option.some.injEq, Prod.mk.injEq] at hct' <;> simp only [Call.rank] <;>
          try omega
        · rw [hct'.2] at ha; exact absurd ha (bt.early (.inl hb) _ _).1
        · rw [hct'.2] at ha; exact absurd ha (bt.early (.inl hb) _ _).2

/-- When the user is told that the ticket is rolled back, all its shards were. -/
theorem next_abort {e : Event} {tk : Ticket} (hn : (next e (some tk)).2.2 = true) :
    tk.state = .begun ∧ (next e (some tk)).2.1 = [] ∧ ∃ tk', (next e (some tk)).1 = some tk' ∧ tk'.state = .aborted ∧
      (tk.shards = [] ∧ tk'.shards = [] ∨ ∃ c t i p, e = .rolledBack c t i none p ∧
        stateOf (touch tk.shards i) i = .rollingBack ∧
        ∀ x ∈ update (touch tk.shards i) i (fun _ => { state := .rolledBack, keys := [] }), x.2.state = .rolledBack) := by
  cases e with
  | ticketNumber cb r => cases r <;> simp [next, stay] at hn
  | foundKey cb t k ty r ok =>
    cases r with
    | none => simp [next, stay] at hn
    | some i =>
      simp only [next] at hn
      repeat' split at hn
      all_goals simp [stay] at hn
  | locked cb t k i r =>
    cases r with
    | error e => simp [next, stay] at hn
    | value v =>
      simp only [next] at hn
      repeat' split at hn
      all_goals simp [stay] at hn
  | finish cb t p =>
    simp only [next] at hn
    split at hn <;> simp [stay] at hn
  | finished c t i r =>
    simp only [next] at hn
    repeat' split at hn
    all_goals simp [stay] at hn
  | tryLock cb t ok => simp [next, stay] at hn
  | recover cb => simp [next, stay] at hn
  | gotTickets cb i r p => simp [next, stay] at hn
  | commit cb t u p => simp [next] at hn
  | prepared c t i r p =>
    simp only [next] at hn
    split at hn <;> simp [stay] at hn
  | committed c t i r p =>
    simp only [next] at hn
    repeat' split at hn
    all_goals simp [stay] at hn
  | rollback cb t p =>
    simp only [next] at hn ⊢
    split at hn
    · rename_i hb
      rw [if_pos hb]
      split at hn
      · rename_i he
        rw [if_pos he]
        have he' : tk.shards = [] := by simpa using he
        exact ⟨hb, rfl, _, rfl, rfl, .inl ⟨he', he'⟩⟩
      · simp at hn
    · simp [stay] at hn
  | rolledBack c t i r p =>
    simp only [next] at hn ⊢
    split at hn
    · rename_i hb
      rw [if_pos hb]
      split at hn
      · simp [stay] at hn
      · rename_i h1
        rw [if_neg h1]
        split at hn
        · simp [stay] at hn
        · rename_i h2
          rw [if_neg h2]
          have hr : r = none := by cases r <;> simp_all
          subst hr
          split at hn
          · rename_i hall
            rw [if_pos hall]
            refine ⟨hb, rfl, _, rfl, rfl, .inr ⟨c, t, i, p, rfl, Classical.not_not.mp h1, fun x hx => ?_⟩⟩
            simpa using List.all_eq_true.mp hall x hx
          · simp [stay] at hn
    · simp [stay] at hn

/-- What the requests to commit tell about the other ones. -/
def Decided (h : Hist) (t : Tn) : Prop :=
  ¬RollbackAsked t h ∧ (∀ j, Touched t h j → ReportedPrepared t h j) ∧
    ∀ j c, (∃ x ∈ h, Call.commit j t c ∈ x.2.calls) → Asked t h (.commit j t c) ∧ ReportedPrepared t h j

theorem decided_step {n : Nat} {h : Hist} {s s' : State} {e : Event} {o : Out} (hr : Run n h s) (ball : BAll h s)
    (hd : ∀ t, CommitAsked t h → Decided h t)
    (hp : Plain h e) (ho : Orderly h e) (hs : step s e = some (s', o)) (t : Tn)
    (hca : CommitAsked t ((e, o) :: h)) : Decided ((e, o) :: h) t := by
  have inv := hr.inv
  have inv' := (hr.step hp hs).inv
  have ball' := ball_step inv ball hp ho hs
  have quiet : o.quiet t → Decided ((e, o) :: h) t := by
    intro hq
    have hca' : CommitAsked t h := by
      obtain ⟨x, h1, i, c, h2⟩ := hca
      rcases List.mem_cons.mp h1 with rfl | h1
      · exact absurd rfl (hq.1 _ h2 i)
      · exact ⟨x, h1, i, c, h2⟩
    obtain ⟨h1, h2, h3⟩ := hd t hca'
    refine ⟨by rw [rollbackAsked_quiet hq]; exact h1, ?_, ?_⟩
    · rintro j ⟨k, ty, f, cb, h4⟩
      rw [asked_quiet hq rfl] at h4
      exact (h2 j ⟨k, ty, f, cb, h4⟩).mono hq.2
    · rintro j c ⟨x, h4, h5⟩
      rcases List.mem_cons.mp h4 with rfl | h4
      · exact absurd rfl (hq.1 _ h5 j)
      · obtain ⟨h6, h7⟩ := h3 j c ⟨x, h4, h5⟩
        exact ⟨h6.mono hq.2, h7.mono hq.2⟩
  cases ht : e.ticket with
  | none =>
    obtain ⟨_, h2, h3⟩ := no_ticket inv hp ht hs
    exact quiet ⟨by rw [h2]; simp, h3 t⟩
  | some t0 =>
    have hst := step_next hp.plain ht hs
    by_cases hne : t ≠ t0
    · refine quiet ⟨fun c hc i hi => ?_, hst.saidOther t hne⟩
      obtain ⟨j, hj⟩ := calls_ticket inv hp ht hs c hc
      rw [hi] at hj
      simp only [Option.some.injEq, Prod.mk.injEq] at hj
      exact hne hj.2
    · have hne := Classical.not_not.mp hne
      subst hne
      cases hl : s.tickets.lookup t with
      | none =>
        have h1 := hst.calls
        have h2 := hst.said
        rw [hl, (next_none e).1] at h1
        rw [hl, (next_none e).2.1] at h2
        dsimp only at h1 h2
        exact quiet ⟨by rw [h1]; simp, h2⟩
      | some tk =>
        have hcalls := hst.calls
        have hsaid := hst.said
        have hown := hst.own
        rw [hl] at hcalls hsaid hown
        dsimp only at hcalls hsaid hown
        have hx : o.said.any (Said.aborts t) = false := by
          cases hx : o.said.any (Said.aborts t) with
          | false => rfl
          | true =>
            rw [hx] at hsaid
            obtain ⟨_, _, tk', h1, h2, _⟩ := next_abort hsaid.symm
            rw [h1] at hown
            exact absurd hca ((inv'.ticket t tk' hown).fresh (.inr h2))
        by_cases hnew : ∃ i c, Call.commit i t c ∈ o.calls
        · obtain ⟨i, c, hic⟩ := hnew
          obtain ⟨tk', h1, h2, _⟩ := commit_call hp hs hic
          refine ⟨(ball'.ticket t tk' h1).straight (by rw [h2]; simp), ?_, ?_⟩
          · exact (C47_prepared_partial hr hp hs hic).2
          · rintro j d ⟨x, h3, h4⟩
            rcases List.mem_cons.mp h3 with rfl | h3
            · exact ⟨.new hx h4, (C47_prepared_partial hr hp hs h4).1⟩
            · obtain ⟨_, _, h5⟩ := hd t ⟨x, h3, j, d, h4⟩
              obtain ⟨h6, h7⟩ := h5 j d ⟨x, h3, h4⟩
              exact ⟨h6.mono hx, h7.mono hx⟩
        · have hca' : CommitAsked t h := by
            obtain ⟨x, h1, i, c, h2⟩ := hca
            rcases List.mem_cons.mp h1 with rfl | h1
            · exact absurd ⟨i, c, h2⟩ hnew
            · exact ⟨x, h1, i, c, h2⟩
          obtain ⟨h1, h2, h3⟩ := hd t hca'
          have hnb : tk.state ≠ .begun := fun hb => (inv.ticket t tk hl).fresh (.inl hb) hca'
          refine ⟨?_, ?_, ?_⟩
          · rintro ⟨i, c, h4⟩
            rcases h4.cases with h4 | h4
            · exact C47_no_rollback_partial hr hp hs h4 hca
            · exact h1 ⟨i, c, h4⟩
          · rintro j ⟨k, ty, f, cb, h4⟩
            rcases h4.cases with h4 | h4
            · dsimp only at h4
              rw [hcalls] at h4
              have hm := next_makes ht h4
              generalize (next e (some tk)).1 = nx at hm
              cases hm with
              | tryLock hb => exact absurd hb hnb
            · exact (h2 j ⟨k, ty, f, cb, h4⟩).mono hx
          · rintro j c ⟨x, h4, h5⟩
            rcases List.mem_cons.mp h4 with rfl | h4
            · exact absurd ⟨j, c, h5⟩ hnew
            · obtain ⟨h6, h7⟩ := h3 j c ⟨x, h4, h5⟩
              exact ⟨h6.mono hx, h7.mono hx⟩

end Verif.Parsec.Broker
