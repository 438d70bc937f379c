import Verif.Parsec.BrokerStep

/-!
# Properties of the PArSEC broker: all-or-nothing commit (C47)
-/
namespace Verif.Parsec.Broker

theorem doCommit_call {tk : Ticket} {t t' : Tn} {c c' : Cont} {p : Option Stop}
    {i : Nat} (hc : Call.commit i t c ∈ (tk.doCommit t' c' p).2.1) :
    t' = t ∧ has (tk.doCommit t' c' p).1.shards i := by
  simp only [Ticket.doCommit, List.mem_map] at hc
  obtain ⟨e, he, hc⟩ := hc
  simp only [Call.commit.injEq] at hc
  refine ⟨hc.2.1, ?_⟩
  simp only [Ticket.doCommit]
  rw [has_mark]
  exact ⟨e, (List.mem_filter.mp he).1, hc.1⟩

/-- Requests to commit are made only for tickets that are then prepared. -/
theorem commit_call {s s' : State} {h : Hist} {e : Event} {o : Out}
    (hp : Plain h e) (hs : step s e = some (s', o)) {i : Nat} {t : Tn} {c : Cont}
    (hc : Call.commit i t c ∈ o.calls) :
    ∃ tk, s'.tickets.lookup t = some tk ∧ tk.state = .prepared ∧
      has tk.shards i := by
  cases e with
  | ticketNumber cb r =>
    simp only [step, Option.some.injEq] at hs
    cases r with
    | none =>
      simp only [handleTicketNumber, Prod.mk.injEq] at hs
      rw [← hs.2] at hc
      simp at hc
    | some q =>
      simp only [handleTicketNumber, Prod.mk.injEq] at hs
      rw [← hs.2] at hc
      simp at hc
  | tryLock cb t' ok =>
    simp only [step, Option.some.injEq, tryLock] at hs
    cases hl : s.tickets.lookup t' with
    | none =>
      simp only [hl, Prod.mk.injEq] at hs
      rw [← hs.2] at hc
      simp at hc
    | some tk =>
      cases hst : tk.state <;> simp only [hl, hst, Prod.mk.injEq] at hs <;>
        rw [← hs.2] at hc <;> simp at hc
  | foundKey cb t' k ty r ok =>
    simp only [step, Option.some.injEq, handleFindKey] at hs
    repeat' split at hs
    all_goals
      simp only [Prod.mk.injEq] at hs
      rw [← hs.2] at hc
      simp at hc
  | locked cb t' k j r =>
    simp only [step, Option.some.injEq, handleLock] at hs
    repeat' split at hs
    all_goals
      simp only [Prod.mk.injEq] at hs
      rw [← hs.2] at hc
      simp at hc
  | commit cb t' u p =>
    simp only [step, Option.some.injEq, commit] at hs
    cases hl : s.tickets.lookup t' with
    | none =>
      rw [hl] at hs
      simp only at hs
      rw [commitDone_plain rfl] at hs
      simp only [Prod.mk.injEq] at hs
      rw [← hs.2] at hc
      simp at hc
    | some tk =>
      simp only [hl] at hs
      rw [commit_result rfl] at hs
      simp only [Prod.mk.injEq] at hs
      rw [← hs.2] at hc
      simp only [Ticket.commit] at hc
      rw [← hs.1]
      cases hce : tk.commitError u with
      | some e => simp [hce] at hc
      | none =>
        simp only [hce] at hc
        by_cases hst : tk.state = .prepared
        · rw [if_pos hst] at hc
          obtain ⟨h1, h2⟩ := doCommit_call hc
          refine ⟨_, by rw [lookup_set, if_pos h1.symm], ?_⟩
          simp only [Ticket.commit, hce, if_pos hst]
          exact ⟨hst, h2⟩
        · rw [if_neg hst] at hc
          simp [Ticket.doPrepare] at hc
  | prepared c' t' j r p =>
    simp only [step, Option.some.injEq, handlePrepare] at hs
    obtain ⟨hcr, _⟩ := hp
    cases hl : s.tickets.lookup t' with
    | none =>
      rw [hl] at hs
      simp only at hs
      rw [commitDone_plain hcr] at hs
      simp only [Prod.mk.injEq] at hs
      rw [← hs.2] at hc
      simp at hc
    | some tk =>
      simp only [hl, commit_result hcr, commitDone_plain hcr] at hs
      cases hst : tk.state with
      | prepared =>
        simp only [hst, Prod.mk.injEq] at hs
        rw [← hs.2] at hc
        simp at hc
      | committed =>
        simp only [hst, Prod.mk.injEq] at hs
        rw [← hs.2] at hc
        simp at hc
      | aborted =>
        simp only [hst, Prod.mk.injEq] at hs
        rw [← hs.2] at hc
        simp at hc
      | begun =>
        simp only [hst] at hs
        have hs' : (s.set t' (tk.handlePrepare c' t' j r p).1) = s' ∧
            (tk.handlePrepare c' t' j r p).2.1 = o.calls := by
          split at hs <;>
          · simp only [Prod.mk.injEq] at hs
            refine ⟨hs.1, ?_⟩
            rw [← hs.2]
            try simp
        rw [← hs'.2] at hc
        rw [← hs'.1]
        have hgoal : t' = t ∧
            (tk.handlePrepare c' t' j r p).1.state = .prepared ∧
            has (tk.handlePrepare c' t' j r p).1.shards i := by
          revert hc
          unfold Ticket.handlePrepare
          simp only
          split
          · simp
          · cases r with
            | some e =>
              simp only
              split
              · split <;> simp
              · simp
            | none =>
              simp only
              split
              · intro hc
                obtain ⟨h1, h2⟩ := doCommit_call hc
                exact ⟨h1, rfl, h2⟩
              · simp
        exact ⟨_, by rw [lookup_set, if_pos hgoal.1.symm], hgoal.2⟩
  | committed c' t' j r p =>
    obtain ⟨hcr, _⟩ := hp
    simp only [step, Option.some.injEq, handleCommit, commitDone_plain hcr] at hs
    repeat' split at hs
    all_goals
      simp only [Prod.mk.injEq] at hs
      rw [← hs.2] at hc
      simp at hc
  | rollback cb t' p =>
    simp only [step, Option.some.injEq, rollback] at hs
    cases hl : s.tickets.lookup t' with
    | none =>
      rw [hl] at hs
      simp only at hs
      rw [rollbackDone_plain rfl] at hs
      simp only [Prod.mk.injEq] at hs
      rw [← hs.2] at hc
      simp at hc
    | some tk =>
      simp only [hl, rollbackDone_plain] at hs
      repeat' split at hs
      all_goals
        simp only [Prod.mk.injEq] at hs
        rw [← hs.2] at hc
        simp [Ticket.rollback] at hc
  | rolledBack c' t' j r p =>
    obtain ⟨hcr, _⟩ := hp
    simp only [step, Option.some.injEq, handleRollback,
      rollbackDone_plain hcr] at hs
    repeat' split at hs
    all_goals
      simp only [Prod.mk.injEq] at hs
      rw [← hs.2] at hc
      simp at hc
  | finish cb t' p =>
    simp only [step, Option.some.injEq, finish] at hs
    repeat' split at hs
    all_goals
      simp only [Prod.mk.injEq] at hs
      rw [← hs.2] at hc
      simp [Ticket.finish] at hc
  | finished c' t' j r =>
    simp only [step, Option.some.injEq, handleFinish] at hs
    repeat' split at hs
    all_goals
      simp only [Prod.mk.injEq] at hs
      rw [← hs.2] at hc
      simp at hc
  | recover cb => exact hp.elim
  | gotTickets cb i r p => exact hp.elim

/-- Requests to roll back are made only for tickets that are not prepared. -/
theorem rollback_call {s s' : State} {h : Hist} {e : Event} {o : Out}
    (hp : Plain h e) (hs : step s e = some (s', o)) {i : Nat} {t : Tn} {c : Cont}
    (hc : Call.rollback i t c ∈ o.calls) :
    ∃ tk, s'.tickets.lookup t = some tk ∧ tk.state = .begun := by
  cases e with
  | ticketNumber cb r =>
    simp only [step, Option.some.injEq] at hs
    cases r with
    | none =>
      simp only [handleTicketNumber, Prod.mk.injEq] at hs
      rw [← hs.2] at hc
      simp at hc
    | some q =>
      simp only [handleTicketNumber, Prod.mk.injEq] at hs
      rw [← hs.2] at hc
      simp at hc
  | tryLock cb t' ok =>
    simp only [step, Option.some.injEq, tryLock] at hs
    cases hl : s.tickets.lookup t' with
    | none =>
      simp only [hl, Prod.mk.injEq] at hs
      rw [← hs.2] at hc
      simp at hc
    | some tk =>
      cases hst : tk.state <;> simp only [hl, hst, Prod.mk.injEq] at hs <;>
        rw [← hs.2] at hc <;> simp at hc
  | foundKey cb t' k ty r ok =>
    simp only [step, Option.some.injEq, handleFindKey] at hs
    repeat' split at hs
    all_goals
      simp only [Prod.mk.injEq] at hs
      rw [← hs.2] at hc
      simp at hc
  | locked cb t' k j r =>
    simp only [step, Option.some.injEq, handleLock] at hs
    repeat' split at hs
    all_goals
      simp only [Prod.mk.injEq] at hs
      rw [← hs.2] at hc
      simp at hc
  | commit cb t' u p =>
    simp only [step, Option.some.injEq, commit] at hs
    cases hl : s.tickets.lookup t' with
    | none =>
      rw [hl] at hs
      simp only at hs
      rw [commitDone_plain rfl] at hs
      simp only [Prod.mk.injEq] at hs
      rw [← hs.2] at hc
      simp at hc
    | some tk =>
      simp only [hl] at hs
      rw [commit_result rfl] at hs
      simp only [Prod.mk.injEq] at hs
      rw [← hs.2] at hc
      simp only [Ticket.commit] at hc
      cases hce : tk.commitError u with
      | some e => simp [hce] at hc
      | none =>
        simp only [hce] at hc
        split at hc
        · simp [Ticket.doCommit] at hc
        · simp [Ticket.doPrepare] at hc
  | prepared c' t' j r p =>
    simp only [step, Option.some.injEq, handlePrepare] at hs
    obtain ⟨hcr, _⟩ := hp
    cases hl : s.tickets.lookup t' with
    | none =>
      rw [hl] at hs
      simp only at hs
      rw [commitDone_plain hcr] at hs
      simp only [Prod.mk.injEq] at hs
      rw [← hs.2] at hc
      simp at hc
    | some tk =>
      have hno : Call.rollback i t c ∉ (tk.handlePrepare c' t' j r p).2.1 := by
        unfold Ticket.handlePrepare
        simp only
        split
        · simp
        · cases r with
          | some e =>
            simp only
            split
            · split <;> simp
            · simp
          | none =>
            simp only
            split
            · simp [Ticket.doCommit]
            · simp
      simp only [hl, commitDone_plain hcr] at hs
      repeat' split at hs
      all_goals
        simp only [Prod.mk.injEq] at hs
        rw [← hs.2] at hc
        simp [hno] at hc
  | committed c' t' j r p =>
    obtain ⟨hcr, _⟩ := hp
    simp only [step, Option.some.injEq, handleCommit, commitDone_plain hcr] at hs
    repeat' split at hs
    all_goals
      simp only [Prod.mk.injEq] at hs
      rw [← hs.2] at hc
      simp at hc
  | rollback cb t' p =>
    simp only [step, Option.some.injEq, rollback] at hs
    cases hl : s.tickets.lookup t' with
    | none =>
      rw [hl] at hs
      simp only at hs
      rw [rollbackDone_plain rfl] at hs
      simp only [Prod.mk.injEq] at hs
      rw [← hs.2] at hc
      simp at hc
    | some tk =>
      simp only [hl, rollback_result, rollbackDone_plain] at hs
      cases hst : tk.state with
      | prepared =>
        simp only [hst, Prod.mk.injEq] at hs
        rw [← hs.2] at hc
        simp at hc
      | committed =>
        simp only [hst, Prod.mk.injEq] at hs
        rw [← hs.2] at hc
        simp at hc
      | aborted =>
        simp only [hst, Prod.mk.injEq] at hs
        rw [← hs.2] at hc
        simp at hc
      | begun =>
        simp only [hst] at hs
        have hs' : o.calls = [] ∨
            ((s.set t' (tk.rollback t' ⟨cb, false⟩ p).1) = s' ∧
            (tk.rollback t' ⟨cb, false⟩ p).2.1 = o.calls) := by
          split at hs
          · simp only [Prod.mk.injEq] at hs
            rw [← hs.2]
            exact .inl rfl
          · right
            split at hs <;>
            · simp only [Prod.mk.injEq] at hs
              refine ⟨hs.1, ?_⟩
              rw [← hs.2]
              try simp
        rcases hs' with h0 | ⟨h1, h2⟩
        · rw [h0] at hc
          simp at hc
        · rw [← h2] at hc
          rw [← h1]
          simp only [Ticket.rollback, List.mem_map] at hc
          obtain ⟨e, _, he⟩ := hc
          simp only [Call.rollback.injEq] at he
          exact ⟨_, by rw [lookup_set, if_pos he.2.1.symm], by
            simpa [Ticket.rollback] using hst⟩
  | rolledBack c' t' j r p =>
    obtain ⟨hcr, _⟩ := hp
    simp only [step, Option.some.injEq, handleRollback,
      rollbackDone_plain hcr] at hs
    repeat' split at hs
    all_goals
      simp only [Prod.mk.injEq] at hs
      rw [← hs.2] at hc
      simp at hc
  | finish cb t' p =>
    simp only [step, Option.some.injEq, finish] at hs
    repeat' split at hs
    all_goals
      simp only [Prod.mk.injEq] at hs
      rw [← hs.2] at hc
      simp [Ticket.finish] at hc
  | finished c' t' j r =>
    simp only [step, Option.some.injEq, handleFinish] at hs
    repeat' split at hs
    all_goals
      simp only [Prod.mk.injEq] at hs
      rw [← hs.2] at hc
      simp at hc
  | recover cb => exact hp.elim
  | gotTickets cb i r p => exact hp.elim

/-- Success is reported when the last shard of a prepared ticket has
committed. -/
theorem success_said {s s' : State} {h : Hist} {e : Event} {o : Out}
    (hp : Plain h e) (hs : step s e = some (s', o)) {cb : Nat} {t : Tn}
    (hc : Said.commit cb t none ∈ o.said) :
    ∃ tk tk', s.tickets.lookup t = some tk ∧ tk.state = .prepared ∧
      s'.tickets.lookup t = some tk' ∧ tk'.state = .committed := by
  cases e with
  | ticketNumber cb r =>
    simp only [step, Option.some.injEq] at hs
    cases r with
    | none =>
      simp only [handleTicketNumber, Prod.mk.injEq] at hs
      rw [← hs.2] at hc
      simp at hc
    | some q =>
      simp only [handleTicketNumber, Prod.mk.injEq] at hs
      rw [← hs.2] at hc
      simp at hc
  | tryLock cb' t' ok =>
    simp only [step, Option.some.injEq, tryLock] at hs
    cases hl : s.tickets.lookup t' with
    | none =>
      simp only [hl, Prod.mk.injEq] at hs
      rw [← hs.2] at hc
      simp at hc
    | some tk =>
      cases hst : tk.state <;> simp only [hl, hst, Prod.mk.injEq] at hs <;>
        rw [← hs.2] at hc <;> cases ok <;> simp at hc
  | foundKey cb t' k ty r ok =>
    simp only [step, Option.some.injEq, handleFindKey] at hs
    repeat' split at hs
    all_goals
      simp only [Prod.mk.injEq] at hs
      rw [← hs.2] at hc
      simp at hc
  | locked cb t' k j r =>
    simp only [step, Option.some.injEq, handleLock] at hs
    repeat' split at hs
    all_goals
      simp only [Prod.mk.injEq] at hs
      rw [← hs.2] at hc
      simp at hc
  | commit cb' t' u p =>
    simp only [step, Option.some.injEq, commit] at hs
    cases hl : s.tickets.lookup t' with
    | none =>
      rw [hl] at hs
      simp only at hs
      rw [commitDone_plain rfl] at hs
      simp only [Prod.mk.injEq] at hs
      rw [← hs.2] at hc
      simp at hc
    | some tk =>
      simp only [hl] at hs
      rw [commit_result rfl] at hs
      simp only [Prod.mk.injEq] at hs
      rw [← hs.2] at hc
      simp only at hc
      split at hc
      · rename_i hsome
        simp only [List.mem_singleton, Said.commit.injEq] at hc
        rw [← hc.2.2] at hsome
        simp at hsome
      · simp at hc
  | prepared c' t' j r p =>
    simp only [step, Option.some.injEq, handlePrepare] at hs
    obtain ⟨hcr, _⟩ := hp
    cases hl : s.tickets.lookup t' with
    | none =>
      rw [hl] at hs
      simp only at hs
      rw [commitDone_plain hcr] at hs
      simp only [Prod.mk.injEq] at hs
      rw [← hs.2] at hc
      simp at hc
    | some tk =>
      simp only [hl, commitDone_plain hcr] at hs
      repeat' split at hs
      all_goals
        simp only [Prod.mk.injEq] at hs
        rw [← hs.2] at hc
        try simp at hc
      rename_i hsome
      rw [← hc.2.2] at hsome
      simp at hsome
  | committed c' t' j r p =>
    obtain ⟨hcr, _⟩ := hp
    simp only [step, Option.some.injEq, handleCommit, commitDone_plain hcr] at hs
    cases hl : s.tickets.lookup t' with
    | none =>
      simp only [hl, Prod.mk.injEq] at hs
      rw [← hs.2] at hc
      simp at hc
    | some tk =>
      simp only [hl] at hs
      cases hst : tk.state with
      | begun =>
        simp only [hst, Prod.mk.injEq] at hs
        rw [← hs.2] at hc
        simp at hc
      | committed =>
        simp only [hst, Prod.mk.injEq] at hs
        rw [← hs.2] at hc
        simp at hc
      | aborted =>
        simp only [hst, Prod.mk.injEq] at hs
        rw [← hs.2] at hc
        simp at hc
      | prepared =>
        simp only [hst] at hs
        repeat' split at hs
        · simp only [Prod.mk.injEq] at hs
          rw [← hs.2] at hc
          simp at hc
        · simp only [Prod.mk.injEq] at hs
          rw [← hs.2] at hc
          simp at hc
        · simp only [Prod.mk.injEq] at hs
          rw [← hs.2] at hc
          simp only [List.mem_singleton, Said.commit.injEq] at hc
          rw [hc.2.1]
          exact ⟨tk, _, hl, hst, by rw [← hs.1, lookup_set, if_pos rfl], rfl⟩
        · simp only [Prod.mk.injEq] at hs
          rw [← hs.2] at hc
          simp at hc
  | rollback cb t' p =>
    simp only [step, Option.some.injEq, rollback, rollbackDone_plain] at hs
    repeat' split at hs
    all_goals
      simp only [Prod.mk.injEq] at hs
      rw [← hs.2] at hc
      simp at hc
  | rolledBack c' t' j r p =>
    obtain ⟨hcr, _⟩ := hp
    simp only [step, Option.some.injEq, handleRollback,
      rollbackDone_plain hcr] at hs
    repeat' split at hs
    all_goals
      simp only [Prod.mk.injEq] at hs
      rw [← hs.2] at hc
      simp at hc
  | finish cb t' p =>
    simp only [step, Option.some.injEq, finish, finishDone_plain] at hs
    repeat' split at hs
    all_goals
      simp only [Prod.mk.injEq] at hs
      rw [← hs.2] at hc
      try simp at hc
  | finished c' t' j r =>
    obtain ⟨hcr, _⟩ := hp
    simp only [step, Option.some.injEq, handleFinish,
      finishDone_plain hcr] at hs
    repeat' split at hs
    all_goals
      simp only [Prod.mk.injEq] at hs
      rw [← hs.2] at hc
      simp at hc
  | recover cb => exact hp.elim
  | gotTickets cb i r p => exact hp.elim

/-- **C47, partial.** A shard is asked to commit a transaction only after it and
every shard that was asked for a lock have reported in this attempt that they
prepared it. -/
theorem C47_prepared_partial {n : Nat} {h : Hist} {s s' : State} {e : Event}
    {o : Out} (hr : Run n h s) (hp : Plain h e) (hs : step s e = some (s', o))
    {i : Nat} {t : Tn} {c : Cont} (hc : Call.commit i t c ∈ o.calls) :
    ReportedPrepared t ((e, o) :: h) i ∧
      ∀ j, Touched t ((e, o) :: h) j → ReportedPrepared t ((e, o) :: h) j := by
  have inv := (Run.step hr hp hs).inv
  obtain ⟨tk, h1, h2, h3⟩ := commit_call hp hs hc
  have ht := inv.ticket t tk h1
  refine ⟨?_, ?_⟩
  · obtain ⟨x, hx, rfl⟩ := h3
    exact ht.decided (.inl h2) x hx
  · rintro j ⟨k, ty, f, cb, ha⟩
    obtain ⟨x, hx, rfl⟩ := ht.known _ j ha rfl
    exact ht.decided (.inl h2) x hx

/-- **C47, partial.** Once any shard was asked to commit a transaction, no shard
is ever asked to roll it back. -/
theorem C47_no_rollback_partial {n : Nat} {h : Hist} {s s' : State} {e : Event}
    {o : Out} (hr : Run n h s) (hp : Plain h e) (hs : step s e = some (s', o))
    {i : Nat} {t : Tn} {c : Cont} (hc : Call.rollback i t c ∈ o.calls) :
    ¬CommitAsked t ((e, o) :: h) := by
  obtain ⟨tk, h1, h2⟩ := rollback_call hp hs hc
  exact ((Run.step hr hp hs).inv.ticket t tk h1).fresh (.inl h2)

/-- **C47, partial.** Success is reported to the user only after every shard
that was asked for a lock has reported that it committed. -/
theorem C47_success_partial {n : Nat} {h : Hist} {s s' : State} {e : Event}
    {o : Out} (hr : Run n h s) (hp : Plain h e) (hs : step s e = some (s', o))
    {cb : Nat} {t : Tn} (hc : Said.commit cb t none ∈ o.said) (j : Nat)
    (hj : Touched t ((e, o) :: h) j) : ReportedCommitted t ((e, o) :: h) j := by
  obtain ⟨_, tk, _, _, h1, h2⟩ := success_said hp hs hc
  have ht := (Run.step hr hp hs).inv.ticket t tk h1
  obtain ⟨k, ty, f, cb, ha⟩ := hj
  obtain ⟨x, hx, rfl⟩ := ht.known _ j ha rfl
  exact ht.done h2 x hx

end Verif.Parsec.Broker
