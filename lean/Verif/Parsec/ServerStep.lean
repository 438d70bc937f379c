import Verif.Parsec.ServerSys

/-!
# Whom requests and reports of the broker belong to
-/
namespace Verif.Parsec.Broker.Server

/-- The number of the callback an event brings. -/
def eventCb : Event → Nat
  | .ticketNumber cb _ => cb
  | .tryLock cb _ _ => cb
  | .foundKey cb _ _ _ _ _ => cb
  | .locked cb _ _ _ _ => cb
  | .commit cb _ _ _ => cb
  | .prepared c _ _ _ _ => c.cb
  | .committed c _ _ _ _ => c.cb
  | .rollback cb _ _ => cb
  | .rolledBack c _ _ _ _ => c.cb
  | .finish cb _ _ => cb
  | .finished c _ _ _ => c.cb
  | .recover cb => cb
  | .gotTickets cb _ _ _ => cb

/-- The number of the callback a request carries. -/
def callCb : Call → Nat
  | .tryLock _ _ _ _ _ cb => cb
  | .prepare _ _ _ c => c.cb
  | .commit _ _ c => c.cb
  | .rollback _ _ c => c.cb
  | .finish _ _ c => c.cb
  | .getTickets _ cb => cb

/-- The ticket a report is about. -/
def saidTicket : Said → Option Tn
  | .begin _ (.ok n) => some n
  | .begin _ (.error _) => none
  | .lock _ t _ => some t
  | .commit _ t _ => some t
  | .rollback _ t _ => some t
  | .finish _ t _ => some t
  | .recover _ _ => none

/-- Whether a number is reported. -/
def isBegin : Said → Bool
  | .begin _ _ => true
  | _ => false

/-- The ticket machine answered. -/
def isNumber : Event → Bool
  | .ticketNumber _ _ => true
  | _ => false

/-- The requests and reports an event causes carry its callback and ticket. -/
structure Belongs (e : Event) (o : Out) : Prop where
  calls : ∀ c ∈ o.calls, callCb c = eventCb e
  said : ∀ x ∈ o.said, saidTo x = eventCb e ∧ saidTicket x = e.ticket ∧ isBegin x = isNumber e
  short : o.said.length ≤ 1

theorem Belongs.silent {e : Event} : Belongs e {} := ⟨by simp, by simp, by simp⟩

theorem Belongs.one {e : Event} {x : Said} (h : saidTo x = eventCb e ∧ saidTicket x = e.ticket ∧ isBegin x = isNumber e) :
    Belongs e { said := [x] } := ⟨by simp, by simpa using h, by simp⟩

theorem commitDone_belongs {e : Event} {s : State} {c : Cont} {t : Tn} {r : Option Fail} {p : Option Stop}
    (hc : c.recovery = false) (h1 : eventCb e = c.cb) (h2 : e.ticket = some t) (h3 : isNumber e = false) :
    (commitDone s c t r p).2.calls = [] ∧ Belongs e (commitDone s c t r p).2 := by
  simp only [commitDone, hc]
  exact ⟨rfl, .one ⟨h1.symm, h2.symm, h3.symm⟩⟩

theorem rollbackDone_belongs {e : Event} {s : State} {c : Cont} {t : Tn} {r : Option Fail} {p : Option Stop}
    (hc : c.recovery = false) (h1 : eventCb e = c.cb) (h2 : e.ticket = some t) (h3 : isNumber e = false) :
    (rollbackDone s c t r p).2.calls = [] ∧ Belongs e (rollbackDone s c t r p).2 := by
  simp only [rollbackDone, hc]
  exact ⟨rfl, .one ⟨h1.symm, h2.symm, h3.symm⟩⟩

theorem finishDone_belongs {e : Event} {s : State} {c : Cont} {t : Tn} {r : Option Fail}
    (hc : c.recovery = false) (h1 : eventCb e = c.cb) (h2 : e.ticket = some t) (h3 : isNumber e = false) :
    ∀ x ∈ finishDone s c t r, saidTo x = eventCb e ∧ saidTicket x = e.ticket ∧ isBegin x = isNumber e := by
  simp only [finishDone, hc]
  simp [saidTo, saidTicket, isBegin, h1, h2, h3]

theorem finishDone_short {s : State} {c : Cont} {t : Tn} {r : Option Fail} (hc : c.recovery = false) :
    (finishDone s c t r).length ≤ 1 := by
  simp [finishDone, hc]

theorem Belongs.more {e : Event} {o : Out} {l : List Call} (h : o.calls = [] ∧ Belongs e o)
    (hl : ∀ c ∈ l, callCb c = eventCb e) : Belongs e { calls := l ++ o.calls, said := o.said } := by
  refine ⟨?_, h.2.said, h.2.short⟩
  rw [h.1, List.append_nil]
  exact hl

theorem Belongs.requests {e : Event} {l : List Call} (hl : ∀ c ∈ l, callCb c = eventCb e) :
    Belongs e { calls := l } := ⟨hl, by simp, by simp⟩

theorem doCommit_cb {tk : Ticket} {t : Tn} {c : Cont} {p : Option Stop} :
    ∀ d ∈ (tk.doCommit t c p).2.1, callCb d = c.cb := by
  simp only [Ticket.doCommit]
  intro d hd
  obtain ⟨e, _, rfl⟩ := List.mem_map.mp hd
  rfl

theorem commit_cb {tk : Ticket} {t : Tn} {u : List (Key × Value)} {c : Cont} {p : Option Stop} :
    ∀ d ∈ (tk.commit t u c p).2.1, callCb d = c.cb := by
  unfold Ticket.commit
  split
  · simp
  · split
    · exact doCommit_cb
    · simp only [Ticket.doPrepare]
      intro d hd
      obtain ⟨e, _, rfl⟩ := List.mem_map.mp hd
      rfl

theorem handlePrepare_cb {tk : Ticket} {t : Tn} {c : Cont} {i : Nat} {r : Option ShardError} {p : Option Stop} :
    ∀ d ∈ (tk.handlePrepare c t i r p).2.1, callCb d = c.cb := by
  unfold Ticket.handlePrepare
  dsimp only
  split
  · simp
  · split
    · split
      · split <;> simp
      · simp
    · split
      · exact doCommit_cb
      · simp

theorem step_belongs {s s' : State} {e : Event} {o : Out} (hp : e.plain = true) (hs : step s e = some (s', o)) :
    Belongs e o := by
  have hso : ∀ {r : State × Out}, some r = some (s', o) → r.2 = o := by
    intro r h
    rw [Option.some.inj h]
  cases e with
  | ticketNumber cb r =>
    rw [← hso hs]
    cases r with
    | none => exact .one ⟨rfl, rfl, rfl⟩
    | some q => exact .one ⟨rfl, rfl, rfl⟩
  | tryLock cb t ok =>
    rw [← hso hs]
    simp only [tryLock]
    split
    · exact .one ⟨rfl, rfl, rfl⟩
    · split
      · exact .one ⟨rfl, rfl, rfl⟩
      · exact .one ⟨rfl, rfl, rfl⟩
      · cases ok
        · exact .one ⟨rfl, rfl, rfl⟩
        · exact .silent
      · cases ok
        · exact .one ⟨rfl, rfl, rfl⟩
        · exact .silent
  | foundKey cb t k ty r ok =>
    rw [← hso hs]
    simp only [handleFindKey]
    split
    · exact .one ⟨rfl, rfl, rfl⟩
    · split
      · exact .one ⟨rfl, rfl, rfl⟩
      · exact .one ⟨rfl, rfl, rfl⟩
      · exact .one ⟨rfl, rfl, rfl⟩
      · split
        · exact .one ⟨rfl, rfl, rfl⟩
        · split
          · exact .one ⟨rfl, rfl, rfl⟩
          · split
            · exact .requests (by simp [callCb, eventCb])
            · exact .one ⟨rfl, rfl, rfl⟩
  | locked cb t k i r =>
    rw [← hso hs]
    cases r with
    | error e => exact .one ⟨rfl, rfl, rfl⟩
    | value v =>
      simp only [handleLock]
      split
      · exact .one ⟨rfl, rfl, rfl⟩
      · split
        · exact .one ⟨rfl, rfl, rfl⟩
        · split
          · exact .one ⟨rfl, rfl, rfl⟩
          · exact .one ⟨rfl, rfl, rfl⟩
  | commit cb t u p =>
    rw [← hso hs]
    simp only [commit]
    split
    · exact (commitDone_belongs rfl rfl rfl rfl).2
    · split
      · exact .more (commitDone_belongs rfl rfl rfl rfl) commit_cb
      · exact .requests commit_cb
  | prepared c t i r p =>
    have hc : c.recovery = false := by simpa [Event.plain] using hp
    rw [← hso hs]
    simp only [handlePrepare]
    split
    · exact (commitDone_belongs hc rfl rfl rfl).2
    · split
      · exact (commitDone_belongs hc rfl rfl rfl).2
      · exact (commitDone_belongs hc rfl rfl rfl).2
      · exact (commitDone_belongs hc rfl rfl rfl).2
      · split
        · exact .more (commitDone_belongs hc rfl rfl rfl) handlePrepare_cb
        · exact .requests handlePrepare_cb
  | committed c t i r p =>
    have hc : c.recovery = false := by simpa [Event.plain] using hp
    rw [← hso hs]
    simp only [handleCommit]
    repeat' split
    all_goals first
      | exact (commitDone_belongs hc rfl rfl rfl).2
      | exact .silent
  | rollback cb t p =>
    rw [← hso hs]
    simp only [rollback]
    have hl : ∀ (tk : Ticket), ∀ d ∈ (tk.rollback t ⟨cb, false⟩ p).2.1, callCb d = cb := by
      intro tk d hd
      simp only [Ticket.rollback] at hd
      obtain ⟨e, _, rfl⟩ := List.mem_map.mp hd
      rfl
    repeat' split
    all_goals first
      | exact (rollbackDone_belongs rfl rfl rfl rfl).2
      | exact .more (rollbackDone_belongs rfl rfl rfl rfl) (hl _)
      | exact .requests (hl _)
  | rolledBack c t i r p =>
    have hc : c.recovery = false := by simpa [Event.plain] using hp
    rw [← hso hs]
    simp only [handleRollback]
    repeat' split
    all_goals first
      | exact (rollbackDone_belongs hc rfl rfl rfl).2
      | exact .silent
  | finish cb t p =>
    rw [← hso hs]
    simp only [finish]
    have hl : ∀ (tk : Ticket), ∀ d ∈ (tk.finish t ⟨cb, false⟩ p).2.1, callCb d = cb := by
      intro tk d hd
      simp only [Ticket.finish] at hd
      obtain ⟨e, _, rfl⟩ := List.mem_map.mp hd
      rfl
    split
    · exact ⟨by simp, finishDone_belongs (s := s) (c := ⟨cb, false⟩) rfl rfl rfl rfl, finishDone_short (s := s) (c := ⟨cb, false⟩) rfl⟩
    · split
      · exact ⟨by simp, finishDone_belongs (s := s) (c := ⟨cb, false⟩) rfl rfl rfl rfl, finishDone_short (s := s) (c := ⟨cb, false⟩) rfl⟩
      · exact ⟨by simp, finishDone_belongs (s := s) (c := ⟨cb, false⟩) rfl rfl rfl rfl, finishDone_short (s := s) (c := ⟨cb, false⟩) rfl⟩
      · exact ⟨by simp, finishDone_belongs (s := s) (c := ⟨cb, false⟩) rfl rfl rfl rfl, finishDone_short (s := s) (c := ⟨cb, false⟩) rfl⟩
      · refine ⟨hl _, ?_, ?_⟩
        · dsimp only
          split
          · exact finishDone_belongs (s := s) (c := ⟨cb, false⟩) rfl rfl rfl rfl
          · simp
        · dsimp only
          split
          · exact finishDone_short (s := s) (c := ⟨cb, false⟩) rfl
          · simp
  | finished c t i r =>
    have hc : c.recovery = false := by simpa [Event.plain] using hp
    rw [← hso hs]
    simp only [handleFinish]
    repeat' split
    all_goals first
      | exact ⟨by simp, finishDone_belongs (s := s) hc rfl rfl rfl, finishDone_short (s := s) hc⟩
      | exact ⟨by simp, finishDone_belongs (s := s.erase t) hc rfl rfl rfl, finishDone_short (s := s.erase t) hc⟩
      | exact .silent
  | recover cb => cases hp
  | gotTickets cb i r p => cases hp

/-- Everything that happened belongs to its event. -/
theorem run_belongs {n : Nat} {h : Hist} {s : State} (hr : Broker.Run n h s) : ∀ x ∈ h, Belongs x.1 x.2 := by
  induction hr with
  | start => simp
  | step hr hp hs ih =>
    intro x hx
    rcases List.mem_cons.mp hx with rfl | hx
    · exact step_belongs hp.plain hs
    · exact ih x hx

end Verif.Parsec.Broker.Server
