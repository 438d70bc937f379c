import Verif.Parsec.ServerStep

/-!
# For which ticket an agent calls the broker
-/
namespace Verif.Parsec.Agent

/-- The ticket of a call of the broker. -/
def outTicket : Out → Option Nat
  | .lock _ t _ _ => some t
  | .commit t _ => some t
  | .finish t => some t
  | .rollback t => some t
  | _ => none

/-- The ticket is `t`, and calls of the broker are for it. -/
def Fits (t : Option Nat) (m : M) : Prop :=
  m.1.ticket = t ∧ ∀ x ∈ m.2, ∀ n, outTicket x = some n → t = some n

theorem Fits.nil {a : Agent} : Fits a.ticket (a, []) := ⟨rfl, by simp⟩

theorem Fits.one {a : Agent} {t : Option Nat} {x : Out} (ht : a.ticket = t) (hx : ∀ n, outTicket x = some n → t = some n) :
    Fits t (a, [x]) := ⟨ht, by simpa using hx⟩

theorem Fits.after {t : Option Nat} {m : M} {f : Agent → M} (h : Fits t m) (hf : Fits m.1.ticket (f m.1)) :
    Fits t (m.then f) := by
  rw [h.1] at hf
  refine ⟨hf.1, fun x hx => ?_⟩
  rcases List.mem_append.mp hx with hx | hx
  · exact h.2 x hx
  · exact hf.2 x hx

theorem fits_crash (a : Agent) : Fits a.ticket (crash a) := .one rfl (by simp [outTicket])

theorem fits_report (a : Agent) : Fits a.ticket (report a) := by
  unfold report
  split
  · exact fits_crash a
  · exact .one rfl (by simp [outTicket])

theorem fits_doRollback (p : Can) (f : Bool) (a : Agent) : Fits a.ticket (doRollback p f a) := by
  unfold doRollback
  split
  all_goals first
    | exact fits_crash a
    | skip
  all_goals
    split
    · exact fits_crash a
    · rename_i t ht
      dsimp only
      split
      · exact .one rfl (by simp [outTicket, ht])
      · exact fits_report _

theorem fits_doResult (p : Can) (a : Agent) : Fits a.ticket (doResult p a) := by
  unfold doResult
  split
  all_goals first
    | exact fits_crash a
    | exact fits_report a
    | exact fits_doRollback p _ a
    | split
      · exact fits_report a
      · exact fits_crash a

theorem fits_doRunner (p : Can) (v : Nat) (a : Agent) : Fits a.ticket (doRunner p v a) := by
  unfold doRunner
  dsimp only
  split
  · exact .one rfl (by simp [outTicket])
  · exact Fits.after (.one rfl (by simp [outTicket])) (fits_doResult p _)

theorem fits_again (p : Can) (id : Nat) (a : Agent) : Fits a.ticket (again p id a) := by
  unfold again
  split
  · exact .nil
  · dsimp only
    split
    · exact fits_doRunner p _ _
    · exact Fits.nil (a := { a with counters := _ })

theorem fits_handleLock (p : Can) (c : Cont) (r : LockRes) (a : Agent) : Fits a.ticket (handleLock p c r a) := by
  unfold handleLock
  split
  · exact .nil
  · have h : (if r = .wounded then { a with wounded := true } else a).ticket = a.ticket := by split <;> rfl
    dsimp only
    generalize (if r = .wounded then { a with wounded := true } else a) = b at h
    rw [← h]
    cases c with
    | function => exact .nil
    | again id => exact fits_again p id b
    | runner x q => exact .one rfl (by simp [outTicket])

theorem fits_tryLock (cfg : Config) (p : Can) (c : Cont) (k : Nat) (w : Bool) (a : Agent) :
    Fits a.ticket (tryLock cfg p c k w a).1 := by
  unfold tryLock
  split
  · exact fits_crash a
  · rename_i t ht
    repeat' split
    all_goals first
      | exact .nil
      | exact fits_handleLock p c _ a
      | exact .one rfl (by simp [outTicket, ht])
      | exact Fits.nil (a := { a with locks := _ })

theorem fits_acquire (cfg : Config) (p : Can) (id : Nat) : ∀ (l : List (Nat × Bool)) (a : Agent),
    Fits a.ticket (acquire cfg p id l a)
  | [], a => .nil
  | (k, w) :: l, a => by
    unfold acquire
    dsimp only
    split
    · exact (fits_tryLock cfg p _ k w a).after (fits_acquire cfg p id l _)
    · exact (fits_tryLock cfg p _ k w a).after (fits_doResult p _)

theorem fits_handleFunction (cfg : Config) (p : Can) (r : LockRes) (a : Agent) :
    Fits a.ticket (handleFunction cfg p r a) := by
  unfold handleFunction
  split
  · exact .nil
  · split
    · dsimp only
      split
      · exact fits_doRunner p _ _
      · exact fits_acquire cfg p _ _ _
    all_goals exact fits_doResult p _

theorem fits_doStart (cfg : Config) (p : Can) (a : Agent) : Fits a.ticket (doStart cfg p a) := by
  unfold doStart
  split
  · exact fits_crash a
  · rename_i t ht
    split
    · exact fits_crash a
    · dsimp only
      repeat' split
      all_goals first
        | exact fits_handleFunction cfg p _ _
        | exact .one rfl (by simp [outTicket, ht])
        | exact fits_doResult p _

theorem fits_doCommit (cfg : Config) (p : Can) (a : Agent) : Fits a.ticket (doCommit cfg p a) := by
  unfold doCommit
  split
  all_goals first
    | exact fits_crash a
    | rename_i ht
      dsimp only
      split
      · exact .one rfl (by simp [outTicket, ht])
      · exact fits_doResult p _

theorem fits_doFinish (p : Can) (a : Agent) : Fits a.ticket (doFinish p a) := by
  unfold doFinish
  split
  all_goals first
    | exact fits_crash a
    | rename_i ht
      dsimp only
      split
      · exact .one rfl (by simp [outTicket, ht])
      · exact fits_doResult p _

/-- An event leads to calls of the broker for the agent's ticket only. -/
theorem fits_step (cfg : Config) (p : Can) (a : Agent) (e : Event) :
    Fits (step cfg p a e).1.ticket (step cfg p a e) := by
  have h : ∀ {t : Option Nat} {m : M}, Fits t m → Fits m.1.ticket m := by
    intro t m hf
    rw [hf.1]
    exact hf
  unfold step
  split
  · unfold exec
    split
    · dsimp only
      split
      · exact .one rfl (by simp [outTicket])
      · exact h (fits_doResult p _)
    · dsimp only
      split
      · exact .one rfl (by simp [outTicket])
      · exact h (fits_doResult p _)
    · dsimp only
      split
      · exact .one rfl (by simp [outTicket])
      · exact h (fits_doResult p _)
    · exact h (fits_doStart cfg p _)
    all_goals first
      | exact h (fits_doCommit cfg p _)
      | exact h (fits_doRollback p _ _)
      | exact h (fits_doFinish p _)
      | exact h (t := a.ticket) .nil
  · unfold handleBegin
    split
    · exact h (t := a.ticket) .nil
    · split
      · exact h (fits_doStart cfg p _)
      · exact h (fits_doResult p _)
  · exact h (fits_handleFunction cfg p _ _)
  · exact h (fits_handleLock p _ _ _)
  · split
    · exact h (t := a.ticket) .nil
    · dsimp only
      split
      · exact h (fits_tryLock cfg p _ _ _ _)
      · exact h ((fits_tryLock cfg p _ _ _ _).after (.one rfl (by simp [outTicket])))
  · unfold handleRun
    split
    · exact h (t := a.ticket) .nil
    · split
      · exact h (fits_doCommit cfg p _)
      all_goals exact h (fits_doResult p _)
  · unfold handleCommit
    split
    · exact h (t := a.ticket) .nil
    · split
      · exact h (fits_doFinish p _)
      all_goals exact h (fits_doResult p _)
  · unfold handleFinish
    split
    · exact h (t := a.ticket) .nil
    · split <;> exact h (fits_doResult p _)
  · unfold handleRollback
    split
    · exact h (t := a.ticket) .nil
    · split
      · dsimp only
        split
        · exact h (fits_doFinish p _)
        · exact h (fits_doResult p _)
      · exact h (fits_doResult p _)

/-- A lock is asked for. -/
def isLock : Out → Bool
  | .lock _ _ _ _ => true
  | _ => false

def NoLock (m : M) : Prop := ∀ x ∈ m.2, isLock x = false

theorem NoLock.nil {a : Agent} : NoLock (a, []) := by simp [NoLock]
theorem NoLock.one {a : Agent} {x : Out} (h : isLock x = false) : NoLock (a, [x]) := by simpa [NoLock] using h

theorem noLock_report (a : Agent) : NoLock (report a) := by
  unfold report
  split <;> exact .one rfl

theorem noLock_doRollback (p : Can) (f : Bool) (a : Agent) : NoLock (doRollback p f a) := by
  unfold doRollback
  split
  all_goals first
    | exact NoLock.one rfl
    | skip
  all_goals
    split
    · exact .one rfl
    · dsimp only
      split
      · exact .one rfl
      · exact noLock_report _

theorem noLock_doResult (p : Can) (a : Agent) : NoLock (doResult p a) := by
  unfold doResult
  split
  all_goals first
    | exact NoLock.one rfl
    | exact noLock_report a
    | exact noLock_doRollback p _ a
    | split
      · exact noLock_report a
      · exact .one rfl

theorem noLock_doCommit (cfg : Config) (p : Can) (a : Agent) : NoLock (doCommit cfg p a) := by
  unfold doCommit
  split
  all_goals first
    | exact NoLock.one rfl
    | dsimp only
      split
      · exact .one rfl
      · exact noLock_doResult p _

theorem noLock_doFinish (p : Can) (a : Agent) : NoLock (doFinish p a) := by
  unfold doFinish
  split
  all_goals first
    | exact NoLock.one rfl
    | dsimp only
      split
      · exact .one rfl
      · exact noLock_doResult p _

/-- Once committing or rolling back, no event makes the agent ask for a lock. -/
theorem noLock_step {cfg : Config} {p : Can} {a : Agent} {e : Event} {t : Nat} (ht : a.ticket = some t)
    (hs : a.state = .commitSent ∨ a.state = .rollbackSent ∨ a.state = .rollbackFailed) :
    NoLock (step cfg p a e) := by
  have h1 : a.state ≠ .beginSent := by rcases hs with h | h | h <;> rw [h] <;> decide
  have h2 : a.state ≠ .functionGetSent := by rcases hs with h | h | h <;> rw [h] <;> decide
  have h3 : a.state ≠ .functionStarted := by rcases hs with h | h | h <;> rw [h] <;> decide
  unfold step
  split
  · unfold exec
    rcases hs with h | h | h <;> rw [h] <;> dsimp only
    · exact noLock_doCommit cfg p a
    · exact noLock_doRollback p _ a
    · exact noLock_doRollback p _ a
  · unfold handleBegin
    rw [if_pos h1]
    exact .nil
  · unfold handleFunction
    rw [if_pos h2]
    exact .nil
  · unfold handleLock
    rw [if_pos h3]
    exact .nil
  · split
    · exact .nil
    · unfold tryLock
      rw [ht]
      dsimp only
      rw [if_pos h3]
      simp [NoLock, M.then, isLock]
  · unfold handleRun
    rw [if_pos h3]
    exact .nil
  · unfold handleCommit
    split
    · exact .nil
    · split
      · exact noLock_doFinish p _
      all_goals exact noLock_doResult p _
  · unfold handleFinish
    split
    · exact .nil
    · split <;> exact noLock_doResult p _
  · unfold handleRollback
    split
    · exact .nil
    · split
      · dsimp only
        split
        · exact noLock_doFinish p _
        · exact noLock_doResult p _
      · exact noLock_doResult p _

end Verif.Parsec.Agent
