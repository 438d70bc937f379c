import Verif.Parsec.AgentRunner
import Verif.Parsec.AgentServed

/-!
# Which locks an agent remembers
-/
namespace Verif.Parsec.Agent

/-- What happened since the last rollback was requested, newest first. -/
def since : Trace → Trace
  | [] => []
  | (e, o) :: h => if o.any isRollback then [] else (e, o) :: since h

/-- What happened until then. -/
def before : Trace → Trace
  | [] => []
  | (e, o) :: h => if o.any isRollback then (e, o) :: h else before h

/-- The runner or the agent itself has asked for a lock, other than that on the function. -/
def Asked (h : Trace) (k : Nat) (write : Bool) : Prop :=
  ∃ x ∈ h, ∃ c t, .lock c t k write ∈ x.2 ∧ c ≠ .function

/-- The agent has asked for a lock of an earlier attempt. -/
def AskedAgain (h : Trace) (k : Nat) (write : Bool) : Prop :=
  ∃ x ∈ h, ∃ id t, .lock (.again id) t k write ∈ x.2

/-- The lives of an agent whose broker takes all requests for locks. -/
inductive Reaching (cfg : Config) : Trace → Agent → Prop
  | start : Reaching cfg [] {}
  | step {h : Trace} {a : Agent} (r : Reaching cfg h a) (alive : Alive h) (p : Can)
    (hp : ∀ k, p.lock k = true) (e : Event) :
    Reaching cfg ((e, (step cfg p a e).2) :: h) (step cfg p a e).1

theorem Reaching.run {cfg : Config} {h : Trace} {a : Agent} (r : Reaching cfg h a) : Run cfg h a := by
  induction r with
  | start => exact .start
  | step _ alive p _ e ih => exact .step ih alive p e

/-! ### Remembered locks -/

/-- A lock on `k` that is strong enough is remembered. -/
def Holds (l : List (Nat × Bool)) (k : Nat) (w : Bool) : Prop :=
  ∃ w', (k, w') ∈ l ∧ (w = true → w' = true)

theorem lookup_none {l : List (Nat × Bool)} {k : Nat} (h : l.lookup k = none) : k ∉ l.map (·.1) := by
  induction l with
  | nil => simp
  | cons e l ih =>
    obtain ⟨k', w⟩ := e
    rw [List.lookup_cons] at h
    by_cases hk : k = k'
    · subst hk; simp at h
    · rw [beq_eq_false_iff_ne.mpr hk] at h
      simp only [List.map_cons, List.mem_cons, not_or]
      exact ⟨hk, ih h⟩

theorem lookup_some {l : List (Nat × Bool)} {k : Nat} {w : Bool} (h : l.lookup k = some w) : (k, w) ∈ l := by
  induction l with
  | nil => cases h
  | cons e l ih =>
    obtain ⟨k', w'⟩ := e
    rw [List.lookup_cons] at h
    by_cases hk : k = k'
    · subst hk
      simp at h
      simp [h]
    · rw [beq_eq_false_iff_ne.mpr hk] at h
      exact List.mem_cons_of_mem _ (ih h)

theorem remember_keys {l : List (Nat × Bool)} (hn : (l.map (·.1)).Nodup) (k : Nat) (w : Bool) :
    ((remember l k w).map (·.1)).Nodup := by
  unfold remember
  split
  · next h =>
    rw [List.map_append, List.nodup_append]
    refine ⟨hn, by simp, ?_⟩
    intro x hx y hy he
    simp at hy
    subst hy he
    exact lookup_none h hx
  · exact hn
  · have : (l.map fun e => if e.1 = k then (k, w) else e).map (·.1) = l.map (·.1) := by
      rw [List.map_map]
      apply List.map_congr_left
      intro e _
      simp only [Function.comp]
      split
      · next h => exact h.symm
      · rfl
    rw [this]; exact hn

theorem remember_mem {l : List (Nat × Bool)} {k : Nat} {w : Bool} {e : Nat × Bool}
    (h : e ∈ remember l k w) : e ∈ l ∨ e = (k, w) := by
  unfold remember at h
  split at h
  · simpa using h
  · exact .inl h
  · obtain ⟨x, hx, he⟩ := List.mem_map.mp h
    split at he
    · exact .inr he.symm
    · exact .inl (he ▸ hx)

theorem remember_holds (l : List (Nat × Bool)) (k : Nat) (w : Bool) : Holds (remember l k w) k w := by
  unfold remember
  split
  · exact ⟨w, by simp, id⟩
  · next h => exact ⟨true, lookup_some h, fun _ => rfl⟩
  · next h => exact ⟨w, List.mem_map.mpr ⟨_, lookup_some h, by simp⟩, id⟩

theorem mem_unique {l : List (Nat × Bool)} (hn : (l.map (·.1)).Nodup) {k : Nat} {w w' : Bool}
    (h : (k, w) ∈ l) (h' : (k, w') ∈ l) : w = w' := by
  induction l with
  | nil => cases h
  | cons e l ih =>
    simp only [List.map_cons, List.nodup_cons] at hn
    rcases List.mem_cons.mp h with h1 | h1 <;> rcases List.mem_cons.mp h' with h2 | h2
    · rw [← h2] at h1; exact congrArg Prod.snd h1
    · rw [← h1] at hn; exact absurd (List.mem_map_of_mem (f := (·.1)) h2) hn.1
    · rw [← h2] at hn; exact absurd (List.mem_map_of_mem (f := (·.1)) h1) hn.1
    · exact ih hn.2 h1 h2

theorem Holds.remember {l : List (Nat × Bool)} (hn : (l.map (·.1)).Nodup) {k' : Nat} {w' : Bool}
    (h : Holds l k' w') (k : Nat) (w : Bool) : Holds (remember l k w) k' w' := by
  obtain ⟨v, hv, hw⟩ := h
  unfold Agent.remember
  split
  · exact ⟨v, by simp [hv], hw⟩
  · exact ⟨v, hv, hw⟩
  · next h =>
    by_cases hk : k' = k
    · subst hk
      have : v = false := mem_unique hn hv (lookup_some h)
      subst this
      refine ⟨w, List.mem_map.mpr ⟨_, hv, by simp⟩, fun h => absurd (hw h) (by simp)⟩
    · exact ⟨v, List.mem_map.mpr ⟨_, hv, by simp [hk]⟩, hw⟩

theorem remember_new {l : List (Nat × Bool)} {k : Nat} {w : Bool} (h : k ∉ l.map (·.1)) :
    remember l k w = l ++ [(k, w)] := by
  unfold remember
  split
  · rfl
  · next hl => exact absurd (List.mem_map.mpr ⟨_, lookup_some hl, rfl⟩) h
  · next hl => exact absurd (List.mem_map.mpr ⟨_, lookup_some hl, rfl⟩) h

/-! ### What an event does to them -/

/-- No lock is asked for, and none is forgotten. -/
structure Keeps (a : Agent) (m : M) : Prop where
  locks : m.1.locks = a.locks
  none : ∀ c t k w, .lock c t k w ∈ m.2 → c = .function

theorem Keeps.quiet {a : Agent} {m : M} {l : List Out} (hl : m.1.locks = a.locks) (ho : m.2 = l)
    (h : ∀ x ∈ l, ∀ c t k w, x ≠ .lock c t k w) : Keeps a m :=
  ⟨hl, fun c t k w hm => absurd rfl (h _ (ho ▸ hm) c t k w)⟩

/-- None of these is a request for a lock. -/
local macro "nolock" : term => `(by first | (simp; done) | simp [crash])

theorem report_keeps (a : Agent) : Keeps a (report a) := by
  unfold report crash
  split <;> exact .quiet rfl rfl nolock

theorem doRollback_keeps (p : Can) (f : Bool) (a : Agent) : Keeps a (doRollback p f a) := by
  unfold doRollback
  split <;> try (exact .quiet rfl rfl nolock)
  all_goals
    split
    · exact .quiet rfl rfl nolock
    · dsimp only
      split
      · exact .quiet rfl rfl nolock
      · exact ⟨(report_keeps _).locks, (report_keeps _).none⟩

theorem doResult_keeps (p : Can) (a : Agent) : Keeps a (doResult p a) := by
  unfold doResult
  split <;> try (exact .quiet rfl rfl nolock)
  all_goals first
    | exact report_keeps a
    | exact doRollback_keeps p _ a
    | (split
       · exact report_keeps a
       · exact .quiet rfl rfl nolock)

theorem Keeps.to {a b : Agent} {m : M} (h : Keeps b m) (hl : b.locks = a.locks) : Keeps a m :=
  ⟨h.locks.trans hl, h.none⟩

theorem doRunner_keeps (p : Can) (v : Nat) (a : Agent) : Keeps a (doRunner p v a) := by
  unfold doRunner
  dsimp only
  split
  · exact .quiet rfl rfl nolock
  · have h := doResult_keeps p { a with
      runners := a.runners + 1
      state := .functionFailed
      result := some (.error .functionExecution) }
    refine ⟨h.locks, fun c t k w hm => ?_⟩
    simp only [M.then, List.mem_append] at hm
    rcases hm with hm | hm
    · simp at hm
    · exact h.none c t k w hm

theorem again_keeps (p : Can) (id : Nat) (a : Agent) : Keeps a (again p id a) := by
  unfold again
  split
  · exact .quiet rfl rfl nolock
  · dsimp only
    split
    · exact (doRunner_keeps p _ _).to rfl
    · exact .quiet rfl rfl nolock

theorem handleLock_keeps (p : Can) (c : Cont) (res : LockRes) (a : Agent) : Keeps a (handleLock p c res a) := by
  unfold handleLock
  split
  · exact .quiet rfl rfl nolock
  · dsimp only
    have hl : (if res = .wounded then { a with wounded := true } else a).locks = a.locks := by
      split <;> rfl
    cases c with
    | function => exact .quiet hl rfl nolock
    | again id => exact (again_keeps p id _).to hl
    | runner r q => exact .quiet hl rfl nolock

theorem doCommit_keeps (cfg : Config) (p : Can) (a : Agent) : Keeps a (doCommit cfg p a) := by
  unfold doCommit
  split <;> first
    | exact .quiet rfl rfl nolock
    | (dsimp only
       split
       · exact .quiet rfl rfl nolock
       · exact (doResult_keeps p _).to rfl)

theorem doFinish_keeps (p : Can) (a : Agent) : Keeps a (doFinish p a) := by
  unfold doFinish
  split <;> first
    | exact .quiet rfl rfl nolock
    | (dsimp only
       split
       · exact .quiet rfl rfl nolock
       · exact (doResult_keeps p _).to rfl)

/-- Everything an event can do to the remembered locks. -/
inductive Locks (cfg : Config) (a : Agent) (m : M) : Prop
  | keeps (h : Keeps a m)
  | asked (r q k t : Nat) (w : Bool) (hs : a.state = .functionStarted)
    (hl : m.1.locks = remember a.locks k w)
    (ho : m.2 = [.lock (.runner r q) t k w]) (hr : cfg.readonly = true → w = false)
  | again (id t : Nat) (hs : a.state ≠ .functionStarted) (hl : m.1.locks = a.locks)
    (ho : m.2 = a.locks.map fun e => .lock (.again id) t e.1 e.2)

/-- The locks that are remembered are of different keys, and a read-only run has only read locks. -/
structure Well (cfg : Config) (l : List (Nat × Bool)) : Prop where
  nodup : (l.map (·.1)).Nodup
  read : cfg.readonly = true → ∀ e ∈ l, e.2 = false

theorem acquire_exact {cfg : Config} {p : Can} {id t : Nat} (hp : ∀ k, p.lock k = true)
    {l : List (Nat × Bool)} {a : Agent} (hw : Well cfg (a.locks ++ l))
    (hs : a.state = .functionStarted) (ht : a.ticket = some t) (hn : a.wounded = false) :
    acquire cfg p id l a =
      ({ a with locks := a.locks ++ l }, l.map fun e => .lock (.again id) t e.1 e.2) := by
  induction l generalizing a with
  | nil => simp [acquire]
  | cons e l ih =>
    obtain ⟨k, w⟩ := e
    have hk : k ∉ a.locks.map (·.1) := by
      have := hw.nodup
      rw [List.map_append, List.nodup_append] at this
      intro hm
      exact this.2.2 k hm k (by simp) rfl
    have hr : cfg.readonly = true → w = false := fun h => hw.read h (k, w) (by simp)
    have ht' : tryLock cfg p (.again id) k w a =
        (({ a with locks := a.locks ++ [(k, w)] }, [.lock (.again id) t k w]), true) := by
      simp only [tryLock, ht]
      rw [if_neg (by simp [hs]), if_neg, if_neg (by simp [hn]), if_pos (hp k), remember_new hk]
      · rw [← ht]
        congr 3
        split
        · next h => rw [hr h]
        · rfl
      · intro h
        simp only [Bool.and_eq_true] at h
        rw [hr h.1] at h
        exact absurd h.2 (by simp)
    simp only [acquire, ht', M.then]
    rw [if_pos trivial, ih (a := { a with locks := a.locks ++ [(k, w)] }) (by simpa using hw) hs ht hn]
    simp

theorem handleFunction_locks {cfg : Config} {p : Can} {a : Agent} (hp : ∀ k, p.lock k = true)
    (hw : Well cfg a.locks) {t : Nat} (ht : a.ticket = some t) (hn : a.wounded = false) (res : LockRes) :
    Locks cfg a (handleFunction cfg p res a) := by
  unfold handleFunction
  split
  · exact .keeps (.quiet rfl rfl nolock)
  · next hs =>
    have hs : a.state = .functionGetSent := by simpa using hs
    split
    · next v =>
      dsimp only
      split
      · next hl =>
        refine .keeps ((doRunner_keeps p _ _).to ?_)
        simpa using hl.symm
      · have h := acquire_exact (cfg := cfg) (p := p) (id := a.counters.length) (t := t) hp (l := a.locks)
          (a := { a with
            state := .functionStarted
            locks := []
            counters := a.counters ++ [{ got := 0, need := a.locks.length, value := v }] })
          (by simpa using hw) rfl ht hn
        rw [h]
        exact .again _ t (by simp [hs]) (by simp) rfl
    all_goals exact .keeps ((doResult_keeps p _).to rfl)

theorem doStart_locks {cfg : Config} {p : Can} {a : Agent} (hp : ∀ k, p.lock k = true)
    (hw : Well cfg a.locks) {t : Nat} (ht : a.ticket = some t) (hn : a.wounded = false)
    (hs : a.state = .beginSent ∨ a.state = .rollbackComplete) : Locks cfg a (doStart cfg p a) := by
  have hne : a.state ≠ .functionStarted := by rcases hs with h | h <;> simp [h]
  have go : ∀ v, Locks cfg a (handleFunction cfg p (.value v) { a with state := .functionGetSent }) := by
    intro v
    have h := handleFunction_locks (a := { a with state := .functionGetSent }) hp hw ht hn (.value v)
    cases h with
    | keeps h => exact .keeps (h.to rfl)
    | asked r q k t w hs => simp at hs
    | again id t _ hl ho => exact .again id t hne hl ho
  unfold doStart
  simp only [ht]
  split
  · exact .keeps (.quiet rfl rfl nolock)
  · rw [← ht]
    split
    · exact go 0
    · split
      · exact go _
      · split
        · refine .keeps ⟨rfl, fun c _ k w h => ?_⟩
          simp only [List.mem_singleton, Out.lock.injEq] at h
          exact h.1
        · exact .keeps ((doResult_keeps p _).to rfl)

theorem step_locks {cfg : Config} {p : Can} {a : Agent} (hp : ∀ k, p.lock k = true)
    (hw : Well cfg a.locks) (rest : Rest a) (e : Event) : Locks cfg a (step cfg p a e) := by
  cases e with
  | exec =>
    simp only [step]
    unfold exec
    split
    case h_4 hs =>
      obtain ⟨t, ht⟩ := rest.ticket (by simp [hs]) (by simp [hs]) (by simp [hs])
      have := doStart_locks (a := { a with result := none, wounded := false }) hp hw ht rfl (.inr hs)
      cases this with
      | keeps h => exact .keeps (h.to rfl)
      | asked r q k t w hs hl ho hr => exact .asked r q k t w hs hl ho hr
      | again id t hs hl ho => exact .again id t hs hl ho
    all_goals first
      | exact .keeps (doCommit_keeps cfg p a)
      | exact .keeps (doRollback_keeps p _ a)
      | exact .keeps (doFinish_keeps p a)
      | exact .keeps (.quiet rfl rfl nolock)
      | (dsimp only
         split
         · exact .keeps (.quiet rfl rfl nolock)
         · exact .keeps ((doResult_keeps p _).to rfl))
  | begun res =>
    simp only [step]
    unfold handleBegin
    split
    · exact .keeps (.quiet rfl rfl nolock)
    · next hs =>
      have hs : a.state = .beginSent := by simpa using hs
      split
      · next n =>
        have := doStart_locks (a := { a with ticket := some n }) (t := n) hp hw rfl (rest.wounded (.inr (.inl hs)))
          (.inl hs)
        cases this with
        | keeps h => exact .keeps (h.to rfl)
        | asked r q k t w hs hl ho hr => exact .asked r q k t w hs hl ho hr
        | again id t hs hl ho => exact .again id t hs hl ho
      · exact .keeps ((doResult_keeps p _).to rfl)
  | locked c res =>
    cases c with
    | function =>
      simp only [step]
      by_cases hs : a.state = .functionGetSent
      · obtain ⟨t, ht⟩ := rest.ticket (by simp [hs]) (by simp [hs]) (by simp [hs])
        exact handleFunction_locks hp hw ht (rest.wounded (by simp [hs])) res
      · unfold handleFunction
        rw [if_pos hs]
        exact .keeps (.quiet rfl rfl nolock)
    | again id => exact .keeps (handleLock_keeps p (.again id) res a)
    | runner r q => exact .keeps (handleLock_keeps p (.runner r q) res a)
  | request r q k w =>
    simp only [step]
    split
    · exact .keeps (.quiet rfl rfl nolock)
    · cases ht : a.ticket with
      | none =>
        have : tryLock cfg p (.runner r q) k w a = (crash a, true) := by simp only [tryLock, ht]
        rw [this]
        exact .keeps (.quiet rfl rfl nolock)
      | some t =>
        have refused : tryLock cfg p (.runner r q) k w a = ((a, []), false) → Locks cfg a
            (let m := tryLock cfg p (.runner r q) k w a
             if m.2 = true then m.1 else m.1.then fun a => (a, [.refuse r q])) := by
          intro h
          rw [h]
          exact .keeps (.quiet (l := [.refuse r q]) rfl rfl nolock)
        by_cases hs : a.state = .functionStarted
        · by_cases hro : (cfg.readonly && w) = true
          · apply refused
            simp only [tryLock, ht]
            rw [if_neg (by simp [hs]), if_pos hro]
          · by_cases hwd : a.wounded = true
            · have : tryLock cfg p (.runner r q) k w a = (handleLock p (.runner r q) .wounded a, true) := by
                simp only [tryLock, ht]
                rw [if_neg (by simp [hs]), if_neg hro, if_pos hwd]
              rw [this]
              exact .keeps (handleLock_keeps p (.runner r q) .wounded a)
            · have hr : cfg.readonly = true → w = false := by
                intro h; simpa [h] using hro
              have : tryLock cfg p (.runner r q) k w a =
                  (({ a with locks := remember a.locks k w }, [.lock (.runner r q) t k w]), true) := by
                simp only [tryLock, ht]
                rw [if_neg (by simp [hs]), if_neg hro, if_neg hwd, if_pos (hp k), ← ht]
                congr 3
                split
                · next h => rw [hr h]
                · rfl
              rw [this]
              exact .asked r q k t w hs rfl rfl hr
        · apply refused
          simp only [tryLock, ht]
          rw [if_pos hs]
  | ran res =>
    simp only [step]
    unfold handleRun
    split
    · exact .keeps (.quiet rfl rfl nolock)
    · split
      · exact .keeps ((doCommit_keeps cfg p _).to rfl)
      · exact .keeps ((doResult_keeps p _).to rfl)
      · exact .keeps ((doResult_keeps p _).to rfl)
  | committed res =>
    simp only [step]
    unfold handleCommit
    split
    · exact .keeps (.quiet rfl rfl nolock)
    · split
      · exact .keeps (doFinish_keeps p a)
      all_goals exact .keeps ((doResult_keeps p _).to rfl)
  | finished ok =>
    simp only [step]
    unfold handleFinish
    split
    · exact .keeps (.quiet rfl rfl nolock)
    · split <;> exact .keeps ((doResult_keeps p _).to rfl)
  | rolledBack ok =>
    simp only [step]
    unfold handleRollback
    split
    · exact .keeps (.quiet rfl rfl nolock)
    · split
      · dsimp only
        split
        · exact .keeps ((doFinish_keeps p _).to rfl)
        · exact .keeps ((doResult_keeps p _).to rfl)
      · exact .keeps ((doResult_keeps p _).to rfl)

/-! ### When a runner starts -/

theorem doRunner_none (p : Can) (a : Agent) : ∀ r v, .start r v ∉ (doResult p a).2 := by
  intro r v hm
  have h := (doResult_silent p a).starts
  have : r ∈ (doResult p a).2.filterMap startOf := List.mem_filterMap.mpr ⟨_, hm, rfl⟩
  rw [h] at this
  cases this

theorem handleFunction_start {cfg : Config} {p : Can} {a : Agent} (hp : ∀ k, p.lock k = true)
    (hw : Well cfg a.locks) {t : Nat} (ht : a.ticket = some t) (hn : a.wounded = false) {res : LockRes}
    {r v : Nat} (h : .start r v ∈ (handleFunction cfg p res a).2) : a.locks = [] := by
  unfold handleFunction at h
  split at h
  · cases h
  · next hs =>
    split at h
    · next v =>
      dsimp only at h
      split at h
      · next hl => simpa using hl
      · have he := acquire_exact (cfg := cfg) (p := p) (id := a.counters.length) (t := t) hp (l := a.locks)
          (a := { a with
            state := .functionStarted
            locks := []
            counters := a.counters ++ [{ got := 0, need := a.locks.length, value := v }] })
          (by simpa using hw) rfl ht hn
        rw [he] at h
        simp at h
    all_goals exact absurd h (doRunner_none p _ r _)

theorem doStart_start {cfg : Config} {p : Can} {a : Agent} (hp : ∀ k, p.lock k = true)
    (hw : Well cfg a.locks) {t : Nat} (ht : a.ticket = some t) (hn : a.wounded = false)
    {r v : Nat} (h : .start r v ∈ (doStart cfg p a).2) : a.locks = [] := by
  have go : ∀ v', .start r v ∈ (handleFunction cfg p (.value v') { a with state := .functionGetSent }).2 →
      a.locks = [] := fun v' h =>
    handleFunction_start (a := { a with state := .functionGetSent }) hp hw ht hn h
  unfold doStart at h
  simp only [ht] at h
  split at h
  · simp [crash] at h
  · rw [← ht] at h
    split at h
    · exact go _ h
    · split at h
      · exact go _ h
      · split at h
        · simp at h
        · exact absurd h (doRunner_none p _ r v)

/-- A runner starts when no locks are remembered, or all of them have been acquired again. -/
theorem step_start {cfg : Config} {p : Can} {a : Agent} (hp : ∀ k, p.lock k = true)
    (hw : Well cfg a.locks) (rest : Rest a) {e : Event} {r v : Nat} (h : .start r v ∈ (step cfg p a e).2) :
    a.state = .functionStarted ∨ a.locks = [] := by
  by_cases hs : a.state = .functionStarted
  · exact .inl hs
  · refine .inr ?_
    have silent : ∀ {o : List Out}, Silent o → .start r v ∉ o := by
      intro o ho hm
      have : r ∈ o.filterMap startOf := List.mem_filterMap.mpr ⟨_, hm, rfl⟩
      rw [ho.starts] at this
      cases this
    cases e with
    | exec =>
      simp only [step] at h
      unfold exec at h
      split at h
      case h_4 hs =>
        obtain ⟨t, ht⟩ := rest.ticket (by simp [hs]) (by simp [hs]) (by simp [hs])
        exact doStart_start (a := { a with result := none, wounded := false }) hp hw ht rfl h
      all_goals first
        | exact absurd h (silent (doCommit_silent cfg p a))
        | exact absurd h (silent (doRollback_silent p _ a))
        | exact absurd h (silent (doFinish_silent p a))
        | (cases h; done)
        | (dsimp only at h
           split at h
           · simp at h
           · exact absurd h (doRunner_none p _ r v))
    | begun res =>
      simp only [step] at h
      unfold handleBegin at h
      split at h
      · cases h
      · next hs =>
        have hs : a.state = .beginSent := by simpa using hs
        split at h
        · next n =>
          exact doStart_start (a := { a with ticket := some n }) (t := n) hp hw rfl
            (rest.wounded (.inr (.inl hs))) h
        · exact absurd h (doRunner_none p _ r v)
    | locked c res =>
      cases c with
      | function =>
        simp only [step] at h
        by_cases hs : a.state = .functionGetSent
        · obtain ⟨t, ht⟩ := rest.ticket (by simp [hs]) (by simp [hs]) (by simp [hs])
          exact handleFunction_start hp hw ht (rest.wounded (by simp [hs])) h
        · unfold handleFunction at h
          rw [if_pos hs] at h
          cases h
      | again id =>
        simp only [step] at h
        unfold handleLock at h
        rw [if_pos hs] at h
        cases h
      | runner r' q =>
        simp only [step] at h
        unfold handleLock at h
        rw [if_pos hs] at h
        cases h
    | request r' q k w =>
      simp only [step] at h
      split at h
      · cases h
      · unfold tryLock at h
        cases ht : a.ticket with
        | none => simp [ht, crash] at h
        | some t => simp [ht, hs, M.then] at h
    | ran res =>
      simp only [step] at h
      unfold handleRun at h
      rw [if_pos hs] at h
      cases h
    | committed res =>
      simp only [step] at h
      unfold handleCommit at h
      split at h
      · cases h
      · split at h
        · exact absurd h (silent (doFinish_silent p a))
        all_goals exact absurd h (doRunner_none p _ r v)
    | finished ok =>
      simp only [step] at h
      unfold handleFinish at h
      split at h
      · cases h
      · split at h <;> exact absurd h (doRunner_none p _ r v)
    | rolledBack ok =>
      simp only [step] at h
      unfold handleRollback at h
      split at h
      · cases h
      · split at h
        · dsimp only at h
          split at h
          · exact absurd h (silent (doFinish_silent p _))
          · exact absurd h (doRunner_none p _ r v)
        · exact absurd h (doRunner_none p _ r v)

/-- The function starts to run without a request for a lock only when none is remembered. -/
theorem keeps_empty {cfg : Config} {p : Can} {a : Agent} (hp : ∀ k, p.lock k = true)
    (hw : Well cfg a.locks) (rest : Rest a) {e : Event} (hs : a.state ≠ .functionStarted)
    (hs' : (step cfg p a e).1.state = .functionStarted) (hk : Keeps a (step cfg p a e)) : a.locks = [] := by
  cases outcome (cfg := cfg) (p := p) rest e with
  | idle _ h => rw [h] at hs'; exact absurd hs' hs
  | run t h _ ht ho =>
    have hb : Begins a (step cfg p a e) := by
      rcases h with (⟨h1, he⟩ | ⟨h1, he, h2⟩) | ⟨h1, h2, v, he⟩
      · subst he
        have hx : step cfg p a (.begun (some t)) = doStart cfg p { a with ticket := some t } := by
          simp only [step, handleBegin]
          rw [if_neg (by simp [h1])]
        rw [hx] at hs' ⊢
        have := doStart_detail (a := { a with ticket := some t }) (.inl h1) rfl
          (rest.wounded (.inr (.inl h1))) hs'
        cases this with
        | run v ho hr => exact .run v ho hr
        | acquire id n hn h0 hp hc hs hb => exact .acquire id n hn h0 hp hc hs hb
      · subst he
        have hx : step cfg p a .exec = doStart cfg p { a with result := none, wounded := false } := by
          simp only [step, exec, h1]
        rw [hx] at hs' ⊢
        have := doStart_detail (a := { a with result := none, wounded := false }) (.inr h1) h2 rfl hs'
        cases this with
        | run v ho hr => exact .run v ho hr
        | acquire id n hn h0 hp hc hs hb => exact .acquire id n hn h0 hp hc hs hb
      · subst he
        exact handleFunction_detail h1 h2 (rest.wounded (by simp [h1])) hs'
    cases hb with
    | run v ho hr =>
      have : .start a.runners v ∈ (step cfg p a e).2 := by rw [ho]; simp
      rcases step_start hp hw rest this with h | h
      · exact absurd h hs
      · exact h
    | acquire id n hn h0 hpos hc hs2 hb2 =>
      exfalso
      have : Cont.again id ∈ (step cfg p a e).2.filterMap lockCont := by
        rw [hc]; exact List.mem_replicate.mpr ⟨by omega, rfl⟩
      obtain ⟨x, hx, hxc⟩ := List.mem_filterMap.mp this
      cases x with
      | lock c t k w =>
        have := hk.none c t k w hx
        subst this
        simp [lockCont] at hxc
      | _ => simp [lockCont] at hxc
  | begun _ _ h => rw [h] at hs'; cases hs'
  | beginFailed _ h => rw [h] at hs'; cases hs'
  | get _ _ h => rw [h] at hs'; cases hs'
  | fall _ _ h =>
    cases h with
    | sent _ h => rw [h] at hs'; cases hs'
    | stuck _ h => rw [h] at hs'; cases hs'
  | commit _ _ _ _ h => rw [h] at hs'; cases hs'
  | finish _ _ _ h => rw [h] at hs'; cases hs'
  | finishFailed _ _ _ h => rw [h] at hs'; cases hs'
  | complete _ _ _ _ h => rw [h] at hs'; cases hs'
  | rollbackFailed _ _ _ h => rw [h] at hs'; cases hs'
  | retry _ _ _ h => rw [h] at hs'; cases hs'
  | crash h hm => rw [hm] at hs'; rw [h.1] at hs'; cases hs'

/-! ### The invariant -/

structure Known (cfg : Config) (h : Trace) (a : Agent) : Prop where
  well : Well cfg a.locks
  covers : ∀ k w, Asked h k w → Holds a.locks k w
  only : ∀ k w, (k, w) ∈ a.locks → Asked h k w
  again : a.state = .functionStarted → ∀ k w, Asked (before h) k w →
    ∃ w', AskedAgain (since h) k w' ∧ (w = true → w' = true)

theorem before_sub (h : Trace) : ∀ x ∈ before h, x ∈ h := by
  induction h with
  | nil => simp [before]
  | cons x h ih =>
    obtain ⟨e, o⟩ := x
    simp only [before]
    split
    · exact fun x hx => hx
    · exact fun x hx => List.mem_cons_of_mem _ (ih x hx)

theorem Asked.mono {h h' : Trace} {k : Nat} {w : Bool} (hs : ∀ x ∈ h, x ∈ h') : Asked h k w → Asked h' k w :=
  fun ⟨x, hx, y⟩ => ⟨x, hs x hx, y⟩

/-- An event after which the function runs requests no rollback. -/
theorem stays {cfg : Config} {p : Can} {a : Agent} (rest : Rest a) (e : Event)
    (hs : (step cfg p a e).1.state = .functionStarted) :
    (step cfg p a e).2.any isRollback = false := by
  cases outcome (cfg := cfg) (p := p) rest e with
  | idle _ _ _ _ ho => exact ho.norollback
  | run _ _ _ _ ho => exact ho.norollback
  | begun _ _ h => rw [h] at hs; cases hs
  | beginFailed _ h => rw [h] at hs; cases hs
  | get _ _ h => rw [h] at hs; cases hs
  | fall _ _ h =>
    cases h with
    | sent _ h => rw [h] at hs; cases hs
    | stuck _ h => rw [h] at hs; cases hs
  | commit _ _ _ _ h => rw [h] at hs; cases hs
  | finish _ _ _ h => rw [h] at hs; cases hs
  | finishFailed _ _ _ h => rw [h] at hs; cases hs
  | complete _ _ _ _ h => rw [h] at hs; cases hs
  | rollbackFailed _ _ _ h => rw [h] at hs; cases hs
  | retry _ _ _ h => rw [h] at hs; cases hs
  | crash h hm => rw [hm] at hs; rw [h.1] at hs; cases hs

theorem Asked.cons {h : Trace} {e : Event} {o : List Out} {k : Nat} {w : Bool} (ha : Asked ((e, o) :: h) k w) :
    (∃ c t, .lock c t k w ∈ o ∧ c ≠ .function) ∨ Asked h k w := by
  obtain ⟨x, hx, y⟩ := ha
  rcases List.mem_cons.mp hx with hx | hx
  · subst hx; exact .inl y
  · exact .inr ⟨x, hx, y⟩

theorem AskedAgain.cons {h : Trace} {x : Event × List Out} {k : Nat} {w : Bool} (ha : AskedAgain h k w) :
    AskedAgain (x :: h) k w :=
  let ⟨y, hy, z⟩ := ha
  ⟨y, List.mem_cons_of_mem _ hy, z⟩

theorem Known.step {cfg : Config} {p : Can} {h : Trace} {a : Agent} (kn : Known cfg h a) (rest : Rest a)
    (hp : ∀ k, p.lock k = true) (e : Event) :
    Known cfg ((e, (Agent.step cfg p a e).2) :: h) (Agent.step cfg p a e).1 := by
  have hmono : ∀ {k w}, Asked h k w → Asked ((e, (Agent.step cfg p a e).2) :: h) k w :=
    fun ha => ha.mono fun x hx => List.mem_cons_of_mem _ hx
  have hagain : a.state = .functionStarted → (Agent.step cfg p a e).1.state = .functionStarted →
      ∀ k w, Asked (before ((e, (Agent.step cfg p a e).2) :: h)) k w →
      ∃ w', AskedAgain (since ((e, (Agent.step cfg p a e).2) :: h)) k w' ∧ (w = true → w' = true) := by
    intro hs hs' k w ha
    have hn := stays rest e hs'
    simp only [before, since, hn, Bool.false_eq_true, if_false] at ha ⊢
    obtain ⟨w', h1, h2⟩ := kn.again hs k w ha
    exact ⟨w', h1.cons, h2⟩
  have hempty : a.state ≠ .functionStarted → (Agent.step cfg p a e).1.state = .functionStarted →
      a.locks = [] → ∀ k w, Asked (before ((e, (Agent.step cfg p a e).2) :: h)) k w → False := by
    intro hs hs' hl k w ha
    have hn := stays rest e hs'
    simp only [before, hn, Bool.false_eq_true, if_false] at ha
    obtain ⟨w', hm, _⟩ := kn.covers k w (ha.mono (before_sub h))
    rw [hl] at hm
    cases hm
  cases step_locks (p := p) hp kn.well rest e with
  | keeps hk =>
    refine ⟨hk.locks ▸ kn.well, fun k w ha => ?_, fun k w hm => ?_, fun hs' => ?_⟩
    · rw [hk.locks]
      rcases ha.cons with ⟨c, t, hm, hc⟩ | ha
      · exact absurd (hk.none c t k w hm) hc
      · exact kn.covers k w ha
    · rw [hk.locks] at hm
      exact hmono (kn.only k w hm)
    · by_cases hs : a.state = .functionStarted
      · exact hagain hs hs'
      · intro k w ha
        refine (hempty hs hs' ?_ k w ha).elim
        exact keeps_empty hp kn.well rest hs hs' hk
  | asked r q k t w hs hl ho hr =>
    refine ⟨?_, fun k' w' ha => ?_, fun k' w' hm => ?_, hagain hs⟩
    · rw [hl]
      refine ⟨remember_keys kn.well.nodup k w, fun h x hx => ?_⟩
      rcases remember_mem hx with hx | hx
      · exact kn.well.read h x hx
      · rw [hx]; exact hr h
    · rw [hl]
      rcases ha.cons with ⟨c, t', hm, hc⟩ | ha
      · rw [ho] at hm
        simp only [List.mem_singleton, Out.lock.injEq] at hm
        obtain ⟨_, _, rfl, rfl⟩ := hm
        exact remember_holds _ _ _
      · exact (kn.covers k' w' ha).remember kn.well.nodup k w
    · rw [hl] at hm
      rcases remember_mem hm with hm | hm
      · exact hmono (kn.only k' w' hm)
      · cases hm
        exact ⟨_, List.mem_cons_self, .runner r q, t, by rw [ho]; simp, by simp⟩
  | again id t hs hl ho =>
    refine ⟨hl ▸ kn.well, fun k w ha => ?_, fun k w hm => ?_, fun hs' k w ha => ?_⟩
    · rw [hl]
      rcases ha.cons with ⟨c, t', hm, hc⟩ | ha
      · rw [ho] at hm
        obtain ⟨x, hx, he⟩ := List.mem_map.mp hm
        simp only [Out.lock.injEq] at he
        obtain ⟨_, _, rfl, rfl⟩ := he
        exact ⟨x.2, hx, fun h => h⟩
      · exact kn.covers k w ha
    · rw [hl] at hm
      exact hmono (kn.only k w hm)
    · have hn := stays rest e hs'
      simp only [before, since, hn, Bool.false_eq_true, if_false] at ha ⊢
      obtain ⟨w', hm, hw⟩ := kn.covers k w (ha.mono (before_sub h))
      refine ⟨w', ⟨_, List.mem_cons_self, id, t, ?_⟩, hw⟩
      rw [ho]
      exact List.mem_map.mpr ⟨_, hm, rfl⟩

theorem Reaching.known {cfg : Config} {h : Trace} {a : Agent} (r : Reaching cfg h a) : Known cfg h a := by
  induction r with
  | start =>
    exact ⟨⟨.nil, by simp⟩, fun k w ⟨x, hx, _⟩ => (nomatch hx), fun k w hm => (nomatch hm), fun hs => (nomatch hs)⟩
  | step r alive p hp e ih => exact ih.step (r.run.rest alive) hp e

end Verif.Parsec.Agent
