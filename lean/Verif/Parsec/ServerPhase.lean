import Verif.Parsec.ServerAgent

/-!
# What is true in each state of an agent
-/
namespace Verif.Parsec.Broker.Server

/-! ### Events of the broker and one ticket -/

/-- In the current attempt nothing but locks was asked for. -/
def Clean (t : Tn) (h : Hist) : Prop :=
  ∀ x ∈ attempt t h, (∀ cb u p, x.1 ≠ .commit cb t u p) ∧
    ∀ c ∈ x.2.calls, ∀ i, c.ticket = some (i, t) → ∃ k ty f cb, c = .tryLock i t k ty f cb

/-- The broker forgot the ticket or rolled it back. -/
def Dead (s : State) (t : Tn) : Prop := ∀ tk, s.tickets.lookup t = some tk → tk.state = .aborted

/-- The user was told that the ticket is rolled back, and nothing happened with it since. -/
structure Undone (t : Tn) (h : Hist) (s : State) : Prop where
  dead : Dead s t
  told : ∃ cb post e o pre, h = post ++ (e, o) :: pre ∧ Said.rollback cb t none ∈ o.said ∧
    ∀ x ∈ post, (∀ c ∈ x.2.calls, ∀ i, c.ticket ≠ some (i, t)) ∧ ∀ cb u p, x.1 ≠ .commit cb t u p

/-- An event that changes nothing for `t`. -/
structure Calm (t : Tn) (s : State) (e : Event) (s' : State) (o : Out) : Prop where
  quiet : o.quiet t
  user : ∀ cb u p, e ≠ .commit cb t u p
  dead : Dead s t → Dead s' t

theorem calm_other {h : Hist} {s s' : State} {e : Event} {o : Out} (inv : Inv h s) (hp : Plain h e)
    (hs : step s e = some (s', o)) {t : Tn} (ht : e.ticket ≠ some t) : Calm t s e s' o := by
  have hu : ∀ cb u p, e ≠ .commit cb t u p := by
    rintro cb u p rfl
    exact ht rfl
  cases he : e.ticket with
  | none =>
    obtain ⟨h1, h2, h3⟩ := no_ticket inv hp he hs
    exact ⟨⟨by rw [h2]; simp, h3 t⟩, hu, by rw [h1]; exact id⟩
  | some t0 =>
    have hst := step_next hp.plain he hs
    have hne : t ≠ t0 := by
      rintro rfl
      exact ht he
    refine ⟨⟨fun c hc i h1 => ?_, hst.saidOther t hne⟩, hu, fun hd tk h1 => hd tk (by rw [← hst.other t hne]; exact h1)⟩
    obtain ⟨j, h2⟩ := calls_ticket inv hp he hs c hc
    rw [h1] at h2
    cases h2
    exact hne rfl

/-- A ticket that was rolled back stays so. -/
theorem next_aborted {e : Event} {tk tk' : Ticket} (hs : tk.state = .aborted) (hl : ∀ cb t ok, e ≠ .tryLock cb t ok)
    (hn : (next e (some tk)).1 = some tk') : tk'.state = .aborted := by
  cases e with
  | ticketNumber cb r => cases r <;> simp [next, stay] at hn <;> rw [← hn, hs]
  | tryLock cb t ok => exact absurd rfl (hl cb t ok)
  | foundKey cb t k ty r ok => cases r <;> simp [next, stay, hs] at hn <;> rw [← hn, hs]
  | locked cb t k i r =>
    cases r with
    | error e => simp [next, stay] at hn; rw [← hn, hs]
    | value v =>
      simp only [next] at hn
      repeat' split at hn
      all_goals
        simp only [stay, Option.some.injEq] at hn
        rw [← hn]
        exact hs
  | commit cb t u p =>
    simp only [next, Option.some.injEq] at hn
    rw [← hn, Ticket.commit_state, hs]
  | prepared c t i r p => simp [next, stay, hs] at hn; rw [← hn, hs]
  | committed c t i r p => simp [next, stay, hs] at hn; rw [← hn, hs]
  | rollback cb t p => simp [next, stay, hs] at hn; rw [← hn, hs]
  | rolledBack c t i r p => simp [next, stay, hs] at hn; rw [← hn, hs]
  | finish cb t p => simp [next, stay, hs] at hn
  | finished c t i r => simp [next, stay, hs] at hn; rw [← hn, hs]
  | recover cb => simp [next, stay] at hn; rw [← hn, hs]
  | gotTickets cb i r p => simp [next, stay] at hn; rw [← hn, hs]

theorem calm_dead {h : Hist} {s s' : State} {e : Event} {o : Out} (hp : Plain h e)
    (hs : step s e = some (s', o)) {t : Tn} (hi : Issued t h) (hd : Dead s t)
    (hl : ∀ cb t ok, e ≠ .tryLock cb t ok) (hu : ∀ cb u p, e ≠ .commit cb t u p) (ht : e.ticket = some t) :
    Calm t s e s' o := by
  have hst := step_next hp.plain ht hs
  have h1 := hst.own
  have h2 := hst.calls
  have h3 := hst.said
  cases hlk : s.tickets.lookup t with
  | none =>
    rw [hlk] at h1 h2 h3
    obtain ⟨n1, n2, n3⟩ := next_none e
    rw [n1] at h2
    rw [n2] at h3
    dsimp only at h1 h2 h3
    refine ⟨⟨by rw [h2]; simp, h3⟩, hu, fun _ tk h4 => ?_⟩
    rcases n3 with n3 | ⟨cb, q, rfl, _⟩
    · rw [n3, h4] at h1; cases h1
    · obtain ⟨t', m⟩ := q
      cases ht
      exact absurd hi hp
  | some tk =>
    rw [hlk] at h1 h2 h3
    have h0 := hd tk hlk
    dsimp only at h1 h2 h3
    refine ⟨⟨fun c hc i h4 => ?_, ?_⟩, hu, fun _ tk' h4 => next_aborted h0 hl (by rw [← h1, h4])⟩
    · rw [h2] at hc
      have hm := next_makes ht hc
      generalize (next e (some tk)).1 = nx at hm
      cases hm with
      | tryLock hb => rw [h0] at hb; cases hb
      | prepare hb => rw [h0] at hb; cases hb
      | commit hb => rw [h0] at hb; rcases hb with hb | hb <;> cases hb
      | rollback hb => rw [h0] at hb; cases hb
      | finish hb => rw [h0] at hb; cases hb
    · cases hx : o.said.any (Said.aborts t) with
      | false => rfl
      | true =>
        rw [hx] at h3
        have := (next_abort h3.symm).1
        rw [h0] at this; cases this

/-- Which events end an attempt. -/
theorem abort_event {e : Event} {tk : Ticket} (hn : (next e (some tk)).2.2 = true) :
    (∃ cb t p, e = .rollback cb t p) ∨ ∃ c t i p, e = .rolledBack c t i none p := by
  rcases (next_abort hn).2.2 with ⟨tk', _, _, h | ⟨c, t, i, p, h, _⟩⟩
  · cases e with
    | rollback cb t p => exact .inl ⟨cb, t, p, rfl⟩
    | rolledBack c t i r p =>
      cases r with
      | none => exact .inr ⟨c, t, i, p, rfl⟩
      | some r =>
        simp only [next] at hn
        repeat' split at hn
        all_goals simp_all [stay]
    | ticketNumber cb r => cases r <;> simp [next, stay] at hn
    | foundKey cb t k ty r ok =>
      cases r with
      | none => simp [next, stay] at hn
      | some i =>
        simp only [next] at hn
        repeat' split at hn
        all_goals simp [stay] at hn
    | locked cb t k i r =>
      cases r with
      | error e => simp [next, stay] at hn
      | value v =>
        simp only [next] at hn
        repeat' split at hn
        all_goals simp [stay] at hn
    | finish cb t p =>
      simp only [next] at hn
      split at hn <;> simp [stay] at hn
    | finished c t i r =>
      simp only [next] at hn
      repeat' split at hn
      all_goals simp [stay] at hn
    | tryLock cb t ok => simp [next, stay] at hn
    | recover cb => simp [next, stay] at hn
    | gotTickets cb i r p => simp [next, stay] at hn
    | commit cb t u p => simp [next] at hn
    | prepared c t i r p =>
      simp only [next] at hn
      split at hn <;> simp [stay] at hn
    | committed c t i r p =>
      simp only [next] at hn
      repeat' split at hn
      all_goals simp [stay] at hn
  · exact .inr ⟨c, t, i, p, h⟩

/-- The calls of the broker that ask for locks, and the answers to them. -/
def locking' : Event → Bool
  | .ticketNumber .. => true
  | .tryLock .. => true
  | .foundKey .. => true
  | .locked .. => true
  | _ => false

theorem next_locks {e : Event} (he : locking' e = true) {tk : Ticket} {c : Call} (hc : c ∈ (next e (some tk)).2.1) :
    ∃ i t k ty f cb, c = .tryLock i t k ty f cb := by
  cases e with
  | ticketNumber cb r => cases r <;> simp [next, stay] at hc
  | tryLock cb t ok => simp [next, stay] at hc
  | foundKey cb t k ty r ok =>
    cases r with
    | none => simp [next, stay] at hc
    | some i =>
      simp only [next] at hc
      repeat' split at hc
      all_goals simp [stay] at hc
      · exact ⟨_, _, _, _, _, _, hc⟩
  | locked cb t k i r =>
    cases r with
    | error e => simp [next, stay] at hc
    | value v =>
      simp only [next] at hc
      repeat' split at hc
      all_goals simp [stay] at hc
  | _ => cases he

theorem clean_not {t : Tn} {h : Hist} (hc : Clean t h) {c : Call} {i : Nat} (ht : c.ticket = some (i, t))
    (hn : ∀ k ty f cb, c ≠ .tryLock i t k ty f cb) : ¬Asked t h c := by
  rintro ⟨x, hx, h1⟩
  obtain ⟨k, ty, f, cb, h2⟩ := (hc x hx).2 c h1 i ht
  exact hn k ty f cb h2

theorem Clean.not_rollback {t : Tn} {h : Hist} (hc : Clean t h) : ¬RollbackAsked t h := by
  rintro ⟨i, c, h1⟩
  exact clean_not hc rfl (by simp) h1

theorem Clean.not_prepare {t : Tn} {h : Hist} (hc : Clean t h) (i : Nat) : ¬PrepareAsked t h i := by
  rintro ⟨u, c, h1⟩
  exact clean_not hc rfl (by simp) h1

theorem Clean.not_commit {t : Tn} {h : Hist} (hc : Clean t h) (u : List (Key × Value)) : ¬UserCommit t h u := by
  rintro ⟨x, hx, cb, p, h1⟩
  exact (hc x hx).1 cb u p h1

theorem Clean.calm {t : Tn} {h : Hist} (hc : Clean t h) {s s' : State} {e : Event} {o : Out} (hx : Calm t s e s' o) :
    Clean t ((e, o) :: h) := by
  intro x hm
  rw [attempt_cons hx.quiet.2] at hm
  rcases List.mem_cons.mp hm with rfl | hm
  · exact ⟨hx.user, fun c h1 i h2 => absurd h2 (hx.quiet.1 c h1 i)⟩
  · exact hc x hm

/-- While only locks are asked for, answers lead to nothing else. -/
theorem clean_step {t : Tn} {h : Hist} {s s' : State} {e : Event} {o : Out} (hp : Plain h e)
    (hs : step s e = some (s', o)) (ht : e.ticket = some t) (hc : Clean t h)
    (he : isAnswer e = true ∨ locking' e = true) :
    o.said.any (Said.aborts t) = false ∧ Clean t ((e, o) :: h) := by
  have hlk : locking' e = true := by
    rcases he with he | he
    · cases e with
      | ticketNumber => rfl
      | locked => rfl
      | prepared c t' i r p =>
        cases ht
        obtain ⟨_, u, h1⟩ := hp
        exact absurd h1 (clean_not hc rfl (by simp))
      | committed c t' i r p => cases ht; exact absurd hp.2 (clean_not hc rfl (by simp))
      | rolledBack c t' i r p => cases ht; exact absurd hp.2 (clean_not hc rfl (by simp))
      | finished c t' i r => cases ht; exact absurd hp.2 (clean_not hc rfl (by simp))
      | _ => cases he
    · exact he
  have hst := step_next hp.plain ht hs
  have h2 := hst.calls
  have h3 := hst.said
  have hu : ∀ cb u p, e ≠ .commit cb t u p := by
    rintro cb u p rfl
    cases hlk
  have fin : o.said.any (Said.aborts t) = false → (∀ c ∈ o.calls, ∃ i t k ty f cb, c = .tryLock i t k ty f cb) →
      o.said.any (Said.aborts t) = false ∧ Clean t ((e, o) :: h) := by
    intro h4 h5
    refine ⟨h4, fun x hm => ?_⟩
    rw [attempt_cons h4] at hm
    rcases List.mem_cons.mp hm with rfl | hm
    · refine ⟨hu, fun c h1 i h6 => ?_⟩
      obtain ⟨i', t', k, ty, f, cb, rfl⟩ := h5 c h1
      cases h6
      exact ⟨k, ty, f, cb, rfl⟩
    · exact hc x hm
  cases hlu : s.tickets.lookup t with
  | none =>
    rw [hlu] at h2 h3
    rw [(next_none e).1] at h2
    rw [(next_none e).2.1] at h3
    dsimp only at h2 h3
    exact fin h3 (by rw [h2]; simp)
  | some tk =>
    rw [hlu] at h2 h3
    dsimp only at h2 h3
    refine fin ?_ (fun c h1 => next_locks hlk (by rw [← h2]; exact h1))
    cases hx : o.said.any (Said.aborts t) with
    | false => rfl
    | true =>
      rw [hx] at h3
      rcases abort_event h3.symm with ⟨_, _, _, rfl⟩ | ⟨_, _, _, _, rfl⟩ <;> cases hlk

/-- If no rollback was asked for, other events do not ask for it. -/
theorem straight_step {t : Tn} {h : Hist} {s s' : State} {e : Event} {o : Out} (hp : Plain h e)
    (hs : step s e = some (s', o)) (ht : e.ticket = some t) (hc : ¬RollbackAsked t h)
    (he : ∀ cb t p, e ≠ .rollback cb t p) :
    o.said.any (Said.aborts t) = false ∧ ¬RollbackAsked t ((e, o) :: h) := by
  have hst := step_next hp.plain ht hs
  have h2 := hst.calls
  have h3 := hst.said
  cases hlu : s.tickets.lookup t with
  | none =>
    rw [hlu] at h2 h3
    rw [(next_none e).1] at h2
    rw [(next_none e).2.1] at h3
    dsimp only at h2 h3
    refine ⟨h3, ?_⟩
    rintro ⟨i, c, h4⟩
    rcases h4.cases with h4 | h4
    · dsimp only at h4
      rw [h2] at h4; cases h4
    · exact hc ⟨i, c, h4⟩
  | some tk =>
    rw [hlu] at h2 h3
    dsimp only at h2 h3
    constructor
    · cases hx : o.said.any (Said.aborts t) with
      | false => rfl
      | true =>
        rw [hx] at h3
        rcases abort_event h3.symm with ⟨_, _, _, rfl⟩ | ⟨_, _, _, _, rfl⟩
        · exact absurd rfl (he _ _ _)
        · cases ht
          exact absurd ⟨_, _, hp.2⟩ hc
    · rintro ⟨i, c, h4⟩
      rcases h4.cases with h4 | h4
      · dsimp only at h4
        rw [h2] at h4
        have hm := next_makes ht h4
        generalize (next e (some tk)).1 = nx at hm
        cases hm with
        | rollback hb => exact he _ _ _ rfl
      · exact hc ⟨i, c, h4⟩

theorem undone_new {t : Tn} {h : Hist} {s s' : State} {e : Event} {o : Out} (inv : Inv h s) (hp : Plain h e)
    (hs : step s e = some (s', o)) (hx : o.said.any (Said.aborts t) = true) : Undone t ((e, o) :: h) s' := by
  obtain ⟨tk, _, hl, hst, hn⟩ := aborts_next inv hp hs hx
  obtain ⟨_, _, tk', h1, h2, _⟩ := next_abort hn
  refine ⟨fun tk2 h3 => ?_, ?_⟩
  · have h4 := hst.own
    rw [hl, h1] at h4
    dsimp only at h4
    rw [h4] at h3
    cases h3
    exact h2
  · obtain ⟨y, hy, h3⟩ := List.any_eq_true.mp hx
    cases y with
    | rollback cb t' r =>
      cases r with
      | none =>
        simp only [Said.aborts, decide_eq_true_eq] at h3
        subst h3
        exact ⟨cb, [], e, o, h, rfl, hy, by simp⟩
      | some r => simp [Said.aborts] at h3
    | _ => simp [Said.aborts] at h3

theorem Undone.calm {t : Tn} {h : Hist} {s s' : State} {e : Event} {o : Out} (hu : Undone t h s)
    (hx : Calm t s e s' o) : Undone t ((e, o) :: h) s' := by
  refine ⟨hx.dead hu.dead, ?_⟩
  obtain ⟨cb, post, e', o', pre, rfl, h2, h3⟩ := hu.told
  refine ⟨cb, (e, o) :: post, e', o', pre, rfl, h2, fun x hm => ?_⟩
  rcases List.mem_cons.mp hm with rfl | hm
  · exact ⟨hx.quiet.1, hx.user⟩
  · exact h3 x hm

theorem Undone.clean {t : Tn} {h : Hist} {s : State} (hu : Undone t h s) : Clean t h := by
  obtain ⟨cb, post, e', o', pre, rfl, h2, h3⟩ := hu.told
  have hx : o'.said.any (Said.aborts t) = true := List.any_eq_true.mpr ⟨_, h2, by simp [Said.aborts]⟩
  intro x hm
  have hm' : x ∈ post := by
    clear h3 hu
    induction post with
    | nil =>
      rw [List.nil_append, attempt_end hx] at hm
      cases hm
    | cons y post ih =>
      rw [List.cons_append] at hm
      rcases (mem_attempt_cons hm).2 with rfl | hm
      · exact List.mem_cons_self
      · exact List.mem_cons_of_mem _ (ih hm)
  exact ⟨(h3 x hm').2, fun c h1 i h4 => absurd h4 ((h3 x hm').1 c h1 i)⟩

theorem userCommit_cases {t : Tn} {h : Hist} {e : Event} {o : Out} {u : List (Key × Value)}
    (hu : UserCommit t ((e, o) :: h) u) : (∃ cb p, e = .commit cb t u p) ∨ UserCommit t h u := by
  obtain ⟨x, hx, cb, p, h1⟩ := hu
  rcases (mem_attempt_cons hx).2 with rfl | hx
  · exact .inl ⟨cb, p, h1⟩
  · exact .inr ⟨x, hx, cb, p, h1⟩

/-- Whether the attempt ends. -/
def ends (t : Tn) (o : Out) : Nat := if o.said.any (Said.aborts t) then 1 else 0

theorem ends_false {t : Tn} {o : Out} (h : o.said.any (Said.aborts t) = false) : ends t o = 0 := by simp [ends, h]
theorem ends_true {t : Tn} {o : Out} (h : o.said.any (Said.aborts t) = true) : ends t o = 1 := by simp [ends, h]

/-! ### States of an agent -/

/-- A call that asks for a lock for `t`. -/
def AsksLock (t : Tn) (r : Req) : Prop := ∃ k w, r = .ask t k w ∨ r = .find t k w

/-- The broker reported to user `j` that `t` is committed. -/
def SaidCommitted (j : Nat) (t : Tn) (h : Hist) : Prop := ∃ x ∈ h, Said.commit j t none ∈ x.2.said

/-- In the current attempt the user asked to commit with nothing but `u`. -/
def OnlyCommit (t : Tn) (h : Hist) (u : List (Key × Value)) : Prop := ∀ u', UserCommit t h u' → u' = u

/-- What is known about agent `j` with ticket `t`, `todo` calls to make, and `n`
reports of a rollback on their way to it. -/
inductive Phase (cfg : Agent.Config) (κ : Nat → Key) (ν : Nat → Value) (j : Nat) (t : Tn) (h : Hist) (s : State)
    (a : Agent.Agent) (todo : List Req) (n : Nat) : Prop
  | locking (hs : a.state = .functionGetSent ∨ a.state = .functionStarted) (hc : Clean t h) (hn : n = 0)
      (hl : ∀ r ∈ todo, AsksLock t r)
  | committing (u : Agent.Update) (hs : a.state = .commitSent) (hr : a.result = some (.ok u)) (hn : n = 0)
      (hc : ¬RollbackAsked t h) (ht : todo = [] ∨ todo = [.commit t (Agent.payload cfg u)])
      (hu : OnlyCommit t h (enc κ ν (Agent.payload cfg u)))
  | falling (hs : a.state = .rollbackSent ∨ a.state = .rollbackFailed) (l r : List Req) (ht : todo = l ++ r)
      (hl : ∀ r ∈ l, AsksLock t r) (hr : r = [] ∨ r = [.rollback t]) (hc : l ≠ [] → Clean t h ∧ n = 0)
      (hn : n = 0 ∨ n = 1 ∧ Undone t h s)
  | fallen (hs : a.state = .rollbackComplete) (ht : todo = []) (hn : n = 0) (hu : Undone t h s)
  | finishing (hs : a.state = .finishSent ∨ a.state = .finishFailed ∨ a.state = .finishComplete)
      (ht : todo = [] ∨ todo = [.finish t]) (hn : n = 0) (hd : SaidCommitted j t h ∨ Undone t h s)
      (ho : ∀ u, a.result = some (.ok u) → SaidCommitted j t h ∧ OnlyCommit t h (enc κ ν (Agent.payload cfg u)))
      (he : ∀ x, a.result = some (.error x) → x ≠ .brokerUnreachable → x ≠ .finishError → Undone t h s)

theorem OnlyCommit.user {t : Tn} {h : Hist} {u : List (Key × Value)} (hu : OnlyCommit t h u) {e : Event} {o : Out}
    (hx : ∀ cb u p, e ≠ .commit cb t u p) : OnlyCommit t ((e, o) :: h) u := by
  intro u' h1
  rcases userCommit_cases h1 with ⟨cb, p, h2⟩ | h2
  · exact absurd h2 (hx cb u' p)
  · exact hu u' h2

theorem SaidCommitted.mono {j : Nat} {t : Tn} {h : Hist} (hc : SaidCommitted j t h) (x : Event × Out) :
    SaidCommitted j t (x :: h) := by
  obtain ⟨y, h1, h2⟩ := hc
  exact ⟨y, List.mem_cons_of_mem _ h1, h2⟩

section
variable {cfg : Agent.Config} {κ : Nat → Key} {ν : Nat → Value} {j : Nat} {t : Tn} {h : Hist} {s s' : State}
  {a : Agent.Agent} {todo : List Req} {n : Nat} {e : Event} {o : Out}

/-- Events that change nothing for the ticket. -/
theorem Phase.calm (ph : Phase cfg κ ν j t h s a todo n) (hx : Calm t s e s' o) :
    Phase cfg κ ν j t ((e, o) :: h) s' a todo n := by
  cases ph with
  | locking hs hc hn hl => exact .locking hs (hc.calm hx) hn hl
  | committing u hs hr hn hc ht hu =>
    exact .committing u hs hr hn (by rw [rollbackAsked_quiet hx.quiet]; exact hc) ht (hu.user hx.user)
  | falling hs l r ht hl hr hc hn =>
    refine .falling hs l r ht hl hr (fun h1 => ⟨(hc h1).1.calm hx, (hc h1).2⟩) ?_
    rcases hn with hn | ⟨hn, hu⟩
    · exact .inl hn
    · exact .inr ⟨hn, hu.calm hx⟩
  | fallen hs ht hn hu => exact .fallen hs ht hn (hu.calm hx)
  | finishing hs ht hn hd ho he =>
    refine .finishing hs ht hn ?_ (fun u h1 => ⟨(ho u h1).1.mono _, (ho u h1).2.user hx.user⟩)
      fun x h1 h2 h3 => (he x h1 h2 h3).calm hx
    rcases hd with hd | hd
    · exact .inl (hd.mono _)
    · exact .inr (hd.calm hx)

theorem told_no_abort {m : Nat} (hr : Run m h s) (hp : Plain h e) (hs : step s e = some (s', o))
    (hd : SaidCommitted j t h) : o.said.any (Said.aborts t) = false := by
  have h1 := told_of_said hr hd
  cases hx : o.said.any (Said.aborts t) with
  | false => rfl
  | true =>
    obtain ⟨tk, _, h2, _, h3⟩ := aborts_next hr.inv hp hs hx
    have := (next_abort h3).1
    rw [h1.state tk h2] at this
    cases this

/-- Falling without a request for a lock, and any event but a request for a lock. -/
theorem falling_step {m : Nat} (hrun : Run m h s) (hp : Plain h e) (hs : step s e = some (s', o)) (hi : Issued t h)
    (ht : e.ticket = some t) (hl : ∀ cb t ok, e ≠ .tryLock cb t ok) (hu : ∀ cb u p, e ≠ .commit cb t u p)
    (hn : n = 0 ∨ n = 1 ∧ Undone t h s) :
    n + ends t o = 0 ∨ n + ends t o = 1 ∧ Undone t ((e, o) :: h) s' := by
  rcases hn with rfl | ⟨rfl, hn⟩
  · cases hx : o.said.any (Said.aborts t) with
    | false => exact .inl (by rw [ends_false hx])
    | true => exact .inr ⟨by rw [ends_true hx], undone_new hrun.inv hp hs hx⟩
  · have hc := calm_dead hp hs hi hn.dead hl hu ht
    exact .inr ⟨by rw [ends_false hc.quiet.2], hn.calm hc⟩

/-- Answers. -/
theorem Phase.answer {m : Nat} (ph : Phase cfg κ ν j t h s a todo n) (hrun : Run m h s) (hp : Plain h e)
    (hs : step s e = some (s', o)) (hi : Issued t h) (ht : e.ticket = some t) (ha : isAnswer e = true) :
    Phase cfg κ ν j t ((e, o) :: h) s' a todo (n + ends t o) := by
  have hl : ∀ cb t ok, e ≠ .tryLock cb t ok := by rintro cb t ok rfl; cases ha
  have hu : ∀ cb u p, e ≠ .commit cb t u p := by rintro cb u p rfl; cases ha
  have hb : ∀ cb t p, e ≠ .rollback cb t p := by rintro cb t p rfl; cases ha
  cases ph with
  | locking h1 hc hn h2 =>
    obtain ⟨h3, h4⟩ := clean_step hp hs ht hc (.inl ha)
    exact .locking h1 h4 (by rw [hn, ends_false h3]) h2
  | committing u h1 hr hn hc h2 h3 =>
    obtain ⟨h4, h5⟩ := straight_step hp hs ht hc hb
    exact .committing u h1 hr (by rw [hn, ends_false h4]) h5 h2 (h3.user hu)
  | falling h1 l r h2 h3 hr hc hn =>
    refine .falling h1 l r h2 h3 hr (fun h4 => ?_) (falling_step hrun hp hs hi ht hl hu hn)
    obtain ⟨h5, h6⟩ := hc h4
    obtain ⟨h7, h8⟩ := clean_step hp hs ht h5 (.inl ha)
    exact ⟨h8, by rw [h6, ends_false h7]⟩
  | fallen h1 h2 hn h3 =>
    have hx := calm_dead hp hs hi h3.dead hl hu ht
    exact .fallen h1 h2 (by rw [hn, ends_false hx.quiet.2]) (h3.calm hx)
  | finishing h1 h2 hn hd ho he =>
    have hcalm : Undone t h s → Calm t s e s' o := fun h3 => calm_dead hp hs hi h3.dead hl hu ht
    have hq : o.said.any (Said.aborts t) = false := by
      rcases hd with hd | hd
      · exact told_no_abort hrun hp hs hd
      · exact (hcalm hd).quiet.2
    refine .finishing h1 h2 (by rw [hn, ends_false hq]) ?_ (fun u h3 => ⟨(ho u h3).1.mono _, (ho u h3).2.user hu⟩)
      fun x h3 h4 h5 => (he x h3 h4 h5).calm (hcalm (he x h3 h4 h5))
    rcases hd with hd | hd
    · exact .inl (hd.mono _)
    · exact .inr (hd.calm (hcalm hd))

/-- Calls are for the ticket. -/
theorem Phase.ticket {q : Req} {rest : List Req} (ph : Phase cfg κ ν j t h s a (q :: rest) n)
    (he : q.Is κ ν j e) : e.ticket = some t ∧ isNumber e = false ∧ eventCb e = j ∧ Plain h e := by
  have hl : AsksLock t q → e.ticket = some t ∧ isNumber e = false ∧ eventCb e = j ∧ Plain h e := by
    rintro ⟨k, w, rfl | rfl⟩
    · obtain ⟨ok, rfl⟩ := he
      exact ⟨rfl, rfl, rfl, trivial⟩
    · obtain ⟨r, ok, rfl⟩ := he
      exact ⟨rfl, rfl, rfl, trivial⟩
  cases ph with
  | locking hs hc hn h1 => exact hl (h1 q List.mem_cons_self)
  | committing u hs hr hn hc ht hu =>
    rcases ht with ht | ht <;> cases ht
    obtain ⟨p, rfl⟩ := he
    exact ⟨rfl, rfl, rfl, trivial⟩
  | falling hs l r ht h1 hr hc hn =>
    cases l with
    | cons x l =>
      cases ht
      exact hl (h1 q List.mem_cons_self)
    | nil =>
      rcases hr with rfl | rfl <;> cases ht
      obtain ⟨p, rfl⟩ := he
      exact ⟨rfl, rfl, rfl, trivial⟩
  | fallen hs ht hn hu => cases ht
  | finishing hs ht hn hd ho h1 =>
    rcases ht with ht | ht <;> cases ht
    obtain ⟨p, rfl⟩ := he
    exact ⟨rfl, rfl, rfl, trivial⟩

/-- The order of the calls is kept. -/
theorem Phase.orderly {q : Req} {rest : List Req} (ph : Phase cfg κ ν j t h s a (q :: rest) n)
    (he : q.Is κ ν j e) : Orderly h e := by
  have hl : AsksLock t q → Clean t h → Orderly h e := by
    rintro ⟨k, w, rfl | rfl⟩ hc
    · obtain ⟨ok, rfl⟩ := he
      trivial
    · obtain ⟨r, ok, rfl⟩ := he
      exact ⟨hc.not_prepare, hc.not_rollback⟩
  cases ph with
  | locking hs hc hn h1 => exact hl (h1 q List.mem_cons_self) hc
  | committing u hs hr hn hc ht hu =>
    rcases ht with ht | ht <;> cases ht
    obtain ⟨p, rfl⟩ := he
    exact hc
  | falling hs l r ht h1 hr hc hn =>
    cases l with
    | cons x l =>
      cases ht
      exact hl (h1 q List.mem_cons_self) (hc (by simp)).1
    | nil =>
      rcases hr with rfl | rfl <;> cases ht
      obtain ⟨p, rfl⟩ := he
      trivial
  | fallen hs ht hn hu => cases ht
  | finishing hs ht hn hd ho h1 =>
    rcases ht with ht | ht <;> cases ht
    obtain ⟨p, rfl⟩ := he
    trivial

theorem locks_then {q : Req} {rest : List Req} (hl : ∀ r ∈ q :: rest, AsksLock t r) :
    ∀ r ∈ q.then ++ rest, AsksLock t r := by
  intro r hr
  rcases List.mem_append.mp hr with hr | hr
  · obtain ⟨k, w, rfl | rfl⟩ := hl q List.mem_cons_self
    · simp only [Req.then, List.mem_singleton] at hr
      exact ⟨k, w, .inr hr⟩
    · cases hr
  · exact hl r (List.mem_cons_of_mem _ hr)

/-- Calls. -/
theorem Phase.call {m : Nat} {q : Req} {rest : List Req} (ph : Phase cfg κ ν j t h s a (q :: rest) n)
    (hrun : Run m h s) (hs : step s e = some (s', o)) (hi : Issued t h) (he : q.Is κ ν j e) :
    Phase cfg κ ν j t ((e, o) :: h) s' a (q.then ++ rest) (n + ends t o) := by
  obtain ⟨ht, _, _, hp⟩ := ph.ticket he
  have hl : AsksLock t q → Clean t h → o.said.any (Said.aborts t) = false ∧ Clean t ((e, o) :: h) := by
    rintro ⟨k, w, rfl | rfl⟩ hc
    · obtain ⟨ok, rfl⟩ := he
      exact clean_step hp hs ht hc (.inr rfl)
    · obtain ⟨r, ok, rfl⟩ := he
      exact clean_step hp hs ht hc (.inr rfl)
  cases ph with
  | locking h1 hc hn h2 =>
    obtain ⟨h3, h4⟩ := hl (h2 q List.mem_cons_self) hc
    exact .locking h1 h4 (by rw [hn, ends_false h3]) (locks_then h2)
  | committing u h1 hr hn hc h2 h3 =>
    rcases h2 with h2 | h2 <;> cases h2
    obtain ⟨p, rfl⟩ := he
    obtain ⟨h4, h5⟩ := straight_step hp hs ht hc (by simp)
    refine .committing u h1 hr (by rw [hn, ends_false h4]) h5 (.inl rfl) fun u' h6 => ?_
    rcases userCommit_cases h6 with ⟨_, _, h7⟩ | h7
    · cases h7; rfl
    · exact h3 u' h7
  | falling h1 l r h2 h3 hr hc hn =>
    cases l with
    | cons x l =>
      rw [List.cons_append, List.cons.injEq] at h2
      obtain ⟨rfl, rfl⟩ := h2
      obtain ⟨h4, h5⟩ := hl (h3 q List.mem_cons_self) (hc (by simp)).1
      have h0 : n + ends t o = 0 := by rw [ends_false h4, (hc (by simp)).2]
      exact .falling h1 (q.then ++ l) r (by simp) (locks_then h3) hr (fun _ => ⟨h5, h0⟩) (.inl h0)
    | nil =>
      rcases hr with rfl | rfl <;> cases h2
      obtain ⟨p, rfl⟩ := he
      exact .falling h1 [] [] rfl (by simp) (.inl rfl) (by simp)
        (falling_step hrun hp hs hi ht (by simp) (by simp) hn)
  | fallen h1 h2 hn h3 => cases h2
  | finishing h1 h2 hn hd ho h3 =>
    rcases h2 with h2 | h2 <;> cases h2
    obtain ⟨p, rfl⟩ := he
    have hu : ∀ cb u p', Event.finish j t p ≠ .commit cb t u p' := by simp
    have hcalm : Undone t h s → Calm t s (.finish j t p) s' o := fun h3 =>
      calm_dead hp hs hi h3.dead (by simp) hu ht
    have hq : o.said.any (Said.aborts t) = false := by
      rcases hd with hd | hd
      · exact told_no_abort hrun hp hs hd
      · exact (hcalm hd).quiet.2
    refine .finishing h1 (.inl rfl) (by rw [hn, ends_false hq]) ?_
      (fun u h4 => ⟨(ho u h4).1.mono _, (ho u h4).2.user hu⟩)
      fun x h4 h5 h6 => (h3 x h4 h5 h6).calm (hcalm (h3 x h4 h5 h6))
    rcases hd with hd | hd
    · exact .inl (hd.mono _)
    · exact .inr (hd.calm (hcalm hd))

/-- The directory does not answer. -/
theorem Phase.skip {k : Nat} {w : Bool} {rest : List Req} (ph : Phase cfg κ ν j t h s a (.find t k w :: rest) n) :
    Phase cfg κ ν j t h s a rest n := by
  cases ph with
  | locking h1 hc hn h2 => exact .locking h1 hc hn fun r hr => h2 r (List.mem_cons_of_mem _ hr)
  | committing u h1 hr hn hc h2 h3 => rcases h2 with h2 | h2 <;> cases h2
  | falling h1 l r h2 h3 hr hc hn =>
    cases l with
    | cons x l =>
      rw [List.cons_append, List.cons.injEq] at h2
      exact .falling h1 l r h2.2 (fun r hr => h3 r (List.mem_cons_of_mem _ hr)) hr (fun _ => hc (by simp)) hn
    | nil => rcases hr with rfl | rfl <;> cases h2
  | fallen h1 h2 hn h3 => cases h2
  | finishing h1 h2 hn hd ho h3 => rcases h2 with h2 | h2 <;> cases h2

end

end Verif.Parsec.Broker.Server
