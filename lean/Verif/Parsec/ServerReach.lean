import Verif.Parsec.ServerInv

/-!
# What holds in every state of an agent server
-/
namespace Verif.Parsec.Broker.Server

/-- User `j` got the ticket `t`. -/
def Given (j : Nat) (t : Tn) (h : Hist) : Prop := ∃ x ∈ h, ∃ m, x.1 = .ticketNumber j (some (t, m))

/-- A report that a ticket is rolled back. -/
def isUndone : Said → Bool
  | .rollback _ _ none => true
  | _ => false

def undos (l : List Said) : Nat := l.countP isUndone

/-- The invariant. -/
structure SInv (cfg : Nat → Agent.Config) (κ : Nat → Key) (ν : Nat → Value) (n me : Nat) (own : Tn → Prop)
    (S : Server) : Prop where
  runs : Runs n me own Orderly S.w
  lives : ∀ j, Agent.Run (cfg j) (S.tr j) (S.ag j)
  idle : ∀ j, (S.ag j).ticket = none → S.todo j = []
  early : ∀ j, bucket (S.ag j).state = 0 → (S.ag j).ticket = none
  given : ∀ j t, (S.ag j).ticket = some t → Given j t S.w.h
  unique : ∀ j j' t, Given j t S.w.h → Given j' t S.w.h → j = j'
  users : ∀ x ∈ S.w.h, isNumber x.1 = false → ∀ t, x.1.ticket = some t → (S.ag (eventCb x.1)).ticket = some t
  inbox : ∀ j, ∀ y ∈ S.inbox j, saidTo y = j ∧ ∃ x ∈ S.w.h, y ∈ x.2.said
  phase : ∀ j t, (S.ag j).ticket = some t →
    Phase (cfg j) κ ν j t S.w.h S.w.b (S.ag j) (S.todo j) (undos (S.inbox j))

theorem Given.issued {j : Nat} {t : Tn} {h : Hist} (hg : Given j t h) : Issued t h := by
  obtain ⟨x, hx, m, h1⟩ := hg
  exact ⟨x, hx, j, m, h1⟩

theorem Given.mono {j : Nat} {t : Tn} {h : Hist} (hg : Given j t h) (x : Event × Out) : Given j t (x :: h) := by
  obtain ⟨y, hx, m, h1⟩ := hg
  exact ⟨y, List.mem_cons_of_mem _ hx, m, h1⟩

/-- Requests are made for the ticket of their event. -/
theorem run_calls {n : Nat} {h : Hist} {s : State} (hr : Run n h s) :
    ∀ x ∈ h, ∀ c ∈ x.2.calls, isNumber x.1 = false ∧ ∃ i t, x.1.ticket = some t ∧ c.ticket = some (i, t) := by
  induction hr with
  | start => simp
  | @step h s s' e o hr hp hs ih =>
    intro x hx c hc
    rcases List.mem_cons.mp hx with rfl | hx
    · obtain ⟨t, tk, i, h1, h2, h3, _, h4⟩ := calls_next hr.inv hp hs hc
      refine ⟨?_, i, t, h1, h3⟩
      cases e with
      | ticketNumber cb r =>
        dsimp only at hc
        rw [h4] at hc
        cases r <;> simp [next, stay] at hc
      | _ => rfl
    · exact ih x hx c hc

section
variable {cfg : Nat → Agent.Config} {κ : Nat → Key} {ν : Nat → Value} {n me : Nat} {own : Tn → Prop} {S : Server}

/-- Reports come for the agent's ticket. -/
theorem SInv.said (inv : SInv cfg κ ν n me own S) {j : Nat} {y : Said} (hy : y ∈ S.inbox j) :
    (isBegin y = false → (S.ag j).ticket = saidTicket y ∨ saidTicket y = none) ∧
      ∀ t, y = .begin j (.ok t) → Given j t S.w.h := by
  obtain ⟨h1, x, hx, h2⟩ := inv.inbox j y hy
  obtain ⟨h3, h4, h5⟩ := (run_belongs inv.runs.link.run x hx).said y h2
  constructor
  · intro hb
    rw [hb] at h5
    cases ht : saidTicket y with
    | none => exact .inr rfl
    | some t =>
      left
      rw [← h1, h3]
      exact inv.users x hx h5.symm t (by rw [← h4, ht])
  · rintro t rfl
    cases he : x.1 with
    | ticketNumber cb r =>
      rw [he] at h3 h4
      cases r with
      | none => cases h4
      | some q =>
        obtain ⟨t', m⟩ := q
        cases h4
        refine ⟨x, hx, m, ?_⟩
        rw [he]
        simp only [saidTo, eventCb] at h3
        rw [h3]
    | _ => rw [he] at h5; cases h5

/-- Nothing was asked for a ticket its agent does not know yet. -/
theorem SInv.fresh (inv : SInv cfg κ ν n me own S) {j : Nat} {t : Tn} (hj : (S.ag j).ticket = none)
    (hg : Given j t S.w.h) : Clean t S.w.h ∧ undos (S.inbox j) = 0 := by
  have key : ∀ x ∈ S.w.h, isNumber x.1 = false → x.1.ticket ≠ some t := by
    intro x hx hn ht
    have h1 := inv.users x hx hn t ht
    have h2 := inv.unique _ _ _ (inv.given _ _ h1) hg
    rw [h2, hj] at h1
    cases h1
  constructor
  · intro x hx
    have hx := attempt_subset hx
    constructor
    · intro cb u p h1
      exact key x hx (by rw [h1]; rfl) (by rw [h1]; rfl)
    · intro c hc i h1
      obtain ⟨h2, i', t', h3, h4⟩ := run_calls inv.runs.link.run x hx c hc
      rw [h1] at h4
      cases h4
      exact absurd h3 (key x hx h2)
  · refine List.countP_eq_zero.mpr fun y hy h1 => ?_
    cases y with
    | rollback cb t' r =>
      rcases (inv.said hy).1 rfl with h2 | h2
      · rw [hj] at h2; cases h2
      · cases h2
    | _ => cases h1

/-- Events of agents. -/
theorem SInv.agent (inv : SInv cfg κ ν n me own S) {j : Nat} {p : Agent.Can} {e : Agent.Event} {l : List Said}
    (ha : Agent.Alive (S.tr j)) (ht : S.todo j = []) (hl : ∀ y ∈ l, y ∈ S.inbox j)
    (h1 : e = .rolledBack true → undos (S.inbox j) = undos l + 1)
    (h2 : e ≠ .rolledBack true → undos l = undos (S.inbox j))
    (h3 : e = .committed .ok → ∀ t, (S.ag j).ticket = some t → SaidCommitted j t S.w.h)
    (h4 : ∀ t, e = .begun (some t) → Given j t S.w.h) :
    SInv cfg κ ν n me own (S.agent (cfg j) j p e l) := by
  have hrest := (inv.lives j).rest ha
  have hrun := Agent.Run.step (inv.lives j) ha p e
  have ho := Agent.outcome (cfg := cfg j) (p := p) hrest e
  have hf := Agent.fits_step (cfg j) p (S.ag j) e
  -- an agent with a ticket keeps it
  have hkeep : ∀ t, (S.ag j).ticket = some t → (Agent.step (cfg j) p (S.ag j) e).1.ticket = some t ∧
      Phase (cfg j) κ ν j t S.w.h S.w.b (Agent.step (cfg j) p (S.ag j) e).1
        ((Agent.step (cfg j) p (S.ag j) e).2.filterMap asReq) (undos l) := by
    intro t hj
    have ph := inv.phase j t hj
    rw [ht] at ph
    exact ph.agent hrest hj rfl h1 h2 fun h5 => h3 h5 t hj
  generalize hm : Agent.step (cfg j) p (S.ag j) e = m at hrun ho hf hkeep
  -- an agent without a ticket
  have hnone : (S.ag j).ticket = none → (m.1.ticket = none ∧ m.2.filterMap asReq = []) ∨
      ∃ t, m.1.ticket = some t ∧ Given j t S.w.h ∧
        Phase (cfg j) κ ν j t S.w.h S.w.b m.1 (m.2.filterMap asReq) (undos l) := by
    intro hj
    have hnot : ∀ t, (S.ag j).ticket ≠ some t := by rw [hj]; simp
    have hstate : (S.ag j).state ≠ .functionStarted := by
      intro h5
      obtain ⟨t, h6⟩ := hrest.ticket (by rw [h5]; decide) (by rw [h5]; decide) (by rw [h5]; decide)
      exact hnot t h6
    have begin : ∀ t, Agent.Starting (S.ag j) t e → ∃ t, m.1.ticket = some t ∧ Given j t S.w.h ∧
        Phase (cfg j) κ ν j t S.w.h S.w.b m.1 (m.2.filterMap asReq) (undos l) := by
      intro t hst
      have hg : Given j t S.w.h := by
        rcases hst with ⟨_, h5⟩ | ⟨_, _, h5⟩
        · exact h4 t h5
        · exact absurd h5 (hnot t)
      obtain ⟨hc, hn⟩ := inv.fresh hj hg
      have hl0 : undos l = 0 := by
        have : e ≠ .rolledBack true := by
          rcases hst with ⟨_, h5⟩ | ⟨_, h5, _⟩ <;> rw [h5] <;> simp
        rw [h2 this, hn]
      obtain ⟨h5, h6⟩ := start_phase (κ := κ) (ν := ν) (j := j) (s := S.w.b) ho hf hst hc hl0
      exact ⟨t, h5, hg, h6⟩
    cases ho with
    | idle hfo hs htk hrr hq =>
      left
      refine ⟨by rw [htk, hj], List.filterMap_eq_nil_iff.mpr fun x hx => ?_⟩
      obtain ⟨r, q, rfl⟩ := (hrr hstate).2.2.2.2 x hx
      rfl
    | begun he hb hs hw hk ho => exact .inl ⟨by rw [hk.2, hj], by rw [ho]; rfl⟩
    | beginFailed hb hs hw hk x hx ho => exact .inl ⟨by rw [hk.2, hj], by rw [ho]; rfl⟩
    | get t hst => exact .inr (begin t hst)
    | run t hst =>
      rcases hst with hst | ⟨_, h5, _⟩
      · exact .inr (begin t hst)
      · exact absurd h5 (hnot t)
    | fall t hst =>
      rcases hst with hst | ⟨h5, _⟩
      · exact .inr (begin t hst)
      · exact absurd h5 (hnot t)
    | commit t u h5 => exact absurd h5 (hnot t)
    | finish t h5 => exact absurd h5 (hnot t)
    | finishFailed t h5 => exact absurd h5 (hnot t)
    | complete t r h5 => exact absurd h5 (hnot t)
    | rollbackFailed t h5 => exact absurd h5 (hnot t)
    | retry t h5 => exact absurd h5 (hnot t)
    | crash h5 h6 => exact .inl ⟨by rw [h6]; exact hj, by rw [h6]; rfl⟩
  have hag : ∀ k, (S.agent (cfg j) j p e l).ag k = if k = j then m.1 else S.ag k := by
    intro k
    rw [← hm]; rfl
  have htd : ∀ k, (S.agent (cfg j) j p e l).todo k = if k = j then m.2.filterMap asReq else S.todo k := by
    intro k
    rw [← hm]; rfl
  have htr : ∀ k, (S.agent (cfg j) j p e l).tr k = if k = j then (e, m.2) :: S.tr j else S.tr k := by
    intro k
    rw [← hm]; rfl
  have hib : ∀ k, (S.agent (cfg j) j p e l).inbox k = if k = j then l else S.inbox k := fun k => rfl
  have hstep : ∀ t, (S.ag j).ticket = some t → m.1.ticket = some t := fun t h5 => (hkeep t h5).1
  have hphase : ∀ t, m.1.ticket = some t → Given j t S.w.h ∧
      Phase (cfg j) κ ν j t S.w.h S.w.b m.1 (m.2.filterMap asReq) (undos l) := by
    intro t h5
    cases hj : (S.ag j).ticket with
    | none =>
      rcases hnone hj with ⟨h6, _⟩ | ⟨t', h6, h7, h8⟩
      · rw [h6] at h5; cases h5
      · rw [h6] at h5
        cases h5
        exact ⟨h7, h8⟩
    | some t' =>
      obtain ⟨h6, h7⟩ := hkeep t' hj
      rw [h6] at h5
      cases h5
      exact ⟨inv.given j t hj, h7⟩
  refine ⟨inv.runs, fun k => ?_, fun k hk => ?_, fun k hk => ?_, fun k t hk => ?_, inv.unique, ?_, fun k y hy => ?_,
    fun k t hk => ?_⟩
  · rw [htr, hag]
    by_cases hkj : k = j
    · subst hkj
      rw [if_pos rfl, if_pos rfl]
      exact hrun
    · rw [if_neg hkj, if_neg hkj]
      exact inv.lives k
  · rw [hag] at hk
    rw [htd]
    by_cases hkj : k = j
    · rw [if_pos hkj] at hk ⊢
      cases hj : (S.ag j).ticket with
      | none =>
        rcases hnone hj with ⟨_, h6⟩ | ⟨t', h6, _⟩
        · exact h6
        · rw [h6] at hk; cases hk
      | some t' => rw [hstep t' hj] at hk; cases hk
    · rw [if_neg hkj] at hk ⊢
      exact inv.idle k hk
  · rw [hag] at hk ⊢
    by_cases hkj : k = j
    · rw [if_pos hkj] at hk ⊢
      cases h5 : m.1.ticket with
      | none => rfl
      | some t => exact absurd hk (hphase t h5).2.late
    · rw [if_neg hkj] at hk ⊢
      exact inv.early k hk
  · rw [hag] at hk
    by_cases hkj : k = j
    · rw [if_pos hkj] at hk
      rw [hkj]
      exact (hphase t hk).1
    · rw [if_neg hkj] at hk
      exact inv.given k t hk
  · intro x hx hn t h5
    rw [hag]
    have h6 := inv.users x hx hn t h5
    by_cases hkj : eventCb x.1 = j
    · rw [if_pos hkj]
      rw [hkj] at h6
      exact hstep t h6
    · rw [if_neg hkj]
      exact h6
  · rw [hib] at hy
    by_cases hkj : k = j
    · rw [if_pos hkj] at hy
      rw [hkj]
      exact inv.inbox j y (hl y hy)
    · rw [if_neg hkj] at hy
      exact inv.inbox k y hy
  · rw [hag] at hk ⊢
    rw [htd, hib]
    by_cases hkj : k = j
    · subst hkj
      rw [if_pos rfl] at hk ⊢
      rw [if_pos rfl, if_pos rfl]
      exact (hphase t hk).2
    · rw [if_neg hkj] at hk ⊢
      rw [if_neg hkj, if_neg hkj]
      exact inv.phase k t hk

/-- Events of the broker. -/
theorem SInv.event (inv : SInv cfg κ ν n me own S) {e : Event} {s : State} {o : Out} {td : Nat → List Req}
    (hp : Plain S.w.h e) (ho : Orderly S.w.h e) (hj : Justified S.w e)
    (hn : ∀ cb t m, e = .ticketNumber cb (some (t, m)) → own t) (hs : step S.w.b e = some (s, o))
    (hidle : ∀ j, (S.ag j).ticket = none → td j = [])
    (huser : isNumber e = false → ∀ t, e.ticket = some t → (S.ag (eventCb e)).ticket = some t)
    (hsame : ∀ j t, (S.ag j).ticket = some t → e.ticket ≠ some t → td j = S.todo j)
    (hown : ∀ j t, (S.ag j).ticket = some t → e.ticket = some t →
      Phase (cfg j) κ ν j t ((e, o) :: S.w.h) s (S.ag j) (td j) (undos (S.inbox j) + ends t o)) :
    SInv cfg κ ν n me own { S.event e s o with todo := td } := by
  have hlink := inv.runs.link
  have hbel := step_belongs hp.plain hs
  have huniq : ∀ j j' t, Given j t ((e, o) :: S.w.h) → Given j' t ((e, o) :: S.w.h) → j = j' := by
    rintro j j' t ⟨x, hx, m, h1⟩ ⟨y, hy, m', h2⟩
    rcases List.mem_cons.mp hx with rfl | hx <;> rcases List.mem_cons.mp hy with rfl | hy
    · dsimp only at h1 h2
      rw [h1] at h2
      cases h2; rfl
    · dsimp only at h1
      rw [h1] at hp
      exact absurd ⟨y, hy, j', m', h2⟩ hp
    · dsimp only at h2
      rw [h2] at hp
      exact absurd ⟨x, hx, j, m, h1⟩ hp
    · exact inv.unique j j' t ⟨x, hx, m, h1⟩ ⟨y, hy, m', h2⟩
  -- the reports of a rollback
  have hundo : ∀ j t, (S.ag j).ticket = some t →
      undos (S.inbox j ++ o.said.filter fun x => saidTo x = j) = undos (S.inbox j) + ends t o := by
    intro j t hjt
    unfold undos
    rw [List.countP_append, Nat.add_left_cancel_iff]
    have hshort := hbel.short
    match hsd : o.said with
    | [] => simp [ends, hsd]
    | [y] =>
      obtain ⟨h1, h2, h3⟩ := hbel.said y (by rw [hsd]; exact List.mem_singleton.mpr rfl)
      cases y with
      | rollback cb t' r =>
        cases r with
        | none =>
          simp only [saidTo, saidTicket, isBegin] at h1 h2 h3
          have h4 := huser h3.symm t' h2.symm
          rw [← h1] at h4
          have h5 : cb = j ↔ t' = t := by
            constructor
            · rintro rfl
              rw [hjt] at h4
              cases h4; rfl
            · rintro rfl
              exact inv.unique _ _ _ (inv.given _ _ h4) (inv.given _ _ hjt)
          by_cases h6 : t' = t
          · have h7 := h5.mpr h6
            subst h6 h7
            simp [ends, hsd, saidTo, isUndone, Said.aborts]
          · have h7 : cb ≠ j := fun h7 => h6 (h5.mp h7)
            simp [ends, hsd, saidTo, isUndone, Said.aborts, h6, h7]
        | some r =>
          by_cases h6 : cb = j <;> simp [ends, hsd, saidTo, isUndone, Said.aborts, h6]
      | _ => simp [ends, hsd, Said.aborts, List.countP_filter, isUndone]
    | y :: z :: l =>
      rw [hsd] at hshort
      simp at hshort
  refine ⟨.step inv.runs (.event hp ho hj hn hs), inv.lives, hidle, inv.early, fun j t h1 => (inv.given j t h1).mono _,
    huniq, fun x hx h1 t h2 => ?_, fun j y hy => ?_, fun j t hjt => ?_⟩
  · rcases List.mem_cons.mp hx with rfl | hx
    · exact huser h1 t h2
    · exact inv.users x hx h1 t h2
  · rcases List.mem_append.mp hy with hy | hy
    · obtain ⟨h1, x, hx, h2⟩ := inv.inbox j y hy
      exact ⟨h1, x, List.mem_cons_of_mem _ hx, h2⟩
    · obtain ⟨h1, h2⟩ := List.mem_filter.mp hy
      exact ⟨of_decide_eq_true h2, (e, o), List.mem_cons_self, h1⟩
  · show Phase (cfg j) κ ν j t ((e, o) :: S.w.h) s (S.ag j) (td j)
      (undos (S.inbox j ++ o.said.filter fun x => saidTo x = j))
    rw [hundo j t hjt]
    by_cases he : e.ticket = some t
    · exact hown j t hjt he
    · have hc := calm_other hlink.run.inv hp hs he
      rw [ends_false hc.quiet.2, hsame j t hjt he]
      exact (inv.phase j t hjt).calm hc

/-- Answers of shards come for the ticket of the agent whose callback they carry. -/
theorem SInv.asked (inv : SInv cfg κ ν n me own S) {t : Tn} {c : Call} {i : Nat} (hc : c.ticket = some (i, t))
    (ha : Asked t S.w.h c) : (S.ag (callCb c)).ticket = some t := by
  obtain ⟨x, hx, h1⟩ := ha
  have hx := attempt_subset hx
  obtain ⟨h2, i', t', h3, h4⟩ := run_calls inv.runs.link.run x hx c h1
  rw [hc] at h4
  cases h4
  rw [(run_belongs inv.runs.link.run x hx).calls c h1]
  exact inv.users x hx h2 t h3

theorem SInv.step (inv : SInv cfg κ ν n me own S) {S' : Server} (h : S.Step cfg κ ν me own S') :
    SInv cfg κ ν n me own S' := by
  cases h with
  | @alone j p e ha ht he =>
    exact inv.agent ha ht (fun _ hy => hy) (by rintro rfl; cases he) (fun _ => rfl) (by rintro rfl; cases he)
      (by rintro t rfl; cases he)
  | @told j p e x l r ha ht hi he =>
    have hx : x ∈ S.inbox j := by rw [hi]; simp
    have hcount : undos (S.inbox j) = undos (l ++ r) + if isUndone x then 1 else 0 := by
      unfold undos
      rw [hi, List.countP_append, List.countP_append, List.countP_cons, Nat.add_assoc]
    obtain ⟨hb, hg⟩ := inv.said hx
    have hto := (inv.inbox j x hx).1
    refine inv.agent ha ht (fun y hy => ?_) (fun h1 => ?_) (fun h1 => ?_) (fun h1 t hjt => ?_) (fun t h1 => ?_)
    · rw [hi]
      rcases List.mem_append.mp hy with hy | hy
      · exact List.mem_append_left _ hy
      · exact List.mem_append_right _ (List.mem_cons_of_mem _ hy)
    · subst h1
      have : isUndone x = true := by
        cases x with
        | begin cb r => cases r <;> simp [Delivers] at he
        | lock cb t r => cases r <;> simp [Delivers] at he
        | commit cb t r => cases r <;> simp [Delivers] at he
        | rollback cb t r => cases r <;> simp_all [Delivers, isUndone]
        | finish cb t r => simp [Delivers] at he
        | recover cb r => simp [Delivers] at he
      rw [hcount, if_pos this]
    · have : isUndone x = false := by
        cases x with
        | rollback cb t r => cases r <;> simp_all [Delivers, isUndone]
        | _ => rfl
      rw [hcount, this]
      rfl
    · subst h1
      cases x with
      | begin cb r => cases r <;> simp [Delivers] at he
      | lock cb t r => cases r <;> simp [Delivers] at he
      | commit cb t' r =>
        cases r with
        | some r => simp [Delivers] at he
        | none =>
          simp only [saidTo] at hto
          subst hto
          rcases hb rfl with h2 | h2
          · rw [hjt] at h2
            cases h2
            obtain ⟨_, y, hy, h3⟩ := inv.inbox _ _ hx
            exact ⟨y, hy, h3⟩
          · cases h2
      | rollback cb t r => simp [Delivers] at he
      | finish cb t r => simp [Delivers] at he
      | recover cb r => simp [Delivers] at he
    · subst h1
      cases x with
      | begin cb r =>
        simp only [saidTo] at hto
        subst hto
        cases r with
        | ok t' =>
          simp only [Delivers, Agent.Event.begun.injEq, Option.some.injEq] at he
          subst he
          exact hg _ rfl
        | error r => simp [Delivers] at he
      | lock cb t r => cases r <;> simp [Delivers] at he
      | commit cb t r => cases r <;> simp [Delivers] at he
      | rollback cb t r => simp [Delivers] at he
      | finish cb t r => simp [Delivers] at he
      | recover cb r => simp [Delivers] at he
  | @call j q rest e s o ht he hs =>
    obtain ⟨t, hjt⟩ : ∃ t, (S.ag j).ticket = some t := by
      cases hx : (S.ag j).ticket with
      | none => rw [inv.idle j hx] at ht; cases ht
      | some t => exact ⟨t, rfl⟩
    have ph := inv.phase j t hjt
    rw [ht] at ph
    obtain ⟨h1, h2, h3, hp⟩ := ph.ticket he
    have huniq : ∀ k, (S.ag k).ticket = some t → k = j := fun k hk =>
      inv.unique _ _ _ (inv.given _ _ hk) (inv.given _ _ hjt)
    refine inv.event hp (ph.orderly he) ?_ ?_ hs (fun k hk => ?_) (fun _ t' h4 => ?_) (fun k t' hk h4 => ?_)
      fun k t' hk h4 => ?_
    · cases q <;> simp only [Req.Is] at he
      · obtain ⟨_, rfl⟩ := he; trivial
      · obtain ⟨_, _, rfl⟩ := he; trivial
      · obtain ⟨_, rfl⟩ := he; trivial
      · obtain ⟨_, rfl⟩ := he; trivial
      · obtain ⟨_, rfl⟩ := he; trivial
    · rintro cb t m rfl
      cases h2
    · rw [put_other _ _ (by rintro rfl; rw [hjt] at hk; cases hk)]
      exact inv.idle k hk
    · rw [h1] at h4
      cases h4
      rw [h3]
      exact hjt
    · refine put_other _ _ ?_
      rintro rfl
      rw [hjt] at hk
      cases hk
      exact h4 h1
    · rw [h1] at h4
      cases h4
      cases huniq k hk
      rw [put_same]
      exact ph.call inv.runs.link.run hs (inv.given _ _ hjt).issued he
  | @skip j t k w rest ht =>
    obtain ⟨t', hjt⟩ : ∃ t, (S.ag j).ticket = some t := by
      cases hx : (S.ag j).ticket with
      | none => rw [inv.idle j hx] at ht; cases ht
      | some t => exact ⟨t, rfl⟩
    refine ⟨inv.runs, inv.lives, fun i hi => ?_, inv.early, inv.given, inv.unique, inv.users, inv.inbox,
      fun i t1 hi => ?_⟩
    · show put S.todo j rest i = []
      rw [put_other _ _ (by rintro rfl; rw [hjt] at hi; cases hi)]
      exact inv.idle i hi
    · show Phase (cfg i) κ ν i t1 S.w.h S.w.b (S.ag i) (put S.todo j rest i) (undos (S.inbox i))
      have ph := inv.phase i t1 hi
      by_cases hij : i = j
      · subst hij
        rw [put_same]
        rw [ht] at ph
        have h5 := (ph.ticket (e := .foundKey i t (κ k) (if w then .write else .read) none false) ⟨_, _, rfl⟩).1
        cases h5
        exact ph.skip
      · rw [put_other _ _ hij]
        exact ph
  | @answer e s o ha hp hj hn hs =>
    have ho : Orderly S.w.h e := by
      cases e with
      | foundKey => cases ha
      | commit => cases ha
      | _ => trivial
    refine inv.event hp ho hj hn hs inv.idle (fun h1 t h2 => ?_) (fun _ _ _ _ => rfl) fun j t hjt ht =>
      (inv.phase j t hjt).answer inv.runs.link.run hp hs (inv.given j t hjt).issued ht ha
    cases e with
    | ticketNumber cb r => cases h1
    | locked cb t' k i r =>
      cases h2
      obtain ⟨ty, f, h3⟩ := hp
      exact inv.asked (i := i) rfl h3
    | prepared c t' i r p =>
      cases h2
      obtain ⟨_, u, h3⟩ := hp
      exact inv.asked (i := i) rfl h3
    | committed c t' i r p => cases h2; exact inv.asked (i := i) rfl hp.2
    | rolledBack c t' i r p => cases h2; exact inv.asked (i := i) rfl hp.2
    | finished c t' i r => cases h2; exact inv.asked (i := i) rfl hp.2
    | _ => cases ha
  | @serve i r rest op s o hn ho he =>
    exact ⟨.step inv.runs (.serve hn ho he), inv.lives, inv.idle, inv.early, inv.given, inv.unique, inv.users, inv.inbox,
      inv.phase⟩
  | @lose i l hl =>
    exact ⟨.step inv.runs (.lose hl), inv.lives, inv.idle, inv.early, inv.given, inv.unique, inv.users, inv.inbox,
      inv.phase⟩
  | @other i op s o hn he =>
    exact ⟨.step inv.runs (.other hn he), inv.lives, inv.idle, inv.early, inv.given, inv.unique, inv.users, inv.inbox,
      inv.phase⟩

theorem SInv.start {w : World} (h : w.Initial n own) : SInv cfg κ ν n me own { w := w } := by
  have hh := h.hist
  refine ⟨.start h, fun j => .start, fun _ _ => rfl, fun _ _ => rfl, ?_, ?_, ?_, ?_, ?_⟩
  · rintro j t h1; cases h1
  · rintro j j' t ⟨x, hx, _⟩
    change x ∈ w.h at hx
    rw [hh] at hx; cases hx
  · rintro x hx
    change x ∈ w.h at hx
    rw [hh] at hx; cases hx
  · rintro j y hy; cases hy
  · rintro j t h1; cases h1

theorem Reaches.inv (h : Reaches cfg κ ν n me own S) : SInv cfg κ ν n me own S := by
  induction h with
  | start h => exact .start h
  | step _ hs ih => exact ih.step hs

end

end Verif.Parsec.Broker.Server
