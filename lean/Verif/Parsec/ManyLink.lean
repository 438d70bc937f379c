import Verif.Parsec.ManyView

/-!
# The brokers one by one, and their decisions
-/
namespace Verif.Parsec.Broker

theorem CommitAsked.mono {t : Tn} {h : Hist} {x : Event × Out} (ha : CommitAsked t h) : CommitAsked t (x :: h) := by
  obtain ⟨y, h1, h2⟩ := ha
  exact ⟨y, List.mem_cons_of_mem _ h1, h2⟩

theorem next_becomes_committed {e : Event} {tk tk' : Ticket} (hs : tk.state ≠ .committed)
    (hn : (next e (some tk)).1 = some tk') (hs' : tk'.state = .committed) :
    ∃ c t i r p, e = .committed c t i r p := by
  have stays : tk' = tk → ∃ c t i r p, e = .committed c t i r p := by
    rintro rfl
    exact absurd hs' hs
  cases e with
  | committed c t i r p => exact ⟨c, t, i, r, p, rfl⟩
  | ticketNumber cb r =>
    refine stays ?_
    cases r <;> simp [next, stay] at hn <;> exact hn.symm
  | tryLock cb t ok =>
    exfalso
    simp only [next, stay, Option.some.injEq] at hn
    split at hn
    · rw [← hn] at hs'; cases hs'
    · rw [← hn] at hs'; exact hs hs'
  | foundKey cb t k ty r ok =>
    exfalso
    cases r with
    | none => simp [next, stay] at hn; rw [← hn] at hs'; exact hs hs'
    | some i =>
      simp only [next] at hn
      repeat' split at hn
      all_goals
        simp only [stay, Option.some.injEq] at hn
        rw [← hn] at hs'
        exact hs hs'
  | locked cb t k i r =>
    exfalso
    cases r with
    | error e => simp [next, stay] at hn; rw [← hn] at hs'; exact hs hs'
    | value v =>
      simp only [next] at hn
      repeat' split at hn
      all_goals
        simp only [stay, Option.some.injEq] at hn
        rw [← hn] at hs'
        exact hs hs'
  | commit cb t u p =>
    exfalso
    simp only [next, Option.some.injEq] at hn
    rw [← hn, Ticket.commit_state] at hs'
    exact hs hs'
  | prepared c t i r p =>
    exfalso
    simp only [next] at hn
    split at hn
    · rename_i hb
      simp only [Option.some.injEq] at hn
      rw [← hn] at hs'
      unfold Ticket.handlePrepare at hs'
      simp only at hs'
      repeat' split at hs'
      all_goals first | exact hs hs' | (unfold Ticket.doCommit at hs'; cases hs')
    · simp only [stay, Option.some.injEq] at hn
      rw [← hn] at hs'
      exact hs hs'
  | rollback cb t p =>
    exfalso
    simp only [next] at hn
    repeat' split at hn
    · simp only [Option.some.injEq] at hn
      rw [← hn] at hs'; cases hs'
    · simp only [Option.some.injEq] at hn
      rw [← hn] at hs'
      exact hs hs'
    · simp only [stay, Option.some.injEq] at hn
      rw [← hn] at hs'
      exact hs hs'
  | rolledBack c t i r p =>
    exfalso
    simp only [next] at hn
    repeat' split at hn
    all_goals
      simp only [stay, Option.some.injEq] at hn
      rw [← hn] at hs'
      first | exact hs hs' | cases hs'
  | finish cb t p =>
    exfalso
    simp only [next] at hn
    split at hn
    · cases hn
    · rename_i h; exact hs h
    · simp only [stay, Option.some.injEq] at hn
      rw [← hn] at hs'
      exact hs hs'
  | finished c t i r =>
    exfalso
    simp only [next, if_neg hs, stay, Option.some.injEq] at hn
    rw [← hn] at hs'
    exact hs hs'
  | recover cb => exact stays (by simp [next, stay] at hn; exact hn.symm)
  | gotTickets cb i r p => exact stays (by simp [next, stay] at hn; exact hn.symm)

/-- A committed ticket was asked to commit. -/
theorem committed_asked {n : Nat} {h : Hist} {s : State} (hr : Run n h s) :
    ∀ t tk, s.tickets.lookup t = some tk → tk.state = .committed → CommitAsked t h := by
  induction hr with
  | start => intro t tk h; simp at h
  | @step h s s' e o hr hp hs ih =>
    intro t tk' hl' hst'
    have old : s'.tickets.lookup t = s.tickets.lookup t → CommitAsked t ((e, o) :: h) := fun h1 =>
      (ih t tk' (by rw [← h1]; exact hl') hst').mono
    cases ht : e.ticket with
    | none =>
      obtain ⟨h1, _, _⟩ := no_ticket hr.inv hp ht hs
      exact old (by rw [h1])
    | some t0 =>
      have hst := step_next hp.plain ht hs
      by_cases hne : t = t0
      · subst hne
        have hown := hst.own
        dsimp only at hown
        rw [hl'] at hown
        cases hl : s.tickets.lookup t with
        | none =>
          rw [hl] at hown
          rcases (next_none e).2.2 with h1 | ⟨_, _, _, h1⟩
          · rw [h1] at hown; cases hown
          · rw [h1] at hown
            cases hown
            cases hst'
        | some tk =>
          rw [hl] at hown
          by_cases hc : tk.state = .committed
          · exact (ih t tk hl hc).mono
          · obtain ⟨c, t', i, r, p, rfl⟩ := next_becomes_committed hc hown.symm hst'
            cases ht
            exact (asked_commit hp.2).mono
      · exact old (hst.other t hne)

/-- A transaction is finished only after it was asked to commit. -/
theorem finish_asked {n : Nat} {h : Hist} {s : State} (hr : Run n h s) :
    ∀ x ∈ h, ∀ i t c, Call.finish i t c ∈ x.2.calls → CommitAsked t h := by
  induction hr with
  | start => intro x hx; cases hx
  | @step h s s' e o hr hp hs ih =>
    intro x hx i t c hc
    rcases List.mem_cons.mp hx with rfl | hx
    · obtain ⟨t0, tk, j, ht, hl, hj, hst, hcalls⟩ := calls_next hr.inv hp hs hc
      cases hj
      dsimp only at hc
      rw [hcalls] at hc
      have hm := next_makes ht hc
      generalize (next e (some tk)).1 = nx at hm
      cases hm with
      | finish hb => exact (committed_asked hr t tk hl hb).mono
    · exact (ih x hx i t c hc).mono

/-- Nothing of a decided transaction is reported as rolled back. -/
theorem decided_epoch {n me : Nat} {own : Tn → Prop} {w : World} (hr : Runs n me own Orderly w) {e : Event} {s : State}
    {o : Out} (hp : Plain w.h e) (hs : step w.b e = some (s, o)) {t : Tn} (hc : CommitAsked t ((e, o) :: w.h)) :
    o.said.any (Said.aborts t) = false := by
  have hl := hr.link
  cases hx : o.said.any (Said.aborts t) with
  | false => rfl
  | true =>
    obtain ⟨tk, ht, hlk, hst, hnx⟩ := aborts_next hl.run.inv hp hs hx
    obtain ⟨_, _, tk', h2, h3, _⟩ := next_abort hnx
    have h4 := hst.own
    rw [hlk, h2] at h4
    exact absurd hc (((hl.run.step hp hs).inv.ticket t tk' h4).fresh (.inr h3))

namespace Many

/-! ### The view of one broker -/

theorem view_event_same (M : Many) (b : Nat) (e : Event) (s : State) (o : Out) :
    (M.event b e s o).view b = (M.view b).event e s o := by
  simp [Many.event, Many.view, Many.set, put_same, World.event]

theorem view_event_other (M : Many) {b b' : Nat} (hb : b' ≠ b) (e : Event) (s : State) (o : Out) :
    (M.event b e s o).view b' = M.view b' := by
  simp [Many.event, Many.view, Many.set, put_other _ _ hb, World.event]

theorem view_serve_same (M : Many) (b i : Nat) (r : Request) (rest : List Request) (op : Op) (s : Parsec.State)
    (o : Parsec.Out) : (M.serve b i r rest op s o).view b = (M.view b).serve i r rest s o := by
  simp [Many.serve, Many.view, Many.set, put_same, World.serve]

theorem view_serve_other (M : Many) {b b' : Nat} (hb : b' ≠ b) (i : Nat) (r : Request) (rest : List Request) (op : Op)
    (s : Parsec.State) (o : Parsec.Out) :
    (M.serve b i r rest op s o).view b' = { M.view b' with shard := put M.shard i s } := by
  simp [Many.serve, Many.view, Many.set, put_other _ _ hb, World.serve]

/-- Brokers have different tickets. -/
def Disjoint (own : Nat → Tn → Prop) : Prop := ∀ a b t, own a t → own b t → a = b

/-- The transaction of a request which is served. -/
theorem serve_ticket {n : Nat} {own : Nat → Tn → Prop} {M : Many} {b i : Nat}
    (hr : Runs n b (own b) Orderly (M.view b)) {r : Request} {rest : List Request} {op : Op}
    (hn : M.net b i = r :: rest) (ho : r.call.op b = some op) :
    Origin (M.h b) i r op.ticket ∧ own b op.ticket := by
  have hl := hr.link
  obtain ⟨t0, hor⟩ := hl.origin i r (List.mem_append_right _ (by
    show r ∈ M.net b i
    rw [hn]; exact List.mem_cons_self))
  have hop := op_ticket ho hor.ticket
  rw [hop]
  exact ⟨hor, hl.owned hor⟩

theorem view_runs {n : Nat} {own : Nat → Tn → Prop} {base : Nat → Key → Value} {M : Many} (hd : Disjoint own)
    (hr : ManyRuns n own base M) : ∀ b, Runs n b (own b) Orderly (M.view b) := by
  induction hr with
  | start h =>
    intro b
    exact .start ⟨h.broker b, h.hist b, h.net b, h.log b, h.shard, h.clean b⟩
  | @step M M' hr h ih =>
    intro b'
    cases h with
    | @event b e s o hp ho hj hg hn hs =>
      by_cases hb : b' = b
      · subst hb
        rw [view_event_same]
        exact .step (ih b') (.event hp ho hj hn hs)
      · rw [view_event_other M hb]
        exact ih b'
    | @serve b i r rest op s o hn ho he =>
      by_cases hb : b' = b
      · subst hb
        rw [view_serve_same]
        exact .step (ih b') (.serve hn ho he)
      · rw [view_serve_other M hb]
        have h1 := (serve_ticket (ih b) hn ho).2
        exact .step (ih b') (.other (fun h2 => hb (hd _ _ _ h2 h1)) he)
    | @lose b i l hl =>
      by_cases hb : b' = b
      · subst hb
        have : Runs n b' (own b') Orderly { M.view b' with net := put (M.view b').net i l } := .step (ih b') (.lose hl)
        simpa [Many.view, put_same] using this
      · have := ih b'
        simpa [Many.view, put_other _ _ hb] using this

/-! ### Decisions -/

theorem any_commits {t : Tn} {h : Hist} : (h.any fun x => x.2.calls.any (commits t)) = true ↔ CommitAsked t h := by
  rw [List.any_eq_true]
  refine exists_congr fun x => and_congr_right fun _ => ?_
  rw [List.any_eq_true]
  constructor
  · rintro ⟨c, h1, h2⟩
    cases c <;> simp [commits] at h2
    subst h2
    exact ⟨_, _, h1⟩
  · rintro ⟨i, c, h1⟩
    exact ⟨_, h1, by simp [commits]⟩

theorem decides_some {h : Hist} {o : Out} {t : Tn} (hd : decides h o = some t) :
    ¬CommitAsked t h ∧ ∃ i c, Call.commit i t c ∈ o.calls := by
  unfold decides at hd
  obtain ⟨c, h1, h2⟩ := List.exists_of_findSome?_eq_some hd
  cases c <;> simp only [reduceCtorEq] at h2
  split at h2
  · cases h2
  · rename_i h3
    cases h2
    rw [any_commits] at h3
    exact ⟨h3, _, _, h1⟩

theorem decides_none {h : Hist} {o : Out} (hd : decides h o = none) {i : Nat} {t : Tn} {c : Cont}
    (hc : Call.commit i t c ∈ o.calls) : CommitAsked t h := by
  unfold decides at hd
  rw [List.findSome?_eq_none_iff] at hd
  have h1 := hd _ hc
  simp only at h1
  split at h1
  · rename_i h2
    exact any_commits.mp h2
  · cases h1

theorem commitAsked_cons {t : Tn} {h : Hist} {e : Event} {o : Out} :
    CommitAsked t ((e, o) :: h) ↔ CommitAsked t h ∨ ∃ i c, Call.commit i t c ∈ o.calls := by
  constructor
  · rintro ⟨x, h1, h2⟩
    rcases List.mem_cons.mp h1 with rfl | h1
    · exact .inr h2
    · exact .inl ⟨x, h1, h2⟩
  · rintro (h1 | h1)
    · exact h1.mono
    · exact ⟨_, List.mem_cons_self, h1⟩

/-- Which transactions are decided after an event. -/
theorem decided_event {n me : Nat} {own : Tn → Prop} {w : World} (hr : Runs n me own Orderly w) {e : Event} {s : State}
    {o : Out} (hp : Plain w.h e) (hs : step w.b e = some (s, o)) (t : Tn) :
    CommitAsked t ((e, o) :: w.h) ↔ CommitAsked t w.h ∨ decides w.h o = some t := by
  rw [commitAsked_cons]
  constructor
  · rintro (h1 | ⟨i, c, h1⟩)
    · exact .inl h1
    · cases hd : decides w.h o with
      | none => exact .inl (decides_none hd h1)
      | some t' =>
        right
        obtain ⟨_, j, d, h2⟩ := decides_some hd
        obtain ⟨t1, _, _, h3, _, h4, _⟩ := calls_next hr.link.run.inv hp hs h1
        obtain ⟨t2, _, _, h5, _, h6, _⟩ := calls_next hr.link.run.inv hp hs h2
        cases h4
        cases h6
        rw [h3] at h5
        exact h5.symm
  · rintro (h1 | h1)
    · exact .inl h1
    · exact .inr (decides_some h1).2

end Many
end Verif.Parsec.Broker
