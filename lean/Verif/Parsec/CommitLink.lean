import Verif.Parsec.CommitSys

/-!
# What the broker, the requests and the served requests have to do with each other
-/
namespace Verif.Parsec.Broker

/-- The requests to shard `i` which were not lost, oldest first. -/
def World.seq (w : World) (i : Nat) : List Request := (w.log i).map (·.req) ++ w.net i

/-- Where in the life of a transaction a request belongs. -/
def Request.stage (r : Request) : Nat := 3 * r.ep + r.call.rank

/-- Requests of the same transaction are in order. -/
def InOrder (a b : Request) : Prop :=
  ∀ i j t, a.call.ticket = some (i, t) → b.call.ticket = some (j, t) → a.stage ≤ b.stage

/-- Where a request comes from. -/
structure Origin (h : Hist) (i : Nat) (r : Request) (t : Tn) : Prop where
  ticket : r.call.ticket = some (i, t)
  asked : ∃ x ∈ h, r.call ∈ x.2.calls
  old : r.ep ≤ epoch t h
  now : r.ep = epoch t h → Asked t h r.call

/-- Reports of success in the current attempt are true. -/
structure TrueReports (w : World) : Prop where
  prepared : ∀ t i, (∃ x ∈ attempt t w.h, ∃ c p, x.1 = .prepared c t i none p) →
    ∃ a ∈ w.log i, ∃ u c, a.req = ⟨.prepare i t u c, epoch t w.h⟩ ∧ a.result = none
  committed : ∀ t i, (∃ x ∈ attempt t w.h, ∃ c p, x.1 = .committed c t i none p) →
    ∃ a ∈ w.log i, ∃ c, a.req = ⟨.commit i t c, epoch t w.h⟩ ∧ a.result = none
  rolledBack : ∀ t i, (∃ x ∈ attempt t w.h, ∃ c p, x.1 = .rolledBack c t i none p) →
    ∃ a ∈ w.log i, ∃ c, a.req = ⟨.rollback i t c, epoch t w.h⟩ ∧ a.result = none

/-- The invariant about the broker and the requests. -/
structure Link (n : Nat) (own : Tn → Prop) (w : World) : Prop where
  run : Run n w.h w.b
  ball : BAll w.h w.b
  decided : ∀ t, CommitAsked t w.h → Decided w.h t
  own : ∀ t, Issued t w.h → own t
  origin : ∀ i, ∀ r ∈ w.seq i, ∃ t, Origin w.h i r t
  commits : ∀ i t c ep, ⟨.commit i t c, ep⟩ ∈ w.seq i → ep = epoch t w.h
  order : ∀ i, (w.seq i).Pairwise InOrder
  reports : TrueReports w
  ended : ∀ i t k ty f cb m, ⟨.tryLock i t k ty f cb, m⟩ ∈ w.seq i → m < epoch t w.h →
    ∃ a ∈ w.log i, ∃ c, a.req = ⟨.rollback i t c, m⟩ ∧ a.result = none

theorem epoch_cons_end {t : Tn} {h : Hist} {x : Event × Out} (hx : x.2.said.any (Said.aborts t) = true) :
    epoch t (x :: h) = epoch t h + 1 := by
  unfold epoch
  rw [List.countP_cons_of_pos (by exact hx)]

theorem epoch_cons {t : Tn} {h : Hist} {x : Event × Out} (hx : x.2.said.any (Said.aborts t) = false) :
    epoch t (x :: h) = epoch t h := by
  unfold epoch
  rw [List.countP_cons_of_neg (by simp [hx])]

theorem epoch_le (t : Tn) (h : Hist) (x : Event × Out) : epoch t h ≤ epoch t (x :: h) := by
  cases hx : x.2.said.any (Said.aborts t) with
  | true => rw [epoch_cons_end hx]; omega
  | false => rw [epoch_cons hx]; omega

theorem mem_callsTo {i : Nat} {cs : List Call} {c : Call} :
    c ∈ callsTo i cs ↔ c ∈ cs ∧ ∃ t, c.ticket = some (i, t) := by
  unfold callsTo
  rw [List.mem_filter]
  refine and_congr_right fun _ => ?_
  cases hc : c.ticket with
  | none => simp
  | some q =>
    obtain ⟨j, t⟩ := q
    simp

theorem stamp_call (h : Hist) (c : Call) : (stamp h c).call = c := rfl

theorem stamp_ep {h : Hist} {c : Call} {i : Nat} {t : Tn} (hc : c.ticket = some (i, t)) :
    (stamp h c).ep = epoch t h := by
  unfold stamp
  rw [hc]

theorem Ticket.commit_state (tk : Ticket) (t : Tn) (u : List (Key × Value)) (c : Cont) (p : Option Stop) :
    (tk.commit t u c p).1.state = tk.state := by
  unfold Ticket.commit
  split
  · rfl
  · split <;> rfl

/-- The requests of one event belong to the same phase. -/
theorem same_rank {e : Event} {tk : Ticket} {t : Tn} (ht : e.ticket = some t) {c c' : Call}
    (hc : c ∈ (next e (some tk)).2.1) (hc' : c' ∈ (next e (some tk)).2.1) : c.rank = c'.rank := by
  have key : ∀ {u cb p i d}, e = .commit cb t u p → tk.state = .begun → Call.commit i t d ∈ (next e (some tk)).2.1 → False := by
    intro u cb p i d he hb hm
    have h1 := next_makes ht hm
    subst he
    have h2 := tk.commit_state t u ⟨cb, false⟩ p
    simp only [next] at h1
    cases h1 with
    | commit _ hs => rw [hs, hb] at h2; cases h2
  have h1 := next_makes ht hc
  have h2 := next_makes ht hc'
  generalize (next e (some tk)).1 = nx at h1 h2
  cases h1 with
  | tryLock hb =>
    cases h2 with
    | tryLock => rfl
    | commit _ hs => exact absurd hc' (by
        intro hm
        simp only [next, if_pos hb] at hm
        split at hm
        · simp [stay] at hm
        · dsimp only at hm
          split at hm <;> simp at hm)
  | prepare hb =>
    cases h2 with
    | prepare => rfl
    | commit _ hs => exact (key rfl hb hc').elim
  | commit hb hs =>
    cases h2 with
    | tryLock hb' => exact absurd hc (by
        intro hm
        simp only [next, if_pos hb'] at hm
        split at hm
        · simp [stay] at hm
        · dsimp only at hm
          split at hm <;> simp at hm)
    | prepare hb' => exact (key rfl hb' hc).elim
    | commit => rfl
    | rollback hb' => exact absurd hc (by
        intro hm
        simp only [next, if_pos hb'] at hm
        split at hm
        · simp at hm
        · simp [Ticket.rollback] at hm)
    | finish => rfl
  | rollback hb =>
    cases h2 with
    | rollback => rfl
    | commit _ hs => exact absurd hc' (by
        intro hm
        simp only [next, if_pos hb] at hm
        split at hm
        · simp at hm
        · simp [Ticket.rollback] at hm)
  | finish hb =>
    cases h2 with
    | finish => rfl
    | commit _ hs => rfl

/-- The requests an event makes, for its ticket. -/
theorem calls_next {h : Hist} {s s' : State} {e : Event} {o : Out} (inv : Inv h s) (hp : Plain h e)
    (hs : step s e = some (s', o)) {c : Call} (hc : c ∈ o.calls) :
    ∃ t tk i, e.ticket = some t ∧ s.tickets.lookup t = some tk ∧ c.ticket = some (i, t) ∧
      Steps s e t (s', o) ∧ o.calls = (next e (some tk)).2.1 := by
  cases ht : e.ticket with
  | none =>
    obtain ⟨_, h2, _⟩ := no_ticket inv hp ht hs
    rw [h2] at hc; cases hc
  | some t =>
    have hst := step_next hp.plain ht hs
    obtain ⟨i, hi⟩ := calls_ticket inv hp ht hs c hc
    have hcalls := hst.calls
    cases hl : s.tickets.lookup t with
    | none =>
      rw [hl, (next_none e).1] at hcalls
      dsimp only at hcalls
      rw [hcalls] at hc; cases hc
    | some tk =>
      rw [hl] at hcalls
      exact ⟨t, tk, i, rfl, hl, hi, hst, hcalls⟩

/-- An event that reports a rollback. -/
theorem aborts_next {h : Hist} {s s' : State} {e : Event} {o : Out} (inv : Inv h s) (hp : Plain h e)
    (hs : step s e = some (s', o)) {t : Tn} (hx : o.said.any (Said.aborts t) = true) :
    ∃ tk, e.ticket = some t ∧ s.tickets.lookup t = some tk ∧ Steps s e t (s', o) ∧ (next e (some tk)).2.2 = true := by
  cases ht : e.ticket with
  | none =>
    obtain ⟨_, _, h3⟩ := no_ticket inv hp ht hs
    rw [h3 t] at hx; cases hx
  | some t0 =>
    have hst := step_next hp.plain ht hs
    by_cases hne : t = t0
    · subst hne
      cases hl : s.tickets.lookup t with
      | none =>
        have := hst.said
        rw [hl, (next_none e).2.1] at this
        dsimp only at this
        rw [hx] at this; cases this
      | some tk =>
        have := hst.said
        rw [hl] at this
        dsimp only at this
        rw [hx] at this
        exact ⟨tk, rfl, rfl, hst, this.symm⟩
    · rw [hst.saidOther t hne] at hx; cases hx

/-- A report of a rollback comes with no requests for this ticket. -/
theorem aborts_no_calls {h : Hist} {s s' : State} {e : Event} {o : Out} (inv : Inv h s) (hp : Plain h e)
    (hs : step s e = some (s', o)) {t : Tn} (hx : o.said.any (Said.aborts t) = true) : o.calls = [] := by
  obtain ⟨tk, ht, hl, hst, hn⟩ := aborts_next inv hp hs hx
  have := hst.calls
  rw [hl, (next_abort hn).2.1] at this
  exact this

/-- All shards of the ticket were rolled back when the user is told so. -/
theorem aborts_all {h : Hist} {s s' : State} {e : Event} {o : Out} (inv : Inv h s) (ball : BAll h s) (hp : Plain h e)
    (hs : step s e = some (s', o)) {t : Tn} (hx : o.said.any (Said.aborts t) = true)
    {c : Call} {i : Nat} (ha : Asked t h c) (hc : c.ticket = some (i, t)) :
    (∃ x ∈ attempt t h, ∃ c p, x.1 = .rolledBack c t i none p) ∨ ∃ c p, e = .rolledBack c t i none p := by
  obtain ⟨tk, ht, hl, hst, hn⟩ := aborts_next inv hp hs hx
  obtain ⟨hb, _, _, _, _, h1⟩ := next_abort hn
  have tinv := inv.ticket t tk hl
  have hh := tinv.known c i ha hc
  rcases h1 with ⟨h1, _⟩ | ⟨c', t', j, p, h1, h2, h3⟩
  · obtain ⟨x, hx, _⟩ := hh
    rw [h1] at hx; cases hx
  · subst h1
    cases ht
    by_cases hij : i = j
    · exact .inr ⟨c', p, by rw [hij]⟩
    · obtain ⟨x, hxm, hxi⟩ := hh
      have hm : x ∈ touch tk.shards j := by
        unfold touch
        split
        · exact hxm
        · exact List.mem_append_left _ hxm
      have h4 : x ∈ update (touch tk.shards j) j (fun _ => { state := .rolledBack, keys := [] }) :=
        List.mem_map.mpr ⟨x, hm, if_neg (by rw [hxi]; exact hij)⟩
      obtain ⟨y, h5, h6⟩ := (ball.ticket t tk hl).undone hb x hxm (h3 x h4)
      rw [hxi] at h6
      exact .inl ⟨y, h5, h6⟩

theorem mem_attempt_cons {t : Tn} {h : Hist} {x y : Event × Out} (hy : y ∈ attempt t (x :: h)) :
    x.2.said.any (Said.aborts t) = false ∧ (y = x ∨ y ∈ attempt t h) := by
  cases hx : x.2.said.any (Said.aborts t) with
  | true => rw [attempt_end hx] at hy; cases hy
  | false =>
    rw [attempt_cons hx] at hy
    exact ⟨rfl, List.mem_cons.mp hy⟩

theorem TrueReports.event {w : World} (hr : TrueReports w) {e : Event} (hj : Justified w e) (s : State) (o : Out) :
    TrueReports (w.event e s o) where
  prepared := by
    rintro t i ⟨y, hy, c, p, h1⟩
    obtain ⟨hx, hy⟩ := mem_attempt_cons hy
    show ∃ a ∈ w.log i, ∃ u c, a.req = ⟨.prepare i t u c, epoch t ((e, o) :: w.h)⟩ ∧ a.result = none
    rw [epoch_cons hx]
    rcases hy with rfl | hy
    · dsimp only at h1
      subst h1
      obtain ⟨a, h2, u, h3, h4⟩ := hj
      exact ⟨a, h2, u, c, h3, h4⟩
    · exact hr.prepared t i ⟨y, hy, c, p, h1⟩
  committed := by
    rintro t i ⟨y, hy, c, p, h1⟩
    obtain ⟨hx, hy⟩ := mem_attempt_cons hy
    show ∃ a ∈ w.log i, ∃ c, a.req = ⟨.commit i t c, epoch t ((e, o) :: w.h)⟩ ∧ a.result = none
    rw [epoch_cons hx]
    rcases hy with rfl | hy
    · dsimp only at h1
      subst h1
      obtain ⟨a, h2, h3, h4⟩ := hj
      exact ⟨a, h2, c, h3, h4⟩
    · exact hr.committed t i ⟨y, hy, c, p, h1⟩
  rolledBack := by
    rintro t i ⟨y, hy, c, p, h1⟩
    obtain ⟨hx, hy⟩ := mem_attempt_cons hy
    show ∃ a ∈ w.log i, ∃ c, a.req = ⟨.rollback i t c, epoch t ((e, o) :: w.h)⟩ ∧ a.result = none
    rw [epoch_cons hx]
    rcases hy with rfl | hy
    · dsimp only at h1
      subst h1
      obtain ⟨a, h2, h3, h4⟩ := hj
      exact ⟨a, h2, c, h3, h4⟩
    · exact hr.rolledBack t i ⟨y, hy, c, p, h1⟩

/-- Requests only grow in number. -/
theorem TrueReports.log {w w' : World} (hr : TrueReports w) (hh : w'.h = w.h) (hl : ∀ i, ∀ a ∈ w.log i, a ∈ w'.log i) :
    TrueReports w' where
  prepared := by
    intro t i hx
    rw [hh] at hx ⊢
    obtain ⟨a, h1, h2⟩ := hr.prepared t i hx
    exact ⟨a, hl i a h1, h2⟩
  committed := by
    intro t i hx
    rw [hh] at hx ⊢
    obtain ⟨a, h1, h2⟩ := hr.committed t i hx
    exact ⟨a, hl i a h1, h2⟩
  rolledBack := by
    intro t i hx
    rw [hh] at hx ⊢
    obtain ⟨a, h1, h2⟩ := hr.rolledBack t i hx
    exact ⟨a, hl i a h1, h2⟩

theorem Link.start {n : Nat} {own : Tn → Prop} {w : World} (h : w.Initial n own) : Link n own w := by
  have hseq : ∀ i, w.seq i = [] := by
    intro i
    unfold World.seq
    rw [h.log, h.net]
    rfl
  refine ⟨?_, ?_, ?_, ?_, ?_, ?_, ?_, ?_, ?_⟩
  · rw [h.hist, h.broker]; exact .start
  · rw [h.hist, h.broker]
    refine ⟨?_, ?_, ?_⟩
    · intro t tk hl
      simp at hl
    · rintro t _ ⟨i, c, x, hx, _⟩
      simp [attempt] at hx
    · rintro t i u c ⟨x, hx, _⟩
      simp [attempt] at hx
  · rw [h.hist]
    rintro t ⟨x, hx, _⟩
    cases hx
  · rw [h.hist]
    rintro t ⟨x, hx, _⟩
    cases hx
  · intro i r hr
    rw [hseq] at hr; cases hr
  · intro i t c ep hr
    rw [hseq] at hr; cases hr
  · intro i
    rw [hseq]; exact .nil
  · constructor <;> rintro t i ⟨x, hx, _⟩ <;> rw [h.hist] at hx <;> simp [attempt] at hx
  · intro i t k ty f cb m hr
    rw [hseq] at hr; cases hr

/-- Steps in which the broker does nothing: of the requests some may be lost, some may be served. -/
theorem Link.same {n : Nat} {own : Tn → Prop} {w w' : World} (hl : Link n own w) (hb : w'.b = w.b)
    (hh : w'.h = w.h) (hs : ∀ i, (w'.seq i).Sublist (w.seq i)) (hg : ∀ i, ∀ a ∈ w.log i, a ∈ w'.log i) :
    Link n own w' where
  run := by rw [hb, hh]; exact hl.run
  ball := by rw [hb, hh]; exact hl.ball
  decided := by rw [hh]; exact hl.decided
  own := by rw [hh]; exact hl.own
  origin := by
    intro i r hr
    rw [hh]
    exact hl.origin i r ((hs i).subset hr)
  commits := by
    intro i t c ep hr
    rw [hh]
    exact hl.commits i t c ep ((hs i).subset hr)
  order := fun i => (hl.order i).sublist (hs i)
  reports := hl.reports.log hh hg
  ended := by
    intro i t k ty f cb m hr hm
    rw [hh] at hm
    obtain ⟨a, h1, h2⟩ := hl.ended i t k ty f cb m ((hs i).subset hr) hm
    exact ⟨a, hg i a h1, h2⟩

theorem Link.event {n : Nat} {own : Tn → Prop} {w : World} (hl : Link n own w) {e : Event} {s : State} {o : Out}
    (hp : Plain w.h e) (ho : Orderly w.h e) (hj : Justified w e)
    (hn : ∀ cb t m, e = .ticketNumber cb (some (t, m)) → own t) (hs : step w.b e = some (s, o)) :
    Link n own (w.event e s o) := by
  have inv := hl.run.inv
  have run' := hl.run.step hp hs
  have inv' := run'.inv
  have hseq : ∀ i, (w.event e s o).seq i = w.seq i ++ (callsTo i o.calls).map (stamp ((e, o) :: w.h)) := by
    intro i
    simp only [World.seq, World.event, List.append_assoc]
  -- new requests
  have hnew : ∀ i r, r ∈ (callsTo i o.calls).map (stamp ((e, o) :: w.h)) →
      r.call ∈ o.calls ∧ ∃ t, r.call.ticket = some (i, t) ∧ r.ep = epoch t ((e, o) :: w.h) ∧
        o.said.any (Said.aborts t) = false := by
    intro i r hr
    obtain ⟨c, h1, rfl⟩ := List.mem_map.mp hr
    obtain ⟨h2, t, h3⟩ := mem_callsTo.mp h1
    refine ⟨h2, t, h3, stamp_ep h3, ?_⟩
    cases hx : o.said.any (Said.aborts t) with
    | false => rfl
    | true => rw [aborts_no_calls inv hp hs hx] at h2; cases h2
  -- origins
  have horigin : ∀ i, ∀ r ∈ (w.event e s o).seq i, ∃ t, Origin ((e, o) :: w.h) i r t := by
    intro i r hr
    rw [hseq] at hr
    rcases List.mem_append.mp hr with hr | hr
    · obtain ⟨t, h1⟩ := hl.origin i r hr
      obtain ⟨x, h2, h3⟩ := h1.asked
      refine ⟨t, h1.ticket, ⟨x, List.mem_cons_of_mem _ h2, h3⟩, Nat.le_trans h1.old (epoch_le _ _ _), fun h4 => ?_⟩
      cases hx : o.said.any (Said.aborts t) with
      | true =>
        rw [epoch_cons_end hx] at h4
        have := h1.old
        omega
      | false =>
        rw [epoch_cons hx] at h4
        exact (h1.now h4).mono hx
    · obtain ⟨h1, t, h2, h3, h4⟩ := hnew i r hr
      exact ⟨t, h2, ⟨_, List.mem_cons_self, h1⟩, Nat.le_of_eq h3, fun _ => .new h4 h1⟩
  refine ⟨run', ball_step inv hl.ball hp ho hs, decided_step hl.run hl.ball hl.decided hp ho hs, ?_, horigin, ?_, ?_,
    hl.reports.event hj s o, ?_⟩
  · rintro t ⟨x, hx, cb, m, h1⟩
    rcases List.mem_cons.mp hx with rfl | hx
    · exact hn cb t m h1
    · exact hl.own t ⟨x, hx, cb, m, h1⟩
  · intro i t c ep hr
    rw [hseq] at hr
    rcases List.mem_append.mp hr with hr | hr
    · have h1 := hl.commits i t c ep hr
      show ep = epoch t ((e, o) :: w.h)
      cases hx : o.said.any (Said.aborts t) with
      | false => rw [epoch_cons hx]; exact h1
      | true =>
        obtain ⟨tk, ht, hlk, hst, hnx⟩ := aborts_next inv hp hs hx
        obtain ⟨_, _, tk', h2, h3, _⟩ := next_abort hnx
        have h4 := hst.own
        rw [hlk, h2] at h4
        obtain ⟨t', h5⟩ := hl.origin i _ hr
        obtain ⟨x, h6, h7⟩ := h5.asked
        exact absurd ⟨x, List.mem_cons_of_mem _ h6, i, c, h7⟩ ((inv'.ticket t tk' h4).fresh (.inr h3))
    · obtain ⟨_, t', h2, h3, _⟩ := hnew i _ hr
      cases h2
      exact h3
  · intro i
    rw [hseq, List.pairwise_append]
    refine ⟨hl.order i, ?_, ?_⟩
    · rw [List.pairwise_iff_forall_sublist]
      intro a b hab j j' t hta htb
      have ha := hab.subset (List.mem_cons_self)
      have hb := hab.subset (List.mem_cons_of_mem _ List.mem_cons_self)
      obtain ⟨h1, t1, h2, h3, _⟩ := hnew i a ha
      obtain ⟨h4, t2, h5, h6, _⟩ := hnew i b hb
      rw [hta] at h2; cases h2
      rw [htb] at h5; cases h5
      obtain ⟨t', tk, _, ht', hlk, _, _, hcs⟩ := calls_next inv hp hs h1
      rw [hcs] at h1 h4
      unfold Request.stage
      rw [h3, h6, same_rank ht' h1 h4]
      exact Nat.le_refl _
    · intro a ha b hb j j' t hta htb
      obtain ⟨h4, t2, h5, h6, h7⟩ := hnew i b hb
      rw [htb] at h5; cases h5
      rw [epoch_cons h7] at h6
      obtain ⟨t1, h1⟩ := hl.origin i a ha
      have h2 := h1.ticket
      rw [hta] at h2; cases h2
      unfold Request.stage
      have h8 := rank_le a.call
      by_cases h9 : a.ep = epoch t w.h
      · have := rank_step inv hl.ball hp ho hs h4 htb (h1.now h9) hta
        omega
      · have := h1.old
        omega
  · intro i t k ty f cb m hr hm
    rw [hseq] at hr
    have hm : m < epoch t ((e, o) :: w.h) := hm
    show ∃ a ∈ w.log i, ∃ c, a.req = ⟨.rollback i t c, m⟩ ∧ a.result = none
    rcases List.mem_append.mp hr with hr | hr
    · by_cases h1 : m < epoch t w.h
      · exact hl.ended i t k ty f cb m hr h1
      · cases hx : o.said.any (Said.aborts t) with
        | false =>
          rw [epoch_cons hx] at hm
          exact absurd hm h1
        | true =>
          rw [epoch_cons_end hx] at hm
          have hme : m = epoch t w.h := by omega
          obtain ⟨t', h2⟩ := hl.origin i _ hr
          have h3 := h2.ticket
          cases h3
          rcases aborts_all inv hl.ball hp hs hx (h2.now hme) h2.ticket with h4 | ⟨c, p, h4⟩
          · obtain ⟨a, h5, c, h6, h7⟩ := hl.reports.rolledBack t i h4
            exact ⟨a, h5, c, by rw [h6, hme], h7⟩
          · subst h4
            obtain ⟨a, h5, h6, h7⟩ := hj
            exact ⟨a, h5, c, by rw [h6, hme], h7⟩
    · obtain ⟨_, t', h2, h3, _⟩ := hnew i _ hr
      cases h2
      dsimp only at h3
      omega

theorem put_same {α : Type} (f : Nat → α) (i : Nat) (x : α) : put f i x i = x := by simp [put]
theorem put_other {α : Type} (f : Nat → α) {i j : Nat} (x : α) (h : j ≠ i) : put f i x j = f j := by simp [put, h]

theorem seq_serve {w : World} {i : Nat} {r : Request} {rest : List Request} (hn : w.net i = r :: rest)
    (s : Parsec.State) (o : Parsec.Out) (j : Nat) : (w.serve i r rest s o).seq j = w.seq j := by
  unfold World.seq World.serve
  by_cases hj : j = i
  · subst hj
    dsimp only
    rw [put_same, put_same, hn, List.map_append, List.append_assoc]
    rfl
  · dsimp only
    rw [put_other _ _ hj, put_other _ _ hj]

theorem Link.serve {n : Nat} {own : Tn → Prop} {w : World} (hl : Link n own w) {i : Nat} {r : Request}
    {rest : List Request} (hn : w.net i = r :: rest) (s : Parsec.State) (o : Parsec.Out) :
    Link n own (w.serve i r rest s o) := by
  refine hl.same rfl rfl ?_ ?_
  · intro j
    rw [seq_serve hn]
    exact List.Sublist.refl _
  · intro j a ha
    show a ∈ put w.log i _ j
    by_cases hj : j = i
    · subst hj
      rw [put_same]
      exact List.mem_append_left _ ha
    · rw [put_other _ _ hj]
      exact ha

theorem Link.lose {n : Nat} {own : Tn → Prop} {w : World} (hl : Link n own w) {i : Nat} {l : List Request}
    (h : l.Sublist (w.net i)) : Link n own { w with net := put w.net i l } := by
  refine hl.same rfl rfl ?_ (fun _ _ ha => ha)
  intro j
  show ((w.log j).map (·.req) ++ put w.net i l j).Sublist ((w.log j).map (·.req) ++ w.net j)
  refine (List.Sublist.refl _).append ?_
  by_cases hj : j = i
  · subst hj
    rw [put_same]
    exact h
  · rw [put_other _ _ hj]
    exact List.Sublist.refl _

theorem Link.step {n me : Nat} {own : Tn → Prop} {w w' : World} (hl : Link n own w) (h : w.Step me own Orderly w') :
    Link n own w' := by
  cases h with
  | event hp ho hj hn hs => exact hl.event hp ho hj hn hs
  | serve hn ho he => exact hl.serve hn _ _
  | lose h => exact hl.lose h
  | other hn he => exact hl.same rfl rfl (fun _ => List.Sublist.refl _) (fun _ _ ha => ha)

theorem Runs.link {n me : Nat} {own : Tn → Prop} {w : World} (h : Runs n me own Orderly w) : Link n own w := by
  induction h with
  | start h => exact .start h
  | step _ h ih => exact ih.step h

end Verif.Parsec.Broker
