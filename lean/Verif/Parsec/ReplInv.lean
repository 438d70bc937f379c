import Verif.Parsec.ShardProps
import Verif.Parsec.Replicated

/-!
# The replicated state follows the leader's shard
-/
namespace Verif.Parsec

/-- What has to survive a change of leader about a transaction. -/
inductive Mark
  | idle
  | prepared (broker : Nat) (u : List (Key × Value))
  | committed (broker : Nat)
  deriving DecidableEq, Repr

/-- The mark of a record. -/
def Ticket.mark (tk : Ticket) : Mark :=
  match tk.state with
  | .begun => .idle
  | .wounded => .idle
  | .prepared => .prepared tk.broker tk.update
  | .committed => .committed tk.broker

/-- The mark of `t` in a shard. -/
def markOf (s : State) (t : Tn) : Mark :=
  match s.ticket t with
  | none => .idle
  | some tk => tk.mark

/-- The broker a shard has recorded for `t`. -/
def brokerOf (s : State) (t : Tn) : Nat :=
  match s.ticket t with
  | none => 0
  | some tk => tk.broker

/-- What a request and its result say about the mark of `x`. -/
def markStep (s : State) (op : Op) (o : Out) (x : Tn) (m : Mark) : Mark :=
  if x ≠ op.ticket then m
  else
    match op with
    | .tryLock .. => m
    | .prepare t u => if o.result = none then .prepared (brokerOf s t) u else m
    | .commit t => if o.result = none then .committed (brokerOf s t) else m
    | .rollback _ => if o.result = none then .idle else m
    | .finish _ => if o.result = none then .idle else m

theorem markOf_acquire (s : State) (keys : Key → Bool) (t : Tn) :
    markOf (acquire s keys).1 t = markOf s t := by
  unfold markOf acquire
  simp only
  cases s.ticket t <;> rfl

theorem markOf_released (s : State) (t : Tn) (tk : Ticket)
    (x : Option Ticket) (y : Tn) :
    markOf (released s t tk x) y =
      if y = t then (match x with | none => .idle | some r => r.mark)
      else markOf s y := by
  unfold markOf released
  simp only
  by_cases h : y = t
  · simp only [if_pos h]
  · simp only [if_neg h]

theorem markOf_prepared {s : State} {t : Tn} {b : Nat}
    {u : List (Key × Value)} :
    markOf s t = .prepared b u ↔
      ∃ tk, s.ticket t = some tk ∧ tk.state = .prepared ∧ tk.broker = b ∧
        tk.update = u := by
  unfold markOf
  cases hs : s.ticket t with
  | none => simp
  | some tk =>
    unfold Ticket.mark
    cases h : tk.state <;> simp [h]

theorem markOf_committed {s : State} {t : Tn} {b : Nat} :
    markOf s t = .committed b ↔
      ∃ tk, s.ticket t = some tk ∧ tk.state = .committed ∧ tk.broker = b := by
  unfold markOf
  cases hs : s.ticket t with
  | none => simp
  | some tk =>
    unfold Ticket.mark
    cases h : tk.state <;> simp [h]

theorem exec_mark {s : State} (inv : Inv s) {op : Op} {s' : State} {o : Out}
    (h : exec s op = some (s', o)) (x : Tn) :
    markOf s' x = markStep s op o x (markOf s x) := by
  cases op with
  | tryLock t b k ty f cb =>
    have hstep : markStep s (.tryLock t b k ty f cb) o x (markOf s x) =
        markOf s x := by
      unfold markStep
      split <;> rfl
    rw [hstep]
    rcases tryLock_cases h with ⟨e, he⟩ | ⟨he, hs, -⟩
    · unfold refuse at he
      simp only [Prod.mk.injEq] at he
      rw [he.1]
    · have hb := (lockError_none he).1
      obtain ⟨h1, h2, -, h4, h5⟩ := accept_ok inv t b k ty cb he
      rw [hs, woundTickets_eq, markOf_acquire]
      have hadd : markOf (addWaiter s t ((s.ticket t).getD {}) b k ty cb) x =
          markOf s x := by
        unfold markOf addWaiter
        simp only
        by_cases hx : x = t
        · subst hx
          rw [if_pos rfl]
          cases hs : s.ticket x with
          | none => simp [Ticket.mark]
          | some tk =>
            rw [hs] at hb
            simp only [Option.getD_some] at hb
            simp [Ticket.mark, hb]
        · rw [if_neg hx]
      rw [← hadd]
      rcases woundFold_ticket (addWaiter s t ((s.ticket t).getD {}) b k ty cb)
        k (waitingOn t ty (s.lock k)) t x with h6 | ⟨h6, tk, h7, h8⟩
      · unfold markOf
        rw [h6]
      · have hw := waitingOn_known inv h6
        have hi : markOf (addWaiter s t ((s.ticket t).getD {}) b k ty cb) x =
            .idle := by
          apply Classical.byContradiction
          intro hne
          rw [hadd] at hne
          have hkeep : ∀ y, s.ticket x = some y → y.state ≠ .prepared →
              y.state ≠ .committed → False := by
            intro y hy g1 g2
            apply hne
            unfold markOf
            rw [hy]
            unfold Ticket.mark
            cases hst : y.state <;> simp_all
          cases hsx : s.ticket x with
          | none =>
            apply hne
            unfold markOf
            rw [hsx]
          | some y =>
            refine hkeep y hsx ?_ ?_
            · intro hp
              have h9 := h5 x (Or.inr ⟨y, hsx, hp⟩)
              rw [h7] at h9
              have hxt : x ≠ t := by
                rintro rfl
                exact absurd hw.1 (Nat.lt_irrefl _)
              simp only [addWaiter, if_neg hxt, hsx, Option.some.injEq] at h9
              rw [← h9, h8] at hp
              simp at hp
            · intro hc
              have h9 := (inv.idle x y hsx (Or.inr hc)).1 k
              have h10 := (mem_waitingOn (inv.key k) t ty x).mp h6
              rw [heldOf_some hsx, h9] at h10
              simp at h10
        rw [hi]
        unfold markOf Ticket.mark
        rw [h7]
        simp [h8]
  | prepare t u =>
    have h' : prepare s t u = (s', o) := Option.some.inj h
    rw [show s' = (prepare s t u).1 by rw [h'],
      show o = (prepare s t u).2 by rw [h']]
    unfold markStep
    rcases prepare_cases s t u with h | ⟨tk, h1, h2, h3⟩
    · rw [h.1]
      split
      · rfl
      · simp [h.2]
    · rw [h3]
      unfold markOf State.setTicket Op.ticket brokerOf
      simp only
      by_cases hx : x = t
      · subst hx
        simp [h1, Ticket.mark]
      · simp [hx]
  | commit t =>
    have h' : commit s t = (s', o) := Option.some.inj h
    rw [show s' = (commit s t).1 by rw [h'],
      show o = (commit s t).2 by rw [h']]
    unfold markStep
    rcases commit_cases s t with h | ⟨tk, h1, h2, h3⟩
    · rw [h.1]
      split
      · rfl
      · simp [h.2.1]
    · rw [h3]
      simp only [markOf_acquire, markOf_released, Op.ticket]
      by_cases hx : x = t
      · subst hx
        simp [committedRecord, Ticket.mark, brokerOf, h1]
      · simp [hx, markOf, applied]
  | rollback t =>
    have h' : rollback s t = (s', o) := Option.some.inj h
    rw [show s' = (rollback s t).1 by rw [h'],
      show o = (rollback s t).2 by rw [h']]
    unfold markStep
    rcases rollback_cases s t with h | ⟨tk, h1, h3⟩
    · rw [h.2]
      split
      · rfl
      · simp
    · rw [h3]
      simp only [markOf_acquire, markOf_released, Op.ticket]
      by_cases hx : x = t
      · simp [hx]
      · simp [hx]
  | finish t =>
    have h' : finish s t = (s', o) := Option.some.inj h
    rw [show s' = (finish s t).1 by rw [h'],
      show o = (finish s t).2 by rw [h']]
    unfold markStep
    rcases finish_cases s t with h | ⟨tk, h1, h2, h3⟩
    · rw [h.1]
      split
      · rfl
      · simp [h.2.1]
    · rw [h3]
      unfold markOf State.setTicket Op.ticket
      simp only
      by_cases hx : x = t
      · simp [hx]
      · simp [hx]

/-! ### The map of replicated tickets -/

theorem lookup_map_set (l : List (Tn × RTicket)) (t : Tn) (r : RTicket)
    (x : Tn) :
    (l.map fun p => if p.1 = t then (t, r) else p).lookup x =
      if x = t then (l.lookup t).map (fun _ => r) else l.lookup x := by
  induction l with
  | nil => simp
  | cons p l ih =>
    obtain ⟨y, z⟩ := p
    simp only [List.map_cons]
    by_cases hy : y = t
    · subst hy
      rw [if_pos rfl]
      simp only [List.lookup_cons]
      by_cases hx : x = y
      · subst hx
        simp
      · have hb : (x == y) = false := by simpa using hx
        rw [ih]
        simp only [hb, if_neg hx]
    · rw [if_neg hy]
      simp only [List.lookup_cons]
      by_cases hx : x = t
      · subst hx
        have hb : (x == y) = false := by simpa using fun h => hy h.symm
        rw [ih]
        simp only [hb, if_true]
      · rw [ih]
        simp only [if_neg hx]

theorem lookup_filter_ne (l : List (Tn × RTicket)) (t x : Tn) :
    (l.filter fun p => p.1 ≠ t).lookup x =
      if x = t then none else l.lookup x := by
  induction l with
  | nil => simp
  | cons p l ih =>
    obtain ⟨y, z⟩ := p
    by_cases hy : y = t
    · subst hy
      rw [List.filter_cons_of_neg (by simp), ih]
      by_cases hx : x = y
      · simp [hx]
      · have hb : (x == y) = false := by simpa using hx
        simp only [if_neg hx, List.lookup_cons, hb]
    · rw [List.filter_cons_of_pos (by simpa using hy), List.lookup_cons, ih]
      by_cases hx : x = t
      · subst hx
        have hb : (x == y) = false := by simpa using fun h => hy h.symm
        simp only [hb, if_true]
      · simp only [if_neg hx, List.lookup_cons]

/-- One entry per ticket. -/
def Distinct (l : List (Tn × RTicket)) : Prop :=
  l.Pairwise fun a b => a.1 ≠ b.1

theorem lookup_none {l : List (Tn × RTicket)} {t : Tn}
    (h : l.lookup t = none) : ∀ p ∈ l, p.1 ≠ t := by
  induction l with
  | nil => simp
  | cons p l ih =>
    obtain ⟨y, z⟩ := p
    rw [List.lookup_cons] at h
    by_cases hy : t = y
    · subst hy
      simp at h
    · have hb : (t == y) = false := by simpa using hy
      simp only [hb] at h
      intro q hq
      rcases List.mem_cons.mp hq with rfl | hq
      · exact fun e => hy e.symm
      · exact ih h q hq

theorem RState.apply_distinct {s : RState} (h : Distinct s.tickets)
    (c : Cmd) : Distinct (s.apply c).1.tickets := by
  cases c with
  | prepare t b u =>
    cases hl : s.tickets.lookup t with
    | some r =>
      simp only [RState.apply, hl]
      exact h
    | none =>
      simp only [RState.apply, hl]
      refine List.pairwise_cons.mpr ⟨?_, h⟩
      intro p hp he
      exact lookup_none hl p hp he.symm
  | commit t =>
    cases hl : s.tickets.lookup t with
    | none =>
      simp only [RState.apply, hl]
      exact h
    | some r =>
      simp only [RState.apply, hl]
      unfold Distinct
      rw [List.pairwise_map]
      refine List.Pairwise.imp ?_ h
      intro a b hab
      split <;> split <;> simp_all
  | finish t => exact List.Pairwise.filter _ h

/-! ### The invariant -/

/-- The request is a prepare of `t`. -/
def Pend.isPrepare (t : Tn) : Pend → Prop
  | .prepare x _ _ => x = t
  | _ => False

/-- How the mark of a transaction, its replicated record and the pending
commands fit together. -/
def TicketOk (t : Tn) (r : Option RTicket) (log : List Pend) : Mark → Prop
  | .idle => r = none ∧ ∀ p ∈ log, ¬ p.isPrepare t
  | .prepared b u =>
    (r = some ⟨b, u, false⟩ ∧ ∀ p ∈ log, ¬ p.isPrepare t) ∨
    (r = none ∧ ∃ pre post, log = pre ++ .prepare t b u :: post ∧
      (∀ p ∈ pre, ¬ p.isPrepare t ∧ p ≠ .rollback t ∧ p ≠ .finish t) ∧
      ∀ p ∈ post, ¬ p.isPrepare t)
  | .committed b =>
    (∃ x, r = some x ∧ x.committed = true ∧ x.broker = b) ∧
    (∀ p ∈ log, ¬ p.isPrepare t) ∧ .commit t ∉ log

theorem TicketOk.tail {t : Tn} {r : Option RTicket} {p : Pend}
    {log : List Pend} {m : Mark} (h : TicketOk t r (p :: log) m)
    (hp : ¬ p.isPrepare t) : TicketOk t r log m := by
  cases m with
  | idle => exact ⟨h.1, fun q hq => h.2 q (List.mem_cons_of_mem _ hq)⟩
  | prepared b u =>
    rcases h with ⟨h1, h2⟩ | ⟨h1, pre, post, h2, h3, h4⟩
    · exact Or.inl ⟨h1, fun q hq => h2 q (List.mem_cons_of_mem _ hq)⟩
    · right
      cases pre with
      | nil =>
        exfalso
        simp only [List.nil_append, List.cons.injEq] at h2
        rw [h2.1] at hp
        exact hp rfl
      | cons q pre =>
        simp only [List.cons_append, List.cons.injEq] at h2
        exact ⟨h1, pre, post, h2.2,
          fun x hx => h3 x (List.mem_cons_of_mem _ hx), h4⟩
  | committed b =>
    exact ⟨h.1, fun q hq => h.2.1 q (List.mem_cons_of_mem _ hq),
      fun hc => h.2.2 (List.mem_cons_of_mem _ hc)⟩

theorem TicketOk.append {t : Tn} {r : Option RTicket} {p : Pend}
    {log : List Pend} {m : Mark} (h : TicketOk t r log m)
    (hp : ¬ p.isPrepare t) (hc : ∀ b, m = .committed b → p ≠ .commit t) :
    TicketOk t r (log ++ [p]) m := by
  have hlog : (∀ q ∈ log, ¬ q.isPrepare t) →
      ∀ q ∈ log ++ [p], ¬ q.isPrepare t := by
    intro h q hq
    rcases List.mem_append.mp hq with hq | hq
    · exact h q hq
    · rw [List.mem_singleton.mp hq]
      exact hp
  cases m with
  | idle => exact ⟨h.1, hlog h.2⟩
  | prepared b u =>
    rcases h with ⟨h1, h2⟩ | ⟨h1, pre, post, h2, h3, h4⟩
    · exact Or.inl ⟨h1, hlog h2⟩
    · right
      refine ⟨h1, pre, post ++ [p], by rw [h2]; simp, h3, ?_⟩
      intro q hq
      rcases List.mem_append.mp hq with hq | hq
      · exact h4 q hq
      · rw [List.mem_singleton.mp hq]
        exact hp
  | committed b =>
    refine ⟨h.1, hlog h.2.1, ?_⟩
    intro hm
    rcases List.mem_append.mp hm with hm | hm
    · exact h.2.2 hm
    · exact hc b rfl (List.mem_singleton.mp hm).symm

/-- The leader's shard, the replicated state and the log agree. -/
structure Sync (s : Sys) : Prop where
  reach : Reach s.shard
  distinct : Distinct s.repl.tickets
  values : s.repl.value = s.shard.value
  ticket : ∀ t, TicketOk t (s.repl.tickets.lookup t) s.log (markOf s.shard t)
  once : ∀ t, s.log.count (.commit t) ≤ 1
  fin : ∀ t, .finish t ∈ s.log → ∀ b u, markOf s.shard t ≠ .prepared b u

/-- How requests have to be made so that the replicated state stays in step
with the leader: `prepare` names the broker that locked, and is not sent while a
rollback or finish of the transaction is on its way; `commit` is not repeated;
`finish` is not sent for a prepared transaction. -/
def Careful (s : Sys) : Event → Prop
  | .request (.prepare t b _) => b = brokerOf s.shard t ∧
      .rollback t ∉ s.log ∧ .finish t ∉ s.log
  | .request (.commit t) => (∀ b, markOf s.shard t ≠ .committed b) ∧
      .commit t ∉ s.log
  | .request (.finish t) => ∀ b u, markOf s.shard t ≠ .prepared b u
  | _ => True

/-- A shard step by an operation of `t`, seen from the other transactions. -/
theorem exec_mark_other {s : State} (inv : Inv s) {op : Op} {s' : State}
    {o : Out} (h : exec s op = some (s', o)) {x : Tn} (hx : x ≠ op.ticket) :
    markOf s' x = markOf s x := by
  rw [exec_mark inv h x]
  unfold markStep
  rw [if_pos hx]

theorem exec_value_eq {s : State} (inv : Inv s) {op : Op} {s' : State}
    {o : Out} (h : exec s op = some (s', o)) (hop : ∀ t, op ≠ .commit t) :
    s'.value = s.value := by
  funext k
  apply Classical.byContradiction
  intro hv
  obtain ⟨t, _, h1, _⟩ := exec_value inv h hv
  exact hop t h1

theorem request_sync {s : Sys} (h : Sync s) {r : Req} {s' : Sys} {o : SOut}
    (hc : Careful s (.request r)) (hs : s.request r = some (s', o)) :
    Sync s' := by
  have inv := h.reach.inv
  cases r with
  | tryLock t b k ty f cb =>
    unfold Sys.request at hs
    simp only at hs
    cases hl : tryLock s.shard t b k ty f cb with
    | none => simp [hl] at hs
    | some q =>
      obtain ⟨sh, o'⟩ := q
      simp only [hl, Option.some.injEq, Prod.mk.injEq] at hs
      rw [← hs.1]
      have he : exec s.shard (.tryLock t b k ty f cb) = some (sh, o') := hl
      have hm : ∀ x, markOf sh x = markOf s.shard x := by
        intro x
        rw [exec_mark inv he x]
        unfold markStep
        split <;> rfl
      constructor
      · exact .step h.reach he
      · exact h.distinct
      · exact h.values.trans (exec_value_eq inv he (by simp)).symm
      · intro x
        simp only [hm]
        exact h.ticket x
      · exact h.once
      · intro x hx
        simp only [hm]
        exact h.fin x hx
  | prepare t b u =>
    unfold Sys.request at hs
    simp only at hs
    cases hl : (prepare s.shard t u).2.result with
    | some e =>
      simp only [hl, Option.some.injEq, Prod.mk.injEq] at hs
      rw [← hs.1]
      exact h
    | none =>
      simp only [hl, Option.some.injEq, Prod.mk.injEq] at hs
      rw [← hs.1]
      have he : exec s.shard (.prepare t u) =
          some ((prepare s.shard t u).1, (prepare s.shard t u).2) := rfl
      have hm := exec_mark inv he t
      simp only [markStep, Op.ticket, hl, ne_eq, not_true_eq_false, if_false,
        if_true] at hm
      rw [← hc.1] at hm
      have hidle : markOf s.shard t = .idle := by
        rcases prepare_cases s.shard t u with h | ⟨tk, h1, h2, h3⟩
        · exact absurd hl h.2
        · unfold markOf
          rw [h1]
          simp only [Ticket.mark, (prepareError_none h2).1]
      have ht := h.ticket t
      rw [hidle] at ht
      have hother : ∀ x, x ≠ t →
          markOf (prepare s.shard t u).1 x = markOf s.shard x :=
        fun x hx => exec_mark_other inv he hx
      constructor
      · exact .step h.reach he
      · exact h.distinct
      · exact h.values.trans (exec_value_eq inv he (by simp)).symm
      · intro x
        simp only
        by_cases hx : x = t
        · subst hx
          rw [hm]
          refine Or.inr ⟨ht.1, s.log, [], by simp, ?_, by simp⟩
          intro p hp
          refine ⟨ht.2 p hp, ?_, ?_⟩
          · rintro rfl
            exact hc.2.1 hp
          · rintro rfl
            exact hc.2.2 hp
        · rw [hother x hx]
          refine (h.ticket x).append ?_ (by simp)
          intro he
          exact hx he.symm
      · intro x
        simp only [List.count_append]
        have := h.once x
        simpa using this
      · intro x hx
        simp only
        have hx' : .finish x ∈ s.log := by simpa using hx
        by_cases hxt : x = t
        · subst hxt
          exact absurd hx' hc.2.2
        · rw [hother x hxt]
          exact h.fin x hx'
  | commit t =>
    simp only [Sys.request, Option.some.injEq, Prod.mk.injEq] at hs
    rw [← hs.1]
    constructor
    · exact h.reach
    · exact h.distinct
    · exact h.values
    · intro x
      refine (h.ticket x).append (by simp [Pend.isPrepare]) ?_
      intro b hb he
      simp only [Pend.commit.injEq] at he
      subst he
      exact hc.1 b hb
    · intro x
      simp only [List.count_append]
      by_cases hx : x = t
      · subst hx
        have := List.count_eq_zero.mpr hc.2
        rw [this]
        simp
      · have := h.once x
        have h0 : List.count (Pend.commit x) [Pend.commit t] = 0 := by
          rw [List.count_eq_zero]
          simp [hx]
        omega
    · intro x hx
      exact h.fin x (by simpa using hx)
  | rollback t =>
    simp only [Sys.request, Option.some.injEq, Prod.mk.injEq] at hs
    rw [← hs.1]
    constructor
    · exact h.reach
    · exact h.distinct
    · exact h.values
    · intro x
      exact (h.ticket x).append (by simp [Pend.isPrepare]) (by simp)
    · intro x
      have := h.once x
      simpa [List.count_append] using this
    · intro x hx
      exact h.fin x (by simpa using hx)
  | finish t =>
    simp only [Sys.request, Option.some.injEq, Prod.mk.injEq] at hs
    rw [← hs.1]
    constructor
    · exact h.reach
    · exact h.distinct
    · exact h.values
    · intro x
      exact (h.ticket x).append (by simp [Pend.isPrepare]) (by simp)
    · intro x
      have := h.once x
      simpa [List.count_append] using this
    · intro x hx
      rcases List.mem_append.mp hx with hx | hx
      · exact h.fin x hx
      · simp only [List.mem_singleton, Pend.finish.injEq] at hx
        subst hx
        exact hc

end Verif.Parsec
