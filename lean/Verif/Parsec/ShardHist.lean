import Verif.Parsec.ShardCalls

/-!
# Histories of the PArSEC shard

Lemmas about what one operation does to the records of all transactions.
-/
namespace Verif.Parsec

/-- A wounding loop leaves a record alone or marks it wounded. -/
theorem woundFold_ticket (s : State) (key : Key) (bs : List Tn)
    (blocked : Tn) (t : Tn) :
    (woundFold s key bs blocked).st.ticket t = s.ticket t ∨
    (t ∈ bs ∧ ∃ tk, (woundFold s key bs blocked).st.ticket t = some tk ∧
      tk.state = .wounded) := by
  unfold woundFold
  have h : ∀ (l : List Tn) (a : Wounding),
      (l.foldl (woundOne blocked key) a).st.ticket t = a.st.ticket t ∨
      (t ∈ l ∧ ∃ tk, (l.foldl (woundOne blocked key) a).st.ticket t = some tk ∧
        tk.state = .wounded) := by
    intro l
    induction l with
    | nil => intro a; exact Or.inl rfl
    | cons b l ih =>
      intro a
      rw [List.foldl_cons]
      rcases ih (woundOne blocked key a b) with h | ⟨h1, h2⟩
      · rw [h]
        unfold woundOne
        simp only
        split
        · exact Or.inl rfl
        · by_cases hb : t = b
          · right
            subst hb
            refine ⟨List.mem_cons_self, ?_⟩
            simp [release]
          · left
            simp [release, hb]
      · exact Or.inr ⟨List.mem_cons_of_mem _ h1, h2⟩
  exact h bs _

/-- A transaction that does not wait is not touched when locks are handed
on. -/
theorem acquire_idle {P : Tn → Prop} {D : Key → Prop} {s : State}
    (inv : InvP P D s) (keys : Key → Bool) {t : Tn} {x : Option Ticket}
    (h : s.ticket t = x) (hx : ∀ tk, x = some tk → tk.queued = []) :
    (acquire s keys).1.ticket t = x := by
  rw [acquire_ticket_eq, h]
  intro k
  apply inv.not_in_queue
  rintro ⟨tk, h1, h2⟩
  rw [h] at h1
  rw [hx tk h1] at h2
  simp at h2

theorem bare_committed (tk : Ticket) : Bare (some (committedRecord tk)) := by
  intro tk2 he
  simp only [Option.some.injEq] at he
  subst he
  exact ⟨fun _ => rfl, rfl, by simp [committedRecord]⟩

/-- Records of other transactions after a release. -/
theorem release_other {s : State} (inv : Inv s) {t x : Tn} {tk tk' : Ticket}
    {y : Option Ticket} (ht : s.ticket t = some tk)
    (hh : tk'.held = tk.held) (hq : tk'.queued = tk.queued) (hy : Bare y)
    (keys : Key → Bool) (hx : x ≠ t) (hidle : ∀ r, s.ticket x = some r →
      r.queued = []) :
    (acquire (released s t tk' y) keys).1.ticket x = s.ticket x := by
  have h1 := released_ok (tk' := tk') (x := y) inv ht hh hq hy
  exact acquire_idle h1 keys (by simp [released, hx]) hidle

/-- A prepared transaction is touched only by its own commit or rollback. -/
theorem exec_prepared {s : State} (inv : Inv s) {t : Tn} {tk : Ticket}
    (ht : s.ticket t = some tk) (hp : tk.state = .prepared) {op : Op}
    {s' : State} {o : Out} (h : exec s op = some (s', o))
    (hc : op ≠ .commit t) (hr : op ≠ .rollback t) :
    s'.ticket t = some tk := by
  obtain ⟨hq, -⟩ := inv.prep t tk ht hp
  have hq' : ∀ r, s.ticket t = some r → r.queued = [] := by
    intro r hr
    rw [ht] at hr
    rw [← Option.some.inj hr]
    exact hq
  cases op with
  | tryLock t' b k ty f cb =>
    rcases tryLock_cases h with ⟨e, he⟩ | ⟨he, hs, -⟩
    · unfold refuse at he
      simp only [Prod.mk.injEq] at he
      rw [he.1]
      exact ht
    · have hne : t ≠ t' := by
        rintro rfl
        have := (lockError_none he).1
        rw [ht] at this
        simp [hp] at this
      obtain ⟨h1, -, -, -, h5⟩ := accept_ok inv t' b k ty cb he
      rw [hs, woundTickets_eq]
      refine acquire_idle h1 _ ?_ (fun r hr => by
        rw [← Option.some.inj hr]
        exact hq)
      rw [h5 t (Or.inr ⟨tk, ht, hp⟩)]
      simp [addWaiter, hne, ht]
  | prepare t' u =>
    have h' : prepare s t' u = (s', o) := Option.some.inj h
    rw [show s' = (prepare s t' u).1 by rw [h']]
    rcases prepare_cases s t' u with h | ⟨tk', h1, h2, h3⟩
    · rw [h.1]
      exact ht
    · have hne : t ≠ t' := by
        rintro rfl
        rw [ht] at h1
        have := (prepareError_none h2).1
        rw [← Option.some.inj h1, hp] at this
        simp at this
      rw [h3]
      simp [State.setTicket, hne, ht]
  | commit t' =>
    have hne : t ≠ t' := by
      rintro rfl
      exact hc rfl
    have h' : commit s t' = (s', o) := Option.some.inj h
    rw [show s' = (commit s t').1 by rw [h']]
    rcases commit_cases s t' with h | ⟨tk', h1, -, h3⟩
    · rw [h.1]
      exact ht
    · rw [h3]
      exact (release_other (s := applied s tk') (inv.setValue _) (tk := tk')
        (tk' := { tk' with state := .committed }) h1
        rfl rfl (bare_committed tk') _ hne hq').trans ht
  | rollback t' =>
    have hne : t ≠ t' := by
      rintro rfl
      exact hr rfl
    have h' : rollback s t' = (s', o) := Option.some.inj h
    rw [show s' = (rollback s t').1 by rw [h']]
    rcases rollback_cases s t' with h | ⟨tk', h1, h3⟩
    · rw [h.2]
      exact ht
    · rw [h3]
      exact (release_other inv h1 rfl rfl bare_none _ hne hq').trans ht
  | finish t' =>
    have h' : finish s t' = (s', o) := Option.some.inj h
    rw [show s' = (finish s t').1 by rw [h']]
    rcases finish_cases s t' with h | ⟨tk', h1, h2, h3⟩
    · rw [h.1]
      exact ht
    · have hne : t ≠ t' := by
        rintro rfl
        rw [ht] at h1
        rw [← Option.some.inj h1, hp] at h2
        simp at h2
      rw [h3]
      simp [State.setTicket, hne, ht]

theorem acquire_value (s : State) (keys : Key → Bool) :
    (acquire s keys).1.value = s.value := rfl

/-- Values change only in a successful commit. -/
theorem exec_value {s : State} (inv : Inv s) {op : Op} {s' : State} {o : Out}
    (h : exec s op = some (s', o)) {k : Key} (hv : s'.value k ≠ s.value k) :
    ∃ t tk, op = .commit t ∧ o.result = none ∧ s.ticket t = some tk ∧
      tk.state = .prepared ∧ tk.update.lookup k = some (s'.value k) ∧
      (∃ tk', s'.ticket t = some tk' ∧ tk'.state = .committed ∧
        ∀ x, tk'.held x = none) := by
  cases op with
  | tryLock t b k' ty f cb =>
    exfalso
    rcases tryLock_cases h with ⟨e, he⟩ | ⟨he, hs, -⟩
    · unfold refuse at he
      simp only [Prod.mk.injEq] at he
      rw [he.1] at hv
      exact hv rfl
    · obtain ⟨-, -, h3, -⟩ := accept_ok inv t b k' ty cb he
      rw [hs, woundTickets_eq] at hv
      simp only [acquire_value] at hv
      rw [h3] at hv
      exact hv rfl
  | prepare t u =>
    exfalso
    have h' : prepare s t u = (s', o) := Option.some.inj h
    rw [show s' = (prepare s t u).1 by rw [h']] at hv
    rcases prepare_cases s t u with h | ⟨tk', h1, h2, h3⟩
    · rw [h.1] at hv
      exact hv rfl
    · rw [h3] at hv
      exact hv rfl
  | commit t =>
    have h' : commit s t = (s', o) := Option.some.inj h
    rw [show s' = (commit s t).1 by rw [h']] at hv ⊢
    rw [show o = (commit s t).2 by rw [h']]
    rcases commit_cases s t with h | ⟨tk, h1, h2, h3⟩
    · rw [h.1] at hv
      exact absurd rfl hv
    · refine ⟨t, tk, rfl, ?_, h1, h2, ?_, ?_⟩
      · rw [h3]
      · rw [h3] at hv ⊢
        simp only [acquire_value, released, applied, applyUpdate] at hv ⊢
        cases hl : tk.update.lookup k with
        | none =>
          rw [hl] at hv
          exact absurd rfl hv
        | some v => simp
      · rw [h3]
        have hinv := released_ok (tk' := { tk with state := .committed })
          (s := applied s tk) (inv.setValue _) (tk := tk) h1 rfl rfl
          (bare_committed tk)
        refine ⟨committedRecord tk, ?_, rfl, fun _ => rfl⟩
        refine acquire_idle hinv _ (by simp [released]) ?_
        intro r hr
        rw [← Option.some.inj hr]
        rfl
  | rollback t =>
    exfalso
    have h' : rollback s t = (s', o) := Option.some.inj h
    rw [show s' = (rollback s t).1 by rw [h']] at hv
    rcases rollback_cases s t with h | ⟨tk', h1, h3⟩
    · rw [h.2] at hv
      exact hv rfl
    · rw [h3] at hv
      exact hv rfl
  | finish t =>
    exfalso
    have h' : finish s t = (s', o) := Option.some.inj h
    rw [show s' = (finish s t).1 by rw [h']] at hv
    rcases finish_cases s t with h | ⟨tk', h1, h2, h3⟩
    · rw [h.1] at hv
      exact hv rfl
    · rw [h3] at hv
      exact hv rfl

/-! ### Phases -/

/-- The phase of a transaction in the protocol. -/
inductive Phase
  | active
  | prepared
  | committed
  deriving DecidableEq, Repr

/-- The phase a record is in. -/
def Ticket.phase (tk : Ticket) : Phase :=
  match tk.state with
  | .begun => .active
  | .wounded => .active
  | .prepared => .prepared
  | .committed => .committed

/-- The phase of `t`, `none` if it is unknown. -/
def phaseOf (s : State) (t : Tn) : Option Phase :=
  (s.ticket t).map Ticket.phase

/-- What a request and its result say about the phase of `x`. -/
def phaseStep (op : Op) (o : Out) (x : Tn) (p : Option Phase) :
    Option Phase :=
  if x ≠ op.ticket then p
  else
    match op with
    | .tryLock _ _ _ _ first _ => if first then some .active else p
    | .prepare _ _ => if o.result = none then some .prepared else p
    | .commit _ => if o.result = none then some .committed else p
    | .rollback _ => if o.result = none then none else p
    | .finish _ => if o.result = none then none else p

theorem phaseOf_acquire (s : State) (keys : Key → Bool) (t : Tn) :
    phaseOf (acquire s keys).1 t = phaseOf s t := by
  unfold phaseOf acquire
  simp only
  cases s.ticket t <;> rfl

theorem phaseOf_released (s : State) (t : Tn) (tk : Ticket)
    (x : Option Ticket) (y : Tn) :
    phaseOf (released s t tk x) y =
      if y = t then x.map Ticket.phase else phaseOf s y := by
  unfold phaseOf released
  simp only
  split <;> rfl

theorem exec_phase {s : State} (inv : Inv s) {op : Op} {s' : State} {o : Out}
    (h : exec s op = some (s', o)) (x : Tn) :
    phaseOf s' x = phaseStep op o x (phaseOf s x) := by
  cases op with
  | tryLock t b k ty f cb =>
    have hexit : ¬ (f = true ∧ (s.ticket t).isSome = true) := by
      intro hc
      simp only [exec, tryLock] at h
      rw [if_pos hc] at h
      simp at h
    rcases tryLock_cases h with ⟨e, he⟩ | ⟨he, hs, -⟩
    · have hf : f = false := by
        cases f with
        | false => rfl
        | true =>
          exfalso
          have hn : s.ticket t = none := by
            cases hs : s.ticket t with
            | none => rfl
            | some _ => exact absurd ⟨rfl, by simp [hs]⟩ hexit
          simp only [exec, tryLock, hn] at h
          simp [lockError] at h
          unfold refuse at he
          simp only [Prod.mk.injEq] at he
          rw [he.1] at h
          have h1 : (woundTickets (addWaiter s t {} b k ty cb) k
              (waitingOn t ty (s.lock k)) t).1 = s := h.1
          have hk : lockError ((s.ticket t).getD {}) k ty = none := by
            simp [hn, lockError]
          obtain ⟨-, -, -, -, h5⟩ := accept_ok inv t b k ty cb hk
          have hnot : t ∉ waitingOn t ty (s.lock k) := by
            intro hc
            exact absurd (waitingOn_known inv hc).1 (Nat.lt_irrefl _)
          have h6 := h5 t (Or.inl hnot)
          have h7 : ((woundTickets (addWaiter s t {} b k ty cb) k
              (waitingOn t ty (s.lock k)) t).1.ticket t).isSome = true := by
            rw [woundTickets_eq]
            simp only [hn, Option.getD_none] at h6
            simp only [acquire, Option.isSome_map]
            rw [h6]
            simp [addWaiter]
          rw [h1, hn] at h7
          simp at h7
      unfold refuse at he
      simp only [Prod.mk.injEq] at he
      rw [he.1, hf]
      simp [phaseStep]
    · have hb := (lockError_none he).1
      obtain ⟨h1, h2, -, h4, h5⟩ := accept_ok inv t b k ty cb he
      rw [hs, woundTickets_eq, phaseOf_acquire]
      have hnot : t ∉ waitingOn t ty (s.lock k) := by
        intro hc
        exact absurd (waitingOn_known inv hc).1 (Nat.lt_irrefl _)
      by_cases hx : x = t
      · subst hx
        have h6 := h5 x (Or.inl hnot)
        unfold phaseOf
        rw [h6]
        simp only [addWaiter, if_true, Option.map_some, Ticket.phase, hb,
          phaseStep, Op.ticket, ne_eq, not_true_eq_false, if_false]
        cases hsx : s.ticket x with
        | none =>
          cases f with
          | true => rfl
          | false =>
            exfalso
            simp only [exec, tryLock, hsx] at h
            simp [refuse] at h
            have h8 := hs
            rw [← h.1] at h8
            have h7 := congrArg (fun st : State => (st.ticket x).isSome) h8
            rw [woundTickets_eq] at h7
            simp only [acquire, Option.isSome_map, hsx] at h7
            rw [hsx] at h6
            rw [h6] at h7
            simp [addWaiter] at h7
        | some tk =>
          rw [hsx] at hb
          simp only [Option.getD_some] at hb
          simp [Ticket.phase, hb]
      · have hps : phaseStep (.tryLock t b k ty f cb) o x (phaseOf s x) =
            phaseOf s x := by simp [phaseStep, Op.ticket, hx]
        rw [hps]
        have hs1 : phaseOf (addWaiter s t ((s.ticket t).getD {}) b k ty cb) x
            = phaseOf s x := by simp [phaseOf, addWaiter, hx]
        rw [← hs1]
        rcases woundFold_ticket
          (addWaiter s t ((s.ticket t).getD {}) b k ty cb) k
          (waitingOn t ty (s.lock k)) t x with h6 | ⟨h6, tk', h7, h8⟩
        · unfold phaseOf
          rw [h6]
        · -- `x` held a lock, so it was neither wounded nor committed
          have hm := (mem_waitingOn (inv.key k) t ty x).mp h6
          have hk := (waitingOn_known inv h6).2
          obtain ⟨tk, htk⟩ := Option.isSome_iff_exists.mp hk
          have hnp : tk.state ≠ .prepared := by
            intro hc
            have h9 := (h2 x).mpr ⟨tk, htk, hc⟩
            obtain ⟨tk2, g1, g2⟩ := h9
            rw [h7] at g1
            rw [← Option.some.inj g1, h8] at g2
            simp at g2
          have hbg : tk.state = .begun := by
            cases hst : tk.state with
            | begun => rfl
            | prepared => exact absurd hst hnp
            | wounded =>
              have := (inv.idle x tk htk (Or.inl hst)).1 k
              rw [heldOf_some htk, this] at hm
              simp at hm
            | committed =>
              have := (inv.idle x tk htk (Or.inr hst)).1 k
              rw [heldOf_some htk, this] at hm
              simp at hm
          have hs2 : (addWaiter s t ((s.ticket t).getD {}) b k ty
              cb).ticket x = some tk := by simp [addWaiter, hx, htk]
          unfold phaseOf
          rw [h7, hs2]
          simp [Ticket.phase, h8, hbg]
  | prepare t u =>
    have h' : prepare s t u = (s', o) := Option.some.inj h
    rw [show s' = (prepare s t u).1 by rw [h'],
      show o = (prepare s t u).2 by rw [h']]
    rcases prepare_cases s t u with h | ⟨tk', h1, h2, h3⟩
    · rw [h.1]
      simp [phaseStep, h.2]
    · rw [h3]
      by_cases hx : x = t
      · simp [phaseStep, Op.ticket, hx, phaseOf, State.setTicket,
          Ticket.phase]
      · simp [phaseStep, Op.ticket, hx, phaseOf, State.setTicket]
  | commit t =>
    have h' : commit s t = (s', o) := Option.some.inj h
    rw [show s' = (commit s t).1 by rw [h'], show o = (commit s t).2 by rw [h']]
    rcases commit_cases s t with h | ⟨tk, h1, h2, h3⟩
    · rw [h.1]
      simp [phaseStep, h.2.1]
    · rw [h3, phaseOf_acquire, phaseOf_released]
      by_cases hx : x = t
      · simp [phaseStep, Op.ticket, hx, Ticket.phase, committedRecord]
      · simp only [phaseStep, Op.ticket, hx, ne_eq, not_false_eq_true, if_true,
          if_false]
        rfl
  | rollback t =>
    have h' : rollback s t = (s', o) := Option.some.inj h
    rw [show s' = (rollback s t).1 by rw [h'],
      show o = (rollback s t).2 by rw [h']]
    rcases rollback_cases s t with h | ⟨tk, h1, h3⟩
    · rw [h.2]
      simp [phaseStep]
    · rw [h3, phaseOf_acquire, phaseOf_released]
      by_cases hx : x = t
      · simp [phaseStep, Op.ticket, hx]
      · simp [phaseStep, Op.ticket, hx]
  | finish t =>
    have h' : finish s t = (s', o) := Option.some.inj h
    rw [show s' = (finish s t).1 by rw [h'], show o = (finish s t).2 by rw [h']]
    rcases finish_cases s t with h | ⟨tk', h1, h2, h3⟩
    · rw [h.1]
      simp [phaseStep, h.2.1]
    · rw [h3]
      by_cases hx : x = t
      · simp [phaseStep, Op.ticket, hx, phaseOf, State.setTicket]
      · simp [phaseStep, Op.ticket, hx, phaseOf, State.setTicket]

end Verif.Parsec
