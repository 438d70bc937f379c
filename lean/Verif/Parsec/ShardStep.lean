import Verif.Parsec.ShardInv

/-!
# Every operation of the PArSEC shard keeps the invariant
-/
namespace Verif.Parsec

/-- The record used by `try_lock` agrees with the state. -/
theorem getD_held (s : State) (t : Tn) (k : Key) :
    ((s.ticket t).getD {}).held k = heldOf s k t := by
  unfold heldOf
  cases s.ticket t <;> rfl

theorem getD_queued (s : State) (t : Tn) (k : Key) :
    k ∈ ((s.ticket t).getD {}).queued ↔ queuedOf s k t := by
  unfold queuedOf
  cases s.ticket t with
  | none => simp
  | some tk => simp

theorem heldOf_addWaiter (s : State) (t : Tn) (b : Nat) (k : Key)
    (ty : LockType) (cb : Nat) (k' : Key) (x : Tn) :
    heldOf (addWaiter s t ((s.ticket t).getD {}) b k ty cb) k' x =
      heldOf s k' x := by
  by_cases hx : x = t
  · subst hx
    rw [← getD_held s x]
    simp [heldOf, addWaiter]
  · simp [heldOf, addWaiter, hx]

theorem queuedOf_addWaiter (s : State) (t : Tn) (b : Nat) (k : Key)
    (ty : LockType) (cb : Nat) (k' : Key) (x : Tn) :
    queuedOf (addWaiter s t ((s.ticket t).getD {}) b k ty cb) k' x ↔
      queuedOf s k' x ∨ (x = t ∧ k' = k) := by
  by_cases hx : x = t
  · subst hx
    rw [← getD_queued s x]
    simp only [queuedOf, addWaiter, if_true, Option.some.injEq,
      exists_eq_left', List.mem_cons, true_and]
    exact Or.comm
  · simp [queuedOf, addWaiter, hx]

theorem lockError_none {tk : Ticket} {k : Key} {ty : LockType}
    (h : lockError tk k ty = none) :
    tk.state = .begun ∧ tk.held k ≠ some .write ∧
      (tk.held k = some .read → ty = .write) ∧ k ∉ tk.queued := by
  unfold lockError at h
  split at h
  · simp at h
  · split at h
    · simp at h
    · split at h
      · simp at h
      · split at h
        · simp at h
        · split at h
          · simp at h
          · rename_i h1 h2 h3 h4 h5
            refine ⟨?_, fun hc => h4 (Or.inl hc), fun hr => ?_, h5⟩
            · cases hs : tk.state <;> simp_all
            · cases ty with
              | read => exact absurd (Or.inr ⟨hr, rfl⟩) h4
              | write => rfl

theorem addWaiter_ok {s : State} (inv : Inv s) (t : Tn) (b : Nat) (k : Key)
    (ty : LockType) (cb : Nat)
    (he : lockError ((s.ticket t).getD {}) k ty = none) :
    InvP (fun h => isPrepared s h ∨ h ∈ waitingOn t ty (s.lock k))
      (fun k' => k' = k)
      (addWaiter s t ((s.ticket t).getD {}) b k ty cb) := by
  obtain ⟨h1, h2, h3, h4⟩ := lockError_none he
  rw [getD_held] at h2 h3
  rw [getD_queued] at h4
  constructor
  · intro k'
    by_cases hk : k' = k
    · subst hk
      have hl : (addWaiter s t ((s.ticket t).getD {}) b k' ty cb).lock k' =
          { s.lock k' with queue := enqueue ⟨t, ty, cb⟩ (s.lock k').queue } := by
        simp [addWaiter]
      rw [hl]
      refine ((inv.key k').enqueue t ty cb h4 h2 h3).congr (fun x => ?_)
        (fun x => ?_)
      · rw [heldOf_addWaiter]
      · rw [queuedOf_addWaiter]
        simp
    · have hl : (addWaiter s t ((s.ticket t).getD {}) b k ty cb).lock k' =
          s.lock k' := by
        simp [addWaiter, hk]
      rw [hl]
      refine ((inv.key k').mono fun x _ hx => Or.inl hx).congr (fun x => ?_)
        (fun x => ?_)
      · rw [heldOf_addWaiter]
      · rw [queuedOf_addWaiter]
        simp [hk]
  · intro x tk hx hst
    unfold addWaiter at hx
    simp only at hx
    split at hx
    · simp only [Option.some.injEq] at hx
      subst hx
      simp only [h1] at hst
      simp at hst
    · exact inv.idle x tk hx hst
  · intro x tk hx hst
    unfold addWaiter at hx
    simp only at hx
    split at hx
    · simp only [Option.some.injEq] at hx
      subst hx
      simp only [h1] at hst
      simp at hst
    · exact inv.prep x tk hx hst
  · intro k' hk
    have hl : (addWaiter s t ((s.ticket t).getD {}) b k ty cb).lock k' =
        s.lock k' := by
      simp [addWaiter, hk]
    rw [hl]
    exact inv.stuck k' id

theorem isPrepared_addWaiter {s : State} {t : Tn} {b : Nat} {k : Key}
    {ty : LockType} {cb : Nat}
    (he : lockError ((s.ticket t).getD {}) k ty = none) (x : Tn) :
    isPrepared (addWaiter s t ((s.ticket t).getD {}) b k ty cb) x ↔
      isPrepared s x := by
  obtain ⟨h1, -⟩ := lockError_none he
  by_cases hx : x = t
  · subst hx
    unfold isPrepared addWaiter
    simp only [if_true, Option.some.injEq, exists_eq_left', h1,
      reduceCtorEq, false_iff]
    rintro ⟨tk, h2, h3⟩
    rw [h2] at h1
    simp only [Option.getD_some] at h1
    rw [h1] at h3
    simp at h3
  · simp [isPrepared, addWaiter, hx]

/-- The holders in the way of a request are known transactions. -/
theorem waitingOn_known {s : State} (inv : Inv s) {t : Tn} {ty : LockType}
    {k : Key} {b : Tn} (h : b ∈ waitingOn t ty (s.lock k)) :
    t < b ∧ (s.ticket b).isSome = true := by
  have h1 := (mem_waitingOn (inv.key k) t ty b).mp h
  refine ⟨h1.1, ?_⟩
  cases hs : s.ticket b with
  | some _ => rfl
  | none =>
    have : heldOf s k b = none := by simp [heldOf, hs]
    rw [this] at h1
    simp at h1

/-- Everything about an accepted lock request before the locks are handed
on. -/
theorem accept_ok {s : State} (inv : Inv s) (t : Tn) (b : Nat) (k : Key)
    (ty : LockType) (cb : Nat)
    (he : lockError ((s.ticket t).getD {}) k ty = none) :
    let s1 := addWaiter s t ((s.ticket t).getD {}) b k ty cb
    let a := woundFold s1 k (waitingOn t ty (s.lock k)) t
    InvP (isPrepared s) (fun x => a.keys x = true ∨ x = k) a.st ∧
    (∀ x, isPrepared a.st x ↔ isPrepared s x) ∧
    a.st.value = s.value ∧
    (∀ k' x, heldOf a.st k' x ≠ none → heldOf a.st k' x = heldOf s k' x) ∧
    (∀ x, x ∉ waitingOn t ty (s.lock k) ∨ isPrepared s x →
      a.st.ticket x = s1.ticket x) := by
  intro s1 a
  have h1 := addWaiter_ok inv t b k ty cb he
  have hknown : ∀ x ∈ waitingOn t ty (s.lock k),
      (s1.ticket x).isSome = true := by
    intro x hx
    have := (waitingOn_known inv hx)
    simp only [s1, addWaiter]
    split
    · rfl
    · exact this.2
  obtain ⟨g1, g2, g3, g4, g5, g6, g7⟩ :=
    woundFold_inv k (waitingOn t ty (s.lock k)) t h1 hknown
  refine ⟨?_, ?_, ?_, ?_, ?_⟩
  · refine g1.mono ?_ (fun _ h => h)
    intro x k' hh hp
    rcases hp with hp | hp
    · exact hp
    · rcases g6 x hp with h | h
      · exact (isPrepared_addWaiter he x).mp h
      · exact absurd (h k') hh
  · intro x
    rw [g2 x]
    exact isPrepared_addWaiter he x
  · rw [g5]
    rfl
  · intro k' x hh
    rw [g4 k' x hh]
    exact heldOf_addWaiter s t b k ty cb k' x
  · intro x hx
    apply g7 x
    rcases hx with hx | hx
    · exact Or.inl hx
    · exact Or.inr ((isPrepared_addWaiter he x).mpr hx)

/-- `try_lock` either exits, refuses or accepts. -/
theorem tryLock_cases {s : State} {t : Tn} {b : Nat} {k : Key}
    {ty : LockType} {f : Bool} {cb : Nat} {s' : State} {o : Out}
    (h : tryLock s t b k ty f cb = some (s', o)) :
    (∃ e, (s', o) = refuse s cb k e) ∨
    (lockError ((s.ticket t).getD {}) k ty = none ∧
      s' = (woundTickets (addWaiter s t ((s.ticket t).getD {}) b k ty cb) k
        (waitingOn t ty (s.lock k)) t).1 ∧
      o = { calls := (woundTickets (addWaiter s t ((s.ticket t).getD {}) b k
        ty cb) k (waitingOn t ty (s.lock k)) t).2 }) := by
  unfold tryLock at h
  split at h
  · simp at h
  · split at h
    · simp only [Option.some.injEq] at h
      exact Or.inl ⟨_, h.symm⟩
    · simp only at h
      split at h
      · simp only [Option.some.injEq] at h
        exact Or.inl ⟨_, h.symm⟩
      · rename_i he
        simp only [Option.some.injEq, Prod.mk.injEq] at h
        exact Or.inr ⟨he, h.1.symm, h.2.symm⟩

theorem tryLock_ok {s : State} (inv : Inv s) {t : Tn} {b : Nat} {k : Key}
    {ty : LockType} {f : Bool} {cb : Nat} {s' : State} {o : Out}
    (h : tryLock s t b k ty f cb = some (s', o)) : Inv s' := by
  rcases tryLock_cases h with ⟨e, he⟩ | ⟨he, hs, -⟩
  · unfold refuse at he
    simp only [Prod.mk.injEq] at he
    rw [he.1]
    exact inv
  · obtain ⟨h1, h2, -⟩ := accept_ok inv t b k ty cb he
    rw [hs, woundTickets_eq]
    refine (acquire_ok h1 ?_).mono ?_ (fun _ h => h)
    · intro x hx
      simpa using hx
    · intro x _ _ hp
      rw [isPrepared_acquire, h2 x]
      exact hp

theorem updateError_none {tk : Ticket} {u : List (Key × Value)}
    (h : updateError tk u = none) : ∀ p ∈ u, tk.held p.1 = some .write := by
  induction u with
  | nil => simp
  | cons p u ih =>
    unfold updateError at h
    split at h
    · simp at h
    · simp at h
    · rename_i hw
      intro q hq
      rcases List.mem_cons.mp hq with rfl | hq
      · exact hw
      · exact ih h q hq

theorem prepareError_none {tk : Ticket} {u : List (Key × Value)}
    (h : prepareError tk u = none) :
    tk.state = .begun ∧ tk.queued = [] ∧
      ∀ p ∈ u, tk.held p.1 = some .write := by
  unfold prepareError at h
  split at h
  · simp at h
  · split at h
    · simp at h
    · split at h
      · simp at h
      · split at h
        · simp at h
        · rename_i h1 h2 h3 h4
          refine ⟨?_, Classical.not_not.mp h4, updateError_none h⟩
          cases hs : tk.state <;> simp_all

/-- `prepare` either changes nothing or marks the transaction prepared. -/
theorem prepare_cases (s : State) (t : Tn) (u : List (Key × Value)) :
    ((prepare s t u).1 = s ∧ (prepare s t u).2.result ≠ none) ∨
    ∃ tk, s.ticket t = some tk ∧ prepareError tk u = none ∧
      prepare s t u =
        (s.setTicket t (some { tk with state := .prepared, update := u }),
         {}) := by
  unfold prepare
  cases hs : s.ticket t with
  | none => simp
  | some tk =>
    simp only
    cases he : prepareError tk u with
    | some e => simp
    | none => exact Or.inr ⟨tk, rfl, he, rfl⟩

theorem setPrepared_held {s : State} {t : Tn} {tk : Ticket}
    {u : List (Key × Value)} (h : s.ticket t = some tk) (k : Key) (x : Tn) :
    heldOf (s.setTicket t (some { tk with state := .prepared, update := u }))
      k x = heldOf s k x := by
  by_cases hx : x = t
  · subst hx
    simp [heldOf, State.setTicket, h]
  · simp [heldOf, State.setTicket, hx]

theorem setPrepared_queued {s : State} {t : Tn} {tk : Ticket}
    {u : List (Key × Value)} (h : s.ticket t = some tk) (k : Key) (x : Tn) :
    queuedOf (s.setTicket t (some { tk with state := .prepared, update := u }))
      k x ↔ queuedOf s k x := by
  by_cases hx : x = t
  · subst hx
    simp [queuedOf, State.setTicket, h]
  · simp [queuedOf, State.setTicket, hx]

theorem prepare_ok {s : State} (inv : Inv s) (t : Tn)
    (u : List (Key × Value)) : Inv (prepare s t u).1 := by
  rcases prepare_cases s t u with h | ⟨tk, h1, h2, h3⟩
  · rw [h.1]
    exact inv
  · rw [h3]
    obtain ⟨g1, g2, g3⟩ := prepareError_none h2
    constructor
    · intro k
      refine ((inv.key k).congr (setPrepared_held h1 k)
        (setPrepared_queued h1 k)).mono ?_
      rintro x _ ⟨tk', h4, h5⟩
      by_cases hx : x = t
      · subst hx
        exact ⟨_, by simp [State.setTicket]; rfl, rfl⟩
      · exact ⟨tk', by simpa [State.setTicket, hx] using h4, h5⟩
    · intro x tk' hx hst
      unfold State.setTicket at hx
      simp only at hx
      split at hx
      · simp only [Option.some.injEq] at hx
        subst hx
        simp at hst
      · exact inv.idle x tk' hx hst
    · intro x tk' hx hst
      unfold State.setTicket at hx
      simp only at hx
      split at hx
      · simp only [Option.some.injEq] at hx
        subst hx
        exact ⟨g2, g3⟩
      · exact inv.prep x tk' hx hst
    · exact inv.stuck

/-- Changing the values does not matter. -/
theorem Inv.setValue {s : State} (inv : Inv s) (v : Key → Value) :
    Inv { s with value := v } where
  key := inv.key
  idle := inv.idle
  prep := inv.prep
  stuck := inv.stuck

/-- A release by a transaction that keeps or loses its record, followed by
handing on the locks. -/
theorem release_acquire_ok {s : State} (inv : Inv s) {t : Tn}
    {tk tk' : Ticket} {x : Option Ticket} (ht : s.ticket t = some tk)
    (hh : tk'.held = tk.held) (hq : tk'.queued = tk.queued) (hx : Bare x) :
    Inv (acquire (released s t tk' x) (release s t tk').2.2).1 := by
  have h1 := released_ok (tk' := tk') (x := x) inv ht hh hq hx
  refine (acquire_ok h1 ?_).mono ?_ (fun _ h => h)
  · intro k hk
    rcases hk with hk | hk
    · exact absurd hk id
    · simpa [release, hh, hq] using hk
  · intro y k hy hp
    rw [isPrepared_acquire, isPrepared_released hx]
    refine ⟨hp, ?_⟩
    rintro rfl
    rw [heldOf_acquire h1, heldOf_released hx] at hy
    simp only [if_true] at hy
    split at hy
    · apply hy
      apply heldAfter_of_not_mem
      intro w hw
      refine h1.not_in_queue ?_ w (grant_mem hw)
      rw [queuedOf_released hx]
      exact fun h => h.2 rfl
    · exact hy rfl

/-- The record of a transaction after its commit. -/
def committedRecord (tk : Ticket) : Ticket :=
  { tk with
    state := .committed
    held := fun _ => none
    queued := [] }

/-- The state in which a committing transaction releases its locks. -/
def applied (s : State) (tk : Ticket) : State :=
  { s with value := applyUpdate s.value tk.update }

/-- `commit` either changes nothing or applies the update and hands on the
locks. -/
theorem commit_cases (s : State) (t : Tn) :
    ((commit s t).1 = s ∧ (commit s t).2.result ≠ none ∧
      (commit s t).2.calls = noCalls) ∨
    ∃ tk, s.ticket t = some tk ∧ tk.state = .prepared ∧
      commit s t =
        ((acquire
            (released (applied s tk) t { tk with state := .committed }
              (some (committedRecord tk)))
            (release (applied s tk) t { tk with state := .committed }).2.2).1,
         Out.mk
          ((acquire
            (released (applied s tk) t { tk with state := .committed }
              (some (committedRecord tk)))
            (release (applied s tk) t
              { tk with state := .committed }).2.2).2.append
            (release (applied s tk) t { tk with state := .committed }).2.1)
          none) := by
  unfold commit
  cases hs : s.ticket t with
  | none => simp
  | some tk =>
    simp only
    by_cases hp : tk.state = .prepared
    · right
      refine ⟨tk, rfl, hp, ?_⟩
      rw [if_neg (fun h => h hp)]
      rfl
    · left
      simp [hp]

theorem commit_ok {s : State} (inv : Inv s) (t : Tn) :
    Inv (commit s t).1 := by
  rcases commit_cases s t with h | ⟨tk, h1, -, h3⟩
  · rw [h.1]
    exact inv
  · rw [h3]
    refine release_acquire_ok (inv.setValue _) (tk := tk) h1 rfl rfl ?_
    intro tk2 he
    simp only [Option.some.injEq] at he
    subst he
    exact ⟨fun _ => rfl, rfl, by simp [committedRecord]⟩

/-- `rollback` either changes nothing or removes the transaction. -/
theorem rollback_cases (s : State) (t : Tn) :
    (s.ticket t = none ∧ rollback s t =
      (s, { result := some ⟨.unknownTicket, none⟩ })) ∨
    ∃ tk, s.ticket t = some tk ∧
      rollback s t =
        ((acquire (released s t tk none) (release s t tk).2.2).1,
         { calls := (acquire (released s t tk none)
            (release s t tk).2.2).2.append (release s t tk).2.1 }) := by
  unfold rollback
  cases hs : s.ticket t with
  | none => simp
  | some tk =>
    right
    refine ⟨tk, rfl, ?_⟩
    simp only [release_set_eq]

theorem bare_none : Bare none := by
  intro tk h
  simp at h

theorem rollback_ok {s : State} (inv : Inv s) (t : Tn) :
    Inv (rollback s t).1 := by
  rcases rollback_cases s t with h | ⟨tk, h1, h2⟩
  · rw [h.2]
    exact inv
  · rw [h2]
    exact release_acquire_ok inv h1 rfl rfl bare_none

/-- `finish` either changes nothing or removes a committed transaction. -/
theorem finish_cases (s : State) (t : Tn) :
    ((finish s t).1 = s ∧ (finish s t).2.result ≠ none ∧
      (finish s t).2.calls = noCalls) ∨
    ∃ tk, s.ticket t = some tk ∧ tk.state = .committed ∧
      finish s t = (s.setTicket t none, {}) := by
  unfold finish
  cases hs : s.ticket t with
  | none => simp
  | some tk =>
    simp only
    by_cases hp : tk.state = .committed
    · right
      refine ⟨tk, rfl, hp, ?_⟩
      rw [if_neg (fun h => h hp)]
    · left
      simp [hp]

theorem finish_ok {s : State} (inv : Inv s) (t : Tn) :
    Inv (finish s t).1 := by
  rcases finish_cases s t with h | ⟨tk, h1, h2, h3⟩
  · rw [h.1]
    exact inv
  · rw [h3]
    obtain ⟨g1, g2⟩ := inv.idle t tk h1 (Or.inr h2)
    have hh : ∀ k x, heldOf (s.setTicket t none) k x = heldOf s k x := by
      intro k x
      by_cases hx : x = t
      · subst hx
        simp [heldOf, State.setTicket, h1, g1]
      · simp [heldOf, State.setTicket, hx]
    have hq : ∀ k x, queuedOf (s.setTicket t none) k x ↔ queuedOf s k x := by
      intro k x
      by_cases hx : x = t
      · subst hx
        simp [queuedOf, State.setTicket, h1, g2]
      · simp [queuedOf, State.setTicket, hx]
    constructor
    · intro k
      refine ((inv.key k).congr (hh k) (hq k)).mono ?_
      rintro x hx ⟨tk', h4, h5⟩
      by_cases hxt : x = t
      · subst hxt
        rw [h1] at h4
        rw [← Option.some.inj h4, h2] at h5
        simp at h5
      · exact ⟨tk', by simpa [State.setTicket, hxt] using h4, h5⟩
    · intro x tk' hx hst
      unfold State.setTicket at hx
      simp only at hx
      split at hx
      · simp at hx
      · exact inv.idle x tk' hx hst
    · intro x tk' hx hst
      unfold State.setTicket at hx
      simp only at hx
      split at hx
      · simp at hx
      · exact inv.prep x tk' hx hst
    · exact inv.stuck

theorem exec_ok {s : State} (inv : Inv s) {op : Op} {s' : State} {o : Out}
    (h : exec s op = some (s', o)) : Inv s' := by
  cases op with
  | tryLock t b k ty f cb => exact tryLock_ok inv h
  | prepare t u =>
    have h' : prepare s t u = (s', o) := Option.some.inj h
    rw [show s' = (prepare s t u).1 by rw [h']]
    exact prepare_ok inv t u
  | commit t =>
    have h' : commit s t = (s', o) := Option.some.inj h
    rw [show s' = (commit s t).1 by rw [h']]
    exact commit_ok inv t
  | rollback t =>
    have h' : rollback s t = (s', o) := Option.some.inj h
    rw [show s' = (rollback s t).1 by rw [h']]
    exact rollback_ok inv t
  | finish t =>
    have h' : finish s t = (s', o) := Option.some.inj h
    rw [show s' = (finish s t).1 by rw [h']]
    exact finish_ok inv t

/-! ### Recovery -/

/-- The replicated tickets a shard starts from: one record per ticket, and no
two prepared tickets update the same key. -/
structure WellFormed (ts : List (Tn × RTicket)) : Prop where
  distinct : ts.Pairwise fun a b => a.1 ≠ b.1
  disjoint : ∀ a ∈ ts, ∀ b ∈ ts, a.2.committed = false →
    b.2.committed = false → ∀ p ∈ a.2.update, ∀ q ∈ b.2.update,
    p.1 = q.1 → a.1 = b.1

theorem lookup_of_mem {ts : List (Tn × RTicket)}
    (h : ts.Pairwise fun a b => a.1 ≠ b.1) {t : Tn} {r : RTicket}
    (hm : (t, r) ∈ ts) : ts.lookup t = some r := by
  induction ts with
  | nil => simp at hm
  | cons p ts ih =>
    obtain ⟨x, y⟩ := p
    have h' := List.pairwise_cons.mp h
    rcases List.mem_cons.mp hm with he | hm
    · simp only [Prod.mk.injEq] at he
      simp [he.1, he.2]
    · have hne : x ≠ t := h'.1 (t, r) hm
      have hb : (t == x) = false := by simpa using fun h => hne h.symm
      rw [List.lookup_cons, hb]
      exact ih h'.2 hm

theorem mem_of_lookup {ts : List (Tn × RTicket)} {t : Tn} {r : RTicket}
    (h : ts.lookup t = some r) : (t, r) ∈ ts := by
  induction ts with
  | nil => simp at h
  | cons p ts ih =>
    obtain ⟨x, y⟩ := p
    rw [List.lookup_cons] at h
    cases hb : t == x with
    | true =>
      rw [hb] at h
      have hx : t = x := by simpa using hb
      simp at h
      subst hx
      subst h
      exact List.mem_cons_self
    | false =>
      rw [hb] at h
      exact List.mem_cons_of_mem _ (ih h)

theorem recoveredWriter_iff {ts : List (Tn × RTicket)} (wf : WellFormed ts)
    (k : Key) (t : Tn) :
    recoveredWriter ts k = some t ↔
      ∃ r, (t, r) ∈ ts ∧ r.committed = false ∧ ∃ p ∈ r.update, p.1 = k := by
  have hsound : ∀ x, recoveredWriter ts k = some x →
      ∃ r, (x, r) ∈ ts ∧ r.committed = false ∧ ∃ p ∈ r.update, p.1 = k := by
    intro x h
    unfold recoveredWriter at h
    cases hf : ts.reverse.find? fun p =>
        !p.2.committed && p.2.update.any fun q => q.1 = k with
    | none => simp [hf] at h
    | some p =>
      simp only [hf, Option.map_some, Option.some.injEq] at h
      subst h
      have h1 := List.find?_some hf
      have h2 := List.mem_of_find?_eq_some hf
      simp only [Bool.and_eq_true, Bool.not_eq_true', List.any_eq_true,
        decide_eq_true_eq] at h1
      exact ⟨p.2, by simpa using h2, h1.1, h1.2⟩
  constructor
  · exact hsound t
  · rintro ⟨r, h1, h2, q, h3, h4⟩
    cases hr : recoveredWriter ts k with
    | none =>
      exfalso
      unfold recoveredWriter at hr
      simp only [Option.map_eq_none_iff, List.find?_eq_none] at hr
      have := hr (t, r) (List.mem_reverse.mpr h1)
      simp only [h2, Bool.not_false, Bool.true_and, Bool.not_eq_true,
        List.any_eq_false, decide_eq_true_eq] at this
      exact this q h3 h4
    | some x =>
      obtain ⟨r', g1, g2, q', g3, g4⟩ := hsound x hr
      have := wf.disjoint _ h1 _ g1 h2 g2 q h3 q' g3 (by rw [h4, g4])
      simp only at this
      rw [this]

theorem recover_ok {ts : List (Tn × RTicket)} (wf : WellFormed ts)
    (value : Key → Value) : Inv (recover value ts) := by
  have hheld : ∀ k t, heldOf (recover value ts) k t = some .write ↔
      ∃ r, (t, r) ∈ ts ∧ r.committed = false ∧ ∃ p ∈ r.update, p.1 = k := by
    intro k t
    unfold heldOf recover
    simp only
    cases hl : ts.lookup t with
    | none =>
      simp only [Option.map_none, reduceCtorEq, false_iff]
      rintro ⟨r, h, _⟩
      rw [lookup_of_mem wf.distinct h] at hl
      simp at hl
    | some r =>
      simp only [Option.map_some, recoverTicket]
      constructor
      · intro h
        split at h
        · rename_i h1
          simp only [Bool.and_eq_true, Bool.not_eq_true', List.any_eq_true,
            decide_eq_true_eq] at h1
          exact ⟨r, mem_of_lookup hl, h1.1, h1.2⟩
        · simp at h
      · rintro ⟨r', h1, h2, q, h3, h4⟩
        rw [lookup_of_mem wf.distinct h1] at hl
        simp only [Option.some.injEq] at hl
        subst hl
        rw [if_pos]
        simp only [h2, Bool.not_false, Bool.true_and, List.any_eq_true,
          decide_eq_true_eq]
        exact ⟨q, h3, h4⟩
  have hread : ∀ k t, heldOf (recover value ts) k t ≠ some .read := by
    intro k t h
    unfold heldOf recover at h
    simp only at h
    cases hl : ts.lookup t with
    | none => simp [hl] at h
    | some r =>
      simp only [hl, Option.map_some, recoverTicket] at h
      split at h <;> simp at h
  have hqueued : ∀ k t, ¬ queuedOf (recover value ts) k t := by
    rintro k t ⟨tk, h1, h2⟩
    unfold recover at h1
    simp only at h1
    cases hl : ts.lookup t with
    | none => simp [hl] at h1
    | some r =>
      simp only [hl, Option.map_some, Option.some.injEq] at h1
      subst h1
      simp [recoverTicket] at h2
  constructor
  · intro k
    constructor
    · intro t
      rw [hheld]
      exact recoveredWriter_iff wf k t
    · intro t
      constructor
      · intro h
        simp [recover] at h
      · intro h
        exact absurd h (hread k t)
    · intro t
      constructor
      · rintro ⟨w, hw, _⟩
        simp [recover] at hw
      · intro h
        exact absurd h (hqueued k t)
    · intro _
      rfl
    · simp [recover]
    · simp [recover]
    · intro w hw
      simp [recover] at hw
    · intro w hw
      simp [recover] at hw
  · intro t tk ht hst
    unfold recover at ht
    simp only at ht
    cases hl : ts.lookup t with
    | none => simp [hl] at ht
    | some r =>
      simp only [hl, Option.map_some, Option.some.injEq] at ht
      subst ht
      unfold recoverTicket at hst ⊢
      cases hc : r.committed with
      | true => simp
      | false => simp [hc] at hst
  · intro t tk ht hst
    unfold recover at ht
    simp only at ht
    cases hl : ts.lookup t with
    | none => simp [hl] at ht
    | some r =>
      simp only [hl, Option.map_some, Option.some.injEq] at ht
      subst ht
      unfold recoverTicket at hst ⊢
      cases hc : r.committed with
      | true => simp [hc] at hst
      | false =>
        refine ⟨rfl, fun p hp => ?_⟩
        simp only [Bool.not_false, Bool.true_and]
        rw [if_pos]
        simp only [List.any_eq_true, decide_eq_true_eq]
        exact ⟨p, hp, rfl⟩
  · intro k _
    simp [recover, Stuck, Lock.grant, grant]

/-! ### Histories -/

/-- The states a shard goes through: it starts from a replicated state and
serves any requests. -/
inductive Reach : State → Prop
  | start (value : Key → Value) (ts : List (Tn × RTicket))
      (wf : WellFormed ts) : Reach (recover value ts)
  | step {s s' : State} {op : Op} {o : Out} (h : Reach s)
      (he : exec s op = some (s', o)) : Reach s'

theorem Reach.inv {s : State} (h : Reach s) : Inv s := by
  induction h with
  | start value ts wf => exact recover_ok wf value
  | step _ he ih => exact exec_ok ih he

end Verif.Parsec
