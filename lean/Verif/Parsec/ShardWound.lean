import Verif.Parsec.ShardProps

/-!
# Who is wounded on a PArSEC shard (C138)

`wound_tickets` of the model of `Verif/Parsec/Shard.lean`: a transaction is made to start again only
by an older one that it stands in the way of, it is told by which and at which key, and the oldest
transaction is never made to start again and waits for none but prepared transactions.
-/
namespace Verif.Parsec

/-! ### Specification -/

/-- Transaction `t` was told to start again, for the sake of `d.1` at key `d.2`. -/
def Wounded (s : State) (t : Tn) (d : Option (Tn × Key)) : Prop :=
  ∃ tk, s.ticket t = some tk ∧ tk.state = .wounded ∧ tk.details = d

/-- Transaction `x` has a lock that does not go with one of type `ty` on `k`. -/
def InTheWay (s : State) (x : Tn) (k : Key) (ty : LockType) : Prop :=
  Holds s x k .write ∨ (Holds s x k .read ∧ ty = .write)

/-- All transactions that the shard knows are at least as young as `t`. -/
def Oldest (s : State) (t : Tn) : Prop := ∀ x, (s.ticket x).isSome → t ≤ x

/-- Requests of transactions that are at least as young as `t`. -/
inductive Younger (t : Tn) : State → State → Prop
  | refl (s : State) : Younger t s s
  | step {s s' s'' : State} {op : Op} {o : Out} (h : Younger t s s')
      (he : exec s' op = some (s'', o)) (ho : t ≤ op.ticket) : Younger t s s''

/-! ### Lemmas -/

/-- The state of a transaction and the reason recorded with it. -/
def mark (s : State) (t : Tn) : Option (TState × Option (Tn × Key)) :=
  (s.ticket t).map fun tk => (tk.state, tk.details)

theorem mark_wounded {s : State} {t : Tn} {d : Option (Tn × Key)} :
    mark s t = some (.wounded, d) ↔ Wounded s t d := by
  unfold mark Wounded
  cases s.ticket t with
  | none => simp
  | some tk => simp

theorem mark_acquire (s : State) (keys : Key → Bool) (t : Tn) :
    mark (acquire s keys).1 t = mark s t := by
  unfold mark acquire
  cases h : s.ticket t <;> simp [h]

theorem mark_released (s : State) (t : Tn) (tk : Ticket) (x : Option Ticket) (y : Tn) :
    mark (released s t tk x) y =
      if y = t then x.map fun tk => (tk.state, tk.details) else mark s y := by
  unfold mark released
  simp only
  split <;> rfl

theorem mark_setTicket (s : State) (t : Tn) (x : Option Ticket) (y : Tn) :
    mark (s.setTicket t x) y =
      if y = t then x.map fun tk => (tk.state, tk.details) else mark s y := by
  unfold mark State.setTicket
  simp only
  split <;> rfl

/-- The loop marks the transactions of its list, with the reason. -/
theorem woundFold_mark (s : State) (key : Key) (bs : List Tn) (blocked : Tn) (t : Tn) :
    mark (woundFold s key bs blocked).st t = mark s t ∨
    (t ∈ bs ∧ mark (woundFold s key bs blocked).st t = some (.wounded, some (blocked, key))) := by
  unfold woundFold
  have h : ∀ (l : List Tn) (a : Wounding),
      mark (l.foldl (woundOne blocked key) a).st t = mark a.st t ∨
      (t ∈ l ∧ mark (l.foldl (woundOne blocked key) a).st t =
        some (.wounded, some (blocked, key))) := by
    intro l
    induction l with
    | nil => intro a; exact .inl rfl
    | cons b l ih =>
      intro a
      rw [List.foldl_cons]
      rcases ih (woundOne blocked key a b) with h | ⟨h1, h2⟩
      · rw [h]
        unfold woundOne
        simp only
        split
        · exact .inl rfl
        · by_cases hb : t = b
          · right
            subst hb
            exact ⟨List.mem_cons_self, by simp [release, mark]⟩
          · left
            simp [release, mark, hb]
      · exact .inr ⟨List.mem_cons_of_mem _ h1, h2⟩
  exact h bs _

/-- What one request does to the marks. -/
theorem exec_wound {s s' : State} (inv : Inv s) {op : Op} {o : Out} (h : exec s op = some (s', o))
    {x : Tn} {d : Option (Tn × Key)} (hw : mark s' x = some (.wounded, d)) :
    mark s x = some (.wounded, d) ∨
    ∃ u b k ty f cb, op = .tryLock u b k ty f cb ∧ u < x ∧ InTheWay s x k ty ∧
      d = some (u, k) := by
  cases op with
  | tryLock t b k ty f cb =>
    rcases tryLock_cases h with ⟨e, he⟩ | ⟨he, hs, -⟩
    · unfold refuse at he
      simp only [Prod.mk.injEq] at he
      rw [he.1] at hw
      exact .inl hw
    · rw [hs, woundTickets_eq, mark_acquire] at hw
      have h1 : mark (addWaiter s t ((s.ticket t).getD {}) b k ty cb) x =
          if x = t then some (.begun, ((s.ticket t).getD {}).details) else mark s x := by
        unfold mark addWaiter
        by_cases hx : x = t
        · simp [hx, (lockError_none he).1]
        · simp [hx]
      rcases woundFold_mark (addWaiter s t ((s.ticket t).getD {}) b k ty cb) k
        (waitingOn t ty (s.lock k)) t x with h2 | ⟨h2, h3⟩
      · rw [h2, h1] at hw
        split at hw
        · simp at hw
        · exact .inl hw
      · right
        rw [h3] at hw
        have h4 := (mem_waitingOn (inv.key k) t ty x).mp h2
        refine ⟨t, b, k, ty, f, cb, rfl, h4.1, ?_, ?_⟩
        · unfold InTheWay
          rw [holds_iff, holds_iff]
          exact h4.2
        · simp at hw
          exact hw.symm
  | prepare t u =>
    left
    have h' : prepare s t u = (s', o) := Option.some.inj h
    rw [show s' = (prepare s t u).1 by rw [h']] at hw
    rcases prepare_cases s t u with h | ⟨tk', h1, h2, h3⟩
    · rw [h.1] at hw
      exact hw
    · rw [h3, mark_setTicket] at hw
      split at hw
      · simp at hw
      · exact hw
  | commit t =>
    left
    have h' : commit s t = (s', o) := Option.some.inj h
    rw [show s' = (commit s t).1 by rw [h']] at hw
    rcases commit_cases s t with h | ⟨tk, h1, h2, h3⟩
    · rw [h.1] at hw
      exact hw
    · rw [h3] at hw
      simp only [mark_acquire, mark_released] at hw
      split at hw
      · simp [committedRecord] at hw
      · exact hw
  | rollback t =>
    left
    have h' : rollback s t = (s', o) := Option.some.inj h
    rw [show s' = (rollback s t).1 by rw [h']] at hw
    rcases rollback_cases s t with h | ⟨tk, h1, h3⟩
    · rw [h.2] at hw
      exact hw
    · rw [h3] at hw
      simp only [mark_acquire, mark_released] at hw
      split at hw
      · simp at hw
      · exact hw
  | finish t =>
    left
    have h' : finish s t = (s', o) := Option.some.inj h
    rw [show s' = (finish s t).1 by rw [h']] at hw
    rcases finish_cases s t with h | ⟨tk', h1, h2, h3⟩
    · rw [h.1] at hw
      exact hw
    · rw [h3, mark_setTicket] at hw
      split at hw
      · simp at hw
      · exact hw

/-! ### The property -/

/-- **C138.** A transaction is told to start again only when an older transaction asks for a lock that a
lock of the former is in the way of, and it is told by which and at which key. -/
theorem C138_wounded {s s' : State} (hr : Reach s) {op : Op} {o : Out}
    (h : exec s op = some (s', o)) {x : Tn} {d : Option (Tn × Key)} (hn : ∀ d', ¬ Wounded s x d')
    (hw : Wounded s' x d) :
    ∃ u b k ty f cb, op = .tryLock u b k ty f cb ∧ u < x ∧ InTheWay s x k ty ∧
      d = some (u, k) := by
  rcases exec_wound hr.inv h (mark_wounded.mpr hw) with h1 | h1
  · exact absurd (mark_wounded.mp h1) (hn d)
  · exact h1

/-- **C138.** The reason that is recorded, and reported by later requests (C45), always names an older
transaction. -/
theorem C138_reason {s : State} (hr : Reach s) {x : Tn} {d : Option (Tn × Key)}
    (hw : Wounded s x d) : ∃ u k, u < x ∧ d = some (u, k) := by
  induction hr generalizing x d with
  | start value ts wf =>
    exfalso
    obtain ⟨tk, h1, h2, _⟩ := hw
    simp only [recover] at h1
    cases hl : ts.lookup x with
    | none => simp [hl] at h1
    | some r =>
      simp only [hl, Option.map_some, Option.some.injEq] at h1
      rw [← h1] at h2
      simp only [recoverTicket] at h2
      split at h2 <;> simp at h2
  | step hr he ih =>
    rcases exec_wound hr.inv he (mark_wounded.mpr hw) with h1 | ⟨u, b, k, ty, f, cb, -, h2, -, h3⟩
    · exact ih (mark_wounded.mp h1)
    · exact ⟨u, k, h2, h3⟩

/-- **C138.** While no older transaction asks for anything, a transaction is not told to start
again. -/
theorem C138_oldest_safe {s s' : State} {t : Tn} (hr : Reach s) (h : Younger t s s')
    (hn : ∀ d, ¬ Wounded s t d) : Reach s' ∧ ∀ d, ¬ Wounded s' t d := by
  induction h with
  | refl => exact ⟨hr, hn⟩
  | step h he ho ih =>
    obtain ⟨h1, h2⟩ := ih
    refine ⟨.step h1 he, fun d hw => ?_⟩
    obtain ⟨u, b, k, ty, f, cb, h3, h4, -⟩ := C138_wounded h1 he h2 hw
    rw [h3] at ho
    exact absurd h4 (Nat.not_lt.mpr ho)

/-- **C138.** The oldest transaction of a shard waits only for prepared transactions: at every key at
which it waits its request is the first, and what is in the way is prepared. -/
theorem C138_oldest_waits {s : State} (hr : Reach s) {t : Tn} (ho : Oldest s t) {k : Key} {w : Waiter}
    (hw : w ∈ (s.lock k).queue) (ht : w.ticket = t) :
    (∃ q, (s.lock k).queue = w :: q) ∧
    (∃ x, x ≠ t ∧ InTheWay s x k w.type) ∧
    ∀ x, x ≠ t → InTheWay s x k w.type → isPrepared s x := by
  have hknown : ∀ y k ty, Holds s y k ty → t ≤ y := by
    rintro y k ty ⟨tk, h, -⟩
    exact ho y (by simp [h])
  have hfront : ∃ q, (s.lock k).queue = w :: q := by
    cases hq : (s.lock k).queue with
    | nil => rw [hq] at hw; simp at hw
    | cons w0 q =>
      rw [hq] at hw
      rcases List.mem_cons.mp hw with h | h
      · exact ⟨q, by rw [h]⟩
      · exfalso
        have hs := (hr.inv.key k).sorted
        rw [hq] at hs
        have h1 := (List.pairwise_cons.mp hs).1 w h
        have h2 : (s.ticket w0.ticket).isSome := by
          cases hc : s.ticket w0.ticket with
          | some _ => rfl
          | none =>
            exfalso
            refine hr.inv.not_in_queue (k := k) (t := w0.ticket) ?_ w0 (by rw [hq]; simp) rfl
            rintro ⟨tk, h3, -⟩
            rw [hc] at h3
            simp at h3
        have h3 := ho _ h2
        omega
  refine ⟨hfront, ?_, ?_⟩
  · obtain ⟨q, hq⟩ := hfront
    obtain ⟨x, h1, h2⟩ := C44_blocked hr hq
    exact ⟨x, ht ▸ h1, h2⟩
  · intro x hx hi
    rcases C41_order hr (t := t) (h := x) ⟨k, w, hw, ht, .inl ⟨hx, hi⟩⟩ with h | h
    · exfalso
      rcases hi with hi | hi
      · exact absurd (hknown x k _ hi) (Nat.not_le.mpr h)
      · exact absurd (hknown x k _ hi.1) (Nat.not_le.mpr h)
    · exact h

/-- **C138.** So the oldest transaction has every lock it asked for once none is prepared. -/
theorem C138_oldest_goes_on {s : State} (hr : Reach s) {t : Tn} (ho : Oldest s t)
    (hp : ∀ x, ¬ isPrepared s x) : ¬ IsWaiting s t := by
  rintro ⟨k, w, h1, h2⟩
  obtain ⟨-, ⟨x, h3, h4⟩, h5⟩ := C138_oldest_waits hr ho h1 h2
  exact hp x (h5 x h3 h4)

/-! ### Concrete cases -/

/-- Two readers are told to start again by an older writer, which has its lock at once. -/
def woundRun : List Op :=
  [.tryLock 2 0 [1] .read true 10, .tryLock 3 0 [1] .read true 20,
   .tryLock 1 0 [1] .write true 30]

example : ∃ s, Reach s ∧ Wounded s 2 (some (1, [1])) ∧ Wounded s 3 (some (1, [1])) ∧
    Oldest s 1 ∧ Holds s 1 [1] .write ∧ (∀ d, ¬ Wounded s 1 d) := by
  refine ⟨((runOps fresh woundRun).get (by decide)).1, ?_, ?_, ?_, ?_, ?_, ?_⟩
  · exact runOps_reach (ops := woundRun)
      (os := ((runOps fresh woundRun).get (by decide)).2) fresh_reach
      (Option.some_get (by decide)).symm
  · exact mark_wounded.mp (by decide)
  · exact mark_wounded.mp (by decide)
  · intro x hx
    match x with
    | 0 => revert hx; decide
    | x + 1 => exact Nat.le_add_left 1 x
  · rw [holds_iff]
    decide
  · intro d hd
    have h1 := mark_wounded.mpr hd
    have h2 : mark ((runOps fresh woundRun).get (by decide)).1 1 = some (.begun, none) := by decide
    rw [h2] at h1
    simp at h1

/-- The oldest transaction waits for a prepared one. -/
def preparedRun : List Op :=
  [.tryLock 2 0 [1] .write true 10, .prepare 2 [([1], [7])], .tryLock 1 0 [1] .write true 30]

example : ∃ s, Reach s ∧ Oldest s 1 ∧ (⟨1, .write, 30⟩ : Waiter) ∈ (s.lock [1]).queue ∧
    isPrepared s 2 := by
  refine ⟨((runOps fresh preparedRun).get (by decide)).1, ?_, ?_, ?_, ?_⟩
  · exact runOps_reach (ops := preparedRun)
      (os := ((runOps fresh preparedRun).get (by decide)).2) fresh_reach
      (Option.some_get (by decide)).symm
  · intro x hx
    match x with
    | 0 => revert hx; decide
    | x + 1 => exact Nat.le_add_left 1 x
  · decide
  · have h : (((runOps fresh preparedRun).get (by decide)).1.ticket 2).map (·.state) =
        some .prepared := by decide
    simp only [Option.map_eq_some_iff] at h
    exact h

end Verif.Parsec
