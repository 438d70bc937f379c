import Verif.Parsec.ShardStep

/-!
# The callbacks of the PArSEC shard

Counting callbacks: what was pending or asked is afterwards pending or called.
-/
namespace Verif.Parsec

/-- How often callback `c` waits in the queue of `k`. -/
def pending (s : State) (k : Key) (c : Nat) : Nat :=
  ((s.lock k).queue.filter fun w => w.cb = c).length

/-- How often callback `c` is among the calls for key `k`. -/
def countCalls (o : Calls) (k : Key) (c : Nat) : Nat :=
  ((o k).filter fun p => p.1 = c).length

theorem countCalls_append (a b : Calls) (k : Key) (c : Nat) :
    countCalls (a.append b) k c = countCalls a k c + countCalls b k c := by
  simp [countCalls, Calls.append]

theorem count_map_value (gs : List Waiter) (v : Waiter → Answer) (c : Nat) :
    ((gs.map fun w => (w.cb, v w)).filter fun p => p.1 = c).length =
      (gs.filter fun w => w.cb = c).length := by
  induction gs with
  | nil => rfl
  | cons w gs ih =>
    simp only [List.map_cons, List.filter_cons]
    split <;> simp [ih]

theorem acquire_count (s : State) (keys : Key → Bool) (k : Key) (c : Nat) :
    pending (acquire s keys).1 k c + countCalls (acquire s keys).2 k c =
      pending s k c := by
  unfold pending countCalls acquire
  simp only
  by_cases hk : keys k = true
  · simp only [hk, if_true]
    rw [count_map_value]
    have h := grant_queue (s.lock k).writer (s.lock k).readers
      (s.lock k).queue
    have h2 : (s.lock k).queue.filter (fun w => decide (w.cb = c)) =
        ((s.lock k).grant.2 ++ (s.lock k).grant.1.queue).filter
          (fun w => decide (w.cb = c)) := by
      unfold Lock.grant
      rw [h]
    rw [h2, List.filter_append, List.length_append]
    omega
  · simp [hk]

theorem split_count (q : List Waiter) (t : Tn) (c : Nat) :
    ((q.filter fun w => w.ticket ≠ t).filter fun w => w.cb = c).length +
      ((q.filter fun w => w.ticket = t).filter fun w => w.cb = c).length =
      (q.filter fun w => w.cb = c).length := by
  induction q with
  | nil => rfl
  | cons w q ih =>
    by_cases ht : w.ticket = t
    · by_cases hc : w.cb = c
      · simp [ht, hc] at ih ⊢
        omega
      · simp [ht, hc] at ih ⊢
        omega
    · by_cases hc : w.cb = c
      · simp [ht, hc] at ih ⊢
        omega
      · simp [ht, hc] at ih ⊢
        omega

theorem release_count (s : State) (t : Tn) (tk : Ticket) (k : Key) (c : Nat)
    (st : State) (hl : st.lock = (release s t tk).1.lock) :
    pending st k c + countCalls (release s t tk).2.1 k c = pending s k c := by
  unfold pending countCalls
  rw [hl]
  unfold release unlock
  simp only
  by_cases hk : k ∈ tk.queued
  · simp only [hk, decide_true, if_true]
    rw [count_map_value]
    exact split_count _ _ _
  · simp [hk]

theorem woundOne_count (blocked : Tn) (key : Key) (a : Wounding) (b : Tn)
    (k : Key) (c : Nat) :
    pending (woundOne blocked key a b).st k c +
      countCalls (woundOne blocked key a b).calls k c =
      pending a.st k c + countCalls a.calls k c := by
  unfold woundOne
  simp only
  split
  · rfl
  · simp only [countCalls_append]
    have := release_count a.st b { (a.st.ticket b).getD {} with
        state := .wounded
        details := some (blocked, key) } k c _ rfl
    simp only at this
    omega

theorem woundFold_count (s : State) (key : Key) (bs : List Tn) (blocked : Tn)
    (k : Key) (c : Nat) :
    pending (woundFold s key bs blocked).st k c +
      countCalls (woundFold s key bs blocked).calls k c = pending s k c := by
  unfold woundFold
  have h : ∀ (l : List Tn) (a : Wounding),
      pending (l.foldl (woundOne blocked key) a).st k c +
        countCalls (l.foldl (woundOne blocked key) a).calls k c =
        pending a.st k c + countCalls a.calls k c := by
    intro l
    induction l with
    | nil => intro a; rfl
    | cons b l ih =>
      intro a
      rw [List.foldl_cons, ih, woundOne_count]
  rw [h]
  simp [countCalls, noCalls]

theorem count_enqueue {w : Waiter} {q : List Waiter}
    (h : ∀ y ∈ q, y.ticket ≠ w.ticket) (c : Nat) :
    ((enqueue w q).filter fun x => x.cb = c).length =
      (q.filter fun x => x.cb = c).length + if w.cb = c then 1 else 0 := by
  induction q with
  | nil =>
    by_cases hc : w.cb = c <;> simp [enqueue, hc]
  | cons y q ih =>
    have hy : y.ticket ≠ w.ticket := h y List.mem_cons_self
    have ih' := ih fun z hz => h z (List.mem_cons_of_mem _ hz)
    unfold enqueue
    split
    · by_cases hc : w.cb = c
      · simp [List.filter_cons, hc]
      · simp [List.filter_cons, hc]
    · split
      · rename_i h1
        exact absurd h1.symm hy
      · rw [List.filter_cons, List.filter_cons]
        split
        · simp only [List.length_cons, ih']
          omega
        · exact ih'

/-- How often the request asks callback `c` to be called for key `k`. -/
def asked : Op → Key → Nat → Nat
  | .tryLock _ _ k' _ _ cb, k, c => if k' = k ∧ cb = c then 1 else 0
  | _, _, _ => 0

theorem exec_count {s : State} (inv : Inv s) {op : Op} {s' : State} {o : Out}
    (h : exec s op = some (s', o)) (k : Key) (c : Nat) :
    pending s k c + asked op k c = pending s' k c + countCalls o.calls k c := by
  cases op with
  | tryLock t b k' ty f cb =>
    rcases tryLock_cases h with ⟨e, he⟩ | ⟨he, hs, ho⟩
    · unfold refuse at he
      simp only [Prod.mk.injEq] at he
      rw [he.1, he.2]
      unfold asked countCalls
      simp only
      by_cases hk : k' = k
      · subst hk
        by_cases hc : cb = c <;> simp [hc]
      · have : k ≠ k' := fun h => hk h.symm
        simp [hk, this]
    · rw [hs, ho, woundTickets_eq]
      simp only [countCalls_append]
      have h1 := acquire_count
        (woundFold (addWaiter s t ((s.ticket t).getD {}) b k' ty cb) k'
          (waitingOn t ty (s.lock k')) t).st
        (fun x => (woundFold (addWaiter s t ((s.ticket t).getD {}) b k' ty cb)
          k' (waitingOn t ty (s.lock k')) t).keys x || decide (x = k')) k c
      have h2 := woundFold_count
        (addWaiter s t ((s.ticket t).getD {}) b k' ty cb) k'
        (waitingOn t ty (s.lock k')) t k c
      have h3 : pending (addWaiter s t ((s.ticket t).getD {}) b k' ty cb) k c
          = pending s k c + asked (.tryLock t b k' ty f cb) k c := by
        unfold pending addWaiter asked
        simp only
        by_cases hk : k' = k
        · subst hk
          obtain ⟨-, -, -, h4⟩ := lockError_none he
          rw [getD_queued] at h4
          simp only [if_true, true_and]
          rw [count_enqueue (fun y hy => inv.not_in_queue h4 y hy)]
        · have : k ≠ k' := fun h => hk h.symm
          simp [hk, this]
      omega
  | prepare t u =>
    have h' : prepare s t u = (s', o) := Option.some.inj h
    have h1 : s'.lock = s.lock := by
      rw [show s' = (prepare s t u).1 by rw [h']]
      rcases prepare_cases s t u with h | ⟨tk, h1, h2, h3⟩
      · rw [h.1]
      · rw [h3]
        rfl
    have h2 : o.calls = noCalls := by
      rw [show o = (prepare s t u).2 by rw [h']]
      unfold prepare
      split
      · rfl
      · split <;> rfl
    simp [pending, asked, h1, h2, countCalls, noCalls]
  | commit t =>
    have h' : commit s t = (s', o) := Option.some.inj h
    rw [show s' = (commit s t).1 by rw [h'], show o = (commit s t).2 by rw [h']]
    rcases commit_cases s t with h | ⟨tk, h1, -, h3⟩
    · rw [h.1, h.2.2]
      simp [asked, countCalls, noCalls]
    · rw [h3]
      simp only [countCalls_append, asked]
      have g1 := acquire_count
        (released (applied s tk) t { tk with state := .committed }
          (some (committedRecord tk)))
        (release (applied s tk) t { tk with state := .committed }).2.2 k c
      have g2 := release_count (applied s tk) t
        { tk with state := .committed } k c
        (released (applied s tk) t { tk with state := .committed }
          (some (committedRecord tk))) rfl
      have g3 : pending (applied s tk) k c = pending s k c := rfl
      omega
  | rollback t =>
    have h' : rollback s t = (s', o) := Option.some.inj h
    rw [show s' = (rollback s t).1 by rw [h'],
      show o = (rollback s t).2 by rw [h']]
    rcases rollback_cases s t with h | ⟨tk, h1, h3⟩
    · rw [h.2]
      simp [asked, countCalls, noCalls]
    · rw [h3]
      simp only [countCalls_append, asked]
      have g1 := acquire_count (released s t tk none)
        (release s t tk).2.2 k c
      have g2 := release_count s t tk k c (released s t tk none) rfl
      omega
  | finish t =>
    have h' : finish s t = (s', o) := Option.some.inj h
    rw [show s' = (finish s t).1 by rw [h'], show o = (finish s t).2 by rw [h']]
    rcases finish_cases s t with h | ⟨tk, h1, h2, h3⟩
    · rw [h.1, h.2.2]
      simp [asked, countCalls, noCalls]
    · rw [h3]
      simp [asked, countCalls, noCalls, pending, State.setTicket]

/-! ### What granted callbacks are given -/

/-- A call tells the truth about the state after the operation: it hands out
the current value to a transaction that now holds the lock it asked for. -/
def Truthful (q : List Waiter) (s' : State) (k : Key)
    (p : Nat × Answer) : Prop :=
  ∀ v, p.2 = .value v → v = s'.value k ∧
    ∃ w ∈ q, w.cb = p.1 ∧ heldOf s' k w.ticket = some w.type

theorem heldAfter_mem {gs : List Waiter} {w : Waiter}
    (hs : gs.Pairwise fun a b => a.ticket < b.ticket) (hw : w ∈ gs)
    (x : Option LockType) : heldAfter gs w.ticket x = some w.type := by
  induction gs with
  | nil => simp at hw
  | cons y gs ih =>
    rw [heldAfter_cons]
    have hs' := List.pairwise_cons.mp hs
    rcases List.mem_cons.mp hw with rfl | hw
    · simp
    · have := hs'.1 w hw
      rw [if_neg (Nat.ne_of_lt this)]
      exact ih hs'.2 hw

theorem grant_sorted {lk : Lock}
    (h : lk.queue.Pairwise fun a b => a.ticket < b.ticket) :
    lk.grant.2.Pairwise fun a b => a.ticket < b.ticket := by
  have := grant_queue lk.writer lk.readers lk.queue
  rw [← this] at h
  exact (List.pairwise_append.mp h).1

theorem acquire_truthful {P : Tn → Prop} {D : Key → Prop} {s : State}
    (inv : InvP P D s) (keys : Key → Bool) (k : Key) :
    ∀ p ∈ (acquire s keys).2 k,
      Truthful (s.lock k).queue (acquire s keys).1 k p := by
  intro p hp v hv
  have hk : keys k = true := by
    cases hk : keys k with
    | true => rfl
    | false => simp [acquire, hk] at hp
  simp only [acquire, hk, if_true, List.mem_map] at hp
  obtain ⟨w, hw, rfl⟩ := hp
  simp only [Answer.value.injEq] at hv
  refine ⟨hv.symm, w, grant_mem hw, rfl, ?_⟩
  rw [heldOf_acquire inv, if_pos hk]
  exact heldAfter_mem (grant_sorted (inv.key k).sorted) hw _

theorem release_error (s : State) (t : Tn) (tk : Ticket) (k : Key)
    (p : Nat × Answer) (hp : p ∈ (release s t tk).2.1 k) (v : Value) :
    p.2 ≠ .value v := by
  unfold release at hp
  simp only at hp
  split at hp
  · simp only [List.mem_map] at hp
    obtain ⟨w, _, rfl⟩ := hp
    simp
  · simp at hp

theorem woundFold_error (s : State) (key : Key) (bs : List Tn) (blocked : Tn)
    (k : Key) : ∀ p ∈ (woundFold s key bs blocked).calls k, ∀ v,
      p.2 ≠ .value v := by
  unfold woundFold
  have h : ∀ (l : List Tn) (a : Wounding),
      (∀ p ∈ a.calls k, ∀ v, p.2 ≠ .value v) →
      ∀ p ∈ (l.foldl (woundOne blocked key) a).calls k, ∀ v,
        p.2 ≠ .value v := by
    intro l
    induction l with
    | nil => intro a ha; exact ha
    | cons b l ih =>
      intro a ha
      rw [List.foldl_cons]
      apply ih
      unfold woundOne
      simp only
      split
      · exact ha
      · intro p hp v
        simp only [Calls.append] at hp
        rcases List.mem_append.mp hp with hp | hp
        · exact ha p hp v
        · exact release_error _ _ _ _ p hp v
  apply h
  intro p hp
  simp [noCalls] at hp

/-- The queue with the request of the operation. -/
def queueWith (s : State) (op : Op) (k : Key) : List Waiter :=
  match op with
  | .tryLock t _ k' ty _ cb =>
    if k' = k then ⟨t, ty, cb⟩ :: (s.lock k).queue else (s.lock k).queue
  | _ => (s.lock k).queue

theorem unlock_queue_sub (t : Tn) (h : Option LockType) (q : Bool)
    (lk : Lock) : ∀ w ∈ (unlock t h q lk).queue, w ∈ lk.queue := by
  intro w hw
  unfold unlock at hw
  simp only at hw
  split at hw
  · exact (List.mem_filter.mp hw).1
  · exact hw

theorem woundFold_queue_sub (s : State) (key : Key) (bs : List Tn)
    (blocked : Tn) (k : Key) :
    ∀ w ∈ ((woundFold s key bs blocked).st.lock k).queue,
      w ∈ (s.lock k).queue := by
  unfold woundFold
  have h : ∀ (l : List Tn) (a : Wounding),
      ∀ w ∈ ((l.foldl (woundOne blocked key) a).st.lock k).queue,
        w ∈ (a.st.lock k).queue := by
    intro l
    induction l with
    | nil => intro a w hw; exact hw
    | cons b l ih =>
      intro a w hw
      rw [List.foldl_cons] at hw
      have h1 := ih _ w hw
      unfold woundOne at h1
      simp only at h1
      split at h1
      · exact h1
      · exact unlock_queue_sub _ _ _ _ w h1
  exact h bs _

theorem Truthful.mono {q q' : List Waiter} {s' : State} {k : Key}
    {p : Nat × Answer} (h : Truthful q s' k p) (hq : ∀ w ∈ q, w ∈ q') :
    Truthful q' s' k p := by
  intro v hv
  obtain ⟨h1, w, hw, h2⟩ := h v hv
  exact ⟨h1, w, hq w hw, h2⟩

theorem exec_truthful {s : State} (inv : Inv s) {op : Op} {s' : State}
    {o : Out} (h : exec s op = some (s', o)) (k : Key) :
    ∀ p ∈ o.calls k, Truthful (queueWith s op k) s' k p := by
  cases op with
  | tryLock t b k' ty f cb =>
    rcases tryLock_cases h with ⟨e, he⟩ | ⟨he, hs, ho⟩
    · unfold refuse at he
      simp only [Prod.mk.injEq] at he
      rw [he.2]
      intro p hp v hv
      simp only at hp
      split at hp
      · simp only [List.mem_singleton] at hp
        subst hp
        simp at hv
      · simp at hp
    · rw [hs, ho, woundTickets_eq]
      intro p hp
      simp only [Calls.append] at hp
      obtain ⟨h1, -⟩ := accept_ok inv t b k' ty cb he
      rcases List.mem_append.mp hp with hp | hp
      · intro v hv
        exact absurd hv (woundFold_error _ _ _ _ _ p hp v)
      · refine (acquire_truthful h1 _ k p hp).mono ?_
        intro w hw
        have hw := woundFold_queue_sub _ _ _ _ _ w hw
        unfold queueWith
        simp only
        unfold addWaiter at hw
        simp only at hw
        by_cases hk : k' = k
        · subst hk
          obtain ⟨-, -, -, h4⟩ := lockError_none he
          rw [getD_queued] at h4
          simp only [if_true] at hw ⊢
          rcases (mem_enqueue (fun y hy => inv.not_in_queue h4 y hy)).mp hw
            with rfl | hw
          · exact List.mem_cons_self
          · exact List.mem_cons_of_mem _ hw
        · have hne : k ≠ k' := fun h => hk h.symm
          simpa [hk, hne] using hw
  | prepare t u =>
    have h' : prepare s t u = (s', o) := Option.some.inj h
    have h2 : o.calls = noCalls := by
      rw [show o = (prepare s t u).2 by rw [h']]
      unfold prepare
      split
      · rfl
      · split <;> rfl
    simp [h2, noCalls]
  | commit t =>
    have h' : commit s t = (s', o) := Option.some.inj h
    rw [show s' = (commit s t).1 by rw [h'], show o = (commit s t).2 by rw [h']]
    rcases commit_cases s t with h | ⟨tk, h1, -, h3⟩
    · rw [h.2.2]
      simp [noCalls]
    · rw [h3]
      intro p hp
      simp only [Calls.append] at hp
      have hbare : Bare (some (committedRecord tk)) := by
        intro tk2 he
        simp only [Option.some.injEq] at he
        subst he
        exact ⟨fun _ => rfl, rfl, by simp [committedRecord]⟩
      have hinv := released_ok (tk' := { tk with state := .committed })
        (s := applied s tk) (inv.setValue _) (tk := tk) h1 rfl rfl hbare
      rcases List.mem_append.mp hp with hp | hp
      · refine (acquire_truthful hinv _ k p hp).mono ?_
        intro w hw
        exact unlock_queue_sub _ _ _ _ w hw
      · intro v hv
        exact absurd hv (release_error _ _ _ _ p hp v)
  | rollback t =>
    have h' : rollback s t = (s', o) := Option.some.inj h
    rw [show s' = (rollback s t).1 by rw [h'],
      show o = (rollback s t).2 by rw [h']]
    rcases rollback_cases s t with h | ⟨tk, h1, h3⟩
    · rw [h.2]
      simp [noCalls]
    · rw [h3]
      intro p hp
      simp only [Calls.append] at hp
      have hinv := released_ok (tk' := tk) inv h1 rfl rfl bare_none
      rcases List.mem_append.mp hp with hp | hp
      · refine (acquire_truthful hinv _ k p hp).mono ?_
        intro w hw
        exact unlock_queue_sub _ _ _ _ w hw
      · intro v hv
        exact absurd hv (release_error _ _ _ _ p hp v)
  | finish t =>
    have h' : finish s t = (s', o) := Option.some.inj h
    rw [show o = (finish s t).2 by rw [h']]
    rcases finish_cases s t with h | ⟨tk, h1, h2, h3⟩
    · rw [h.2.2]
      simp [noCalls]
    · rw [h3]
      simp [noCalls]

end Verif.Parsec
