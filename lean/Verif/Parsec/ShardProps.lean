import Verif.Parsec.ShardHist

/-!
# Properties of the PArSEC shard (C39 - C45)
-/
namespace Verif.Parsec

/-- A history: the requests served and their results, newest first, by a shard
started from replicated values and tickets. -/
inductive Hist (value : Key → Value) (ts : List (Tn × RTicket)) :
    List (Op × Out) → State → Prop
  | start (wf : WellFormed ts) : Hist value ts [] (recover value ts)
  | step {h : List (Op × Out)} {s s' : State} {op : Op} {o : Out}
      (hh : Hist value ts h s) (he : exec s op = some (s', o)) :
      Hist value ts ((op, o) :: h) s'

theorem Hist.reach {value : Key → Value} {ts : List (Tn × RTicket)}
    {h : List (Op × Out)} {s : State} (hh : Hist value ts h s) : Reach s := by
  induction hh with
  | start wf => exact .start value ts wf
  | step _ he ih => exact .step ih he

/-- Runs requests one after the other, for examples. -/
def runOps (s : State) : List Op → Option (State × List Out)
  | [] => some (s, [])
  | op :: ops =>
    match exec s op with
    | none => none
    | some (s', o) =>
      match runOps s' ops with
      | none => none
      | some (s'', os) => some (s'', o :: os)

/-- A shard without data. -/
def fresh : State := recover (fun _ => []) []

theorem wf_nil : WellFormed [] := by
  constructor
  · exact List.Pairwise.nil
  · intro a ha
    simp at ha

theorem runOps_reach {s : State} (h : Reach s) {ops : List Op} {s' : State}
    {os : List Out} (hr : runOps s ops = some (s', os)) : Reach s' := by
  induction ops generalizing s os with
  | nil =>
    simp only [runOps, Option.some.injEq, Prod.mk.injEq] at hr
    rw [← hr.1]
    exact h
  | cons op ops ih =>
    unfold runOps at hr
    cases he : exec s op with
    | none => simp [he] at hr
    | some p =>
      obtain ⟨s1, o⟩ := p
      simp only [he] at hr
      cases hr' : runOps s1 ops with
      | none => simp [hr'] at hr
      | some q =>
        obtain ⟨s2, os'⟩ := q
        simp only [hr', Option.some.injEq, Prod.mk.injEq] at hr
        have e := hr.1
        subst e
        exact ih (.step h he) hr'

theorem fresh_reach : Reach fresh := .start _ _ wf_nil

/-! ### C39: readers-writer exclusion -/

/-- Transaction `t` has been granted a lock of type `ty` on key `k` and has
not given it up. -/
def Holds (s : State) (t : Tn) (k : Key) (ty : LockType) : Prop :=
  ∃ tk, s.ticket t = some tk ∧ tk.held k = some ty

theorem holds_iff {s : State} {t : Tn} {k : Key} {ty : LockType} :
    Holds s t k ty ↔ heldOf s k t = some ty := by
  unfold Holds heldOf
  cases s.ticket t <;> simp

/-- **C39.** In every reachable state, a key whose write lock is held by one
transaction is held by no other, neither for writing nor for reading. -/
theorem C39_exclusion {s : State} (h : Reach s) {k : Key} {a b : Tn}
    {ty : LockType} (ha : Holds s a k .write) (hb : Holds s b k ty) :
    a = b := by
  have inv := h.inv
  rw [holds_iff] at ha hb
  have h1 := ((inv.key k).writer a).mpr ha
  cases ty with
  | write =>
    have h2 := ((inv.key k).writer b).mpr hb
    rw [h1] at h2
    exact Option.some.inj h2
  | read =>
    have h2 := ((inv.key k).reader b).mpr hb
    rw [(inv.key k).excl (by simp [h1])] at h2
    simp at h2

/-- Two transactions read key 1, a third, younger one waits to write. -/
def readersRun : List Op :=
  [.tryLock 1 0 [1] .read true 10, .tryLock 2 0 [1] .read true 20,
   .tryLock 3 0 [1] .write true 30]

example : ((runOps fresh readersRun).map fun r =>
    (heldOf r.1 [1] 1, heldOf r.1 [1] 2, heldOf r.1 [1] 3,
      (r.1.lock [1]).queue)) =
    some (some .read, some .read, none, [⟨3, .write, 30⟩]) := by decide

/-- After both readers are rolled back the writer holds the lock. -/
example : ((runOps fresh (readersRun ++ [.rollback 1, .rollback 2])).map
    fun r => (heldOf r.1 [1] 3, (r.1.lock [1]).writer,
      r.2.map fun o => o.calls [1])) =
    some (some .write, some 3,
      [[(10, .value [])], [(20, .value [])], [], [], [(30, .value [])]]) := by
  decide

/-! ### C40: the lock table and the records agree -/

/-- **C40.** The lock table names exactly the transactions that are recorded
as holding or waiting. -/
theorem C40_agree {s : State} (h : Reach s) (t : Tn) (k : Key) :
    ((s.lock k).writer = some t ↔ Holds s t k .write) ∧
    (t ∈ (s.lock k).readers ↔ Holds s t k .read) ∧
    ((∃ w ∈ (s.lock k).queue, w.ticket = t) ↔
      ∃ tk, s.ticket t = some tk ∧ k ∈ tk.queued) := by
  have inv := h.inv
  rw [holds_iff, holds_iff]
  exact ⟨(inv.key k).writer t, (inv.key k).reader t, (inv.key k).waiter t⟩

/-- **C40.** Wounded and committed transactions hold and wait for nothing; the
lock table names no transaction the shard does not know (such as one that was
finished or rolled back). -/
theorem C40_idle {s : State} (h : Reach s) (t : Tn)
    (ht : ∀ tk, s.ticket t = some tk →
      tk.state = .wounded ∨ tk.state = .committed) (k : Key) :
    (s.lock k).writer ≠ some t ∧ t ∉ (s.lock k).readers ∧
    ∀ w ∈ (s.lock k).queue, w.ticket ≠ t := by
  have inv := h.inv
  have hno : heldOf s k t = none ∧ ¬ queuedOf s k t := by
    cases hs : s.ticket t with
    | none => exact ⟨by simp [heldOf, hs], by simp [queuedOf, hs]⟩
    | some tk =>
      obtain ⟨h1, h2⟩ := inv.idle t tk hs (ht tk hs)
      exact ⟨by rw [heldOf_some hs, h1], by rw [queuedOf_some hs, h2]; simp⟩
  refine ⟨fun hc => ?_, fun hc => ?_, inv.not_in_queue hno.2⟩
  · have := ((inv.key k).writer t).mp hc
    rw [hno.1] at this
    simp at this
  · have := ((inv.key k).reader t).mp hc
    rw [hno.1] at this
    simp at this

/-- **C40.** The queue of a key is ordered by age and has at most one entry
per transaction, and no reader is listed twice. -/
theorem C40_ordered {s : State} (h : Reach s) (k : Key) :
    (s.lock k).queue.Pairwise (fun a b => a.ticket < b.ticket) ∧
    (s.lock k).readers.Nodup :=
  ⟨(h.inv.key k).sorted, (h.inv.key k).nodup⟩

/-- An older transaction wounds a younger reader, which then holds nothing. -/
example : ((runOps fresh [.tryLock 5 0 [1] .read true 50,
    .tryLock 5 0 [2] .read false 51, .tryLock 3 0 [1] .write true 30]).map
    fun r => ((r.1.ticket 5).map (·.state), heldOf r.1 [1] 5, heldOf r.1 [2] 5,
      heldOf r.1 [1] 3)) =
    some (some .wounded, none, none, some .write) := by decide

/-! ### C41: no deadlock -/

/-- Transaction `t` waits, on this shard, for `h`: it asked for a lock on a key
that `h` holds in a conflicting way, or behind whose request it is queued. -/
def WaitsFor (s : State) (t h : Tn) : Prop :=
  ∃ k w, w ∈ (s.lock k).queue ∧ w.ticket = t ∧
    ((h ≠ t ∧ (Holds s h k .write ∨ (Holds s h k .read ∧ w.type = .write))) ∨
     ∃ l1 l2 w', (s.lock k).queue = l1 ++ w :: l2 ∧ w' ∈ l1 ∧ w'.ticket = h)

/-- Transaction `t` waits for something on this shard. -/
def IsWaiting (s : State) (t : Tn) : Prop :=
  ∃ k w, w ∈ (s.lock k).queue ∧ w.ticket = t

/-- **C41.** A transaction only waits for older transactions and for prepared
ones. -/
theorem C41_order {s : State} (hr : Reach s) {t h : Tn}
    (hw : WaitsFor s t h) : h < t ∨ isPrepared s h := by
  have inv := hr.inv
  obtain ⟨k, w, h1, rfl, h2 | ⟨l1, l2, w', h3, h4, rfl⟩⟩ := hw
  · rw [holds_iff, holds_iff] at h2
    exact (inv.key k).order w h1 h h2
  · left
    have hs := (inv.key k).sorted
    rw [h3] at hs
    exact (List.pairwise_append.mp hs).2.2 w' h4 w List.mem_cons_self

/-- **C41.** Prepared transactions wait for nothing. -/
theorem C41_prepared_idle {s : State} (hr : Reach s) {t : Tn}
    (hp : isPrepared s t) : ¬ IsWaiting s t := by
  have inv := hr.inv
  obtain ⟨tk, h1, h2⟩ := hp
  have h3 := (inv.prep t tk h1 h2).1
  rintro ⟨k, w, hw, he⟩
  refine inv.not_in_queue ?_ w hw he
  rw [queuedOf_some h1, h3]
  simp

/-- The front of a queue is blocked by a current holder. -/
theorem front_blocked {s : State} (inv : Inv s) {k : Key} {w : Waiter}
    {q : List Waiter} (h : (s.lock k).queue = w :: q) :
    ∃ x, Conflicts (heldOf s k) w x := by
  have ok := inv.key k
  have hst := inv.stuck k id
  unfold Stuck Lock.grant at hst
  rw [h, grant] at hst
  have hmem : w ∈ (s.lock k).queue := by rw [h]; exact List.mem_cons_self
  have hup := ok.upgrade w hmem
  have hwriter : ∀ x, (s.lock k).writer = some x →
      Conflicts (heldOf s k) w x := by
    intro x hx
    have hh := (ok.writer x).mp hx
    refine ⟨?_, Or.inl hh⟩
    rintro rfl
    exact hup.1 hh
  cases hty : w.type with
  | read =>
    simp only [hty] at hst
    split at hst
    · rename_i hs
      obtain ⟨x, hx⟩ := Option.isSome_iff_exists.mp hs
      exact ⟨x, hwriter x hx⟩
    · simp at hst
  | write =>
    simp only [hty] at hst
    split at hst
    · rename_i hs
      rcases hs with hs | hs
      · match hr : (s.lock k).readers, hs with
        | a :: b :: l, _ =>
          have hnd := ok.nodup
          rw [hr] at hnd
          have hab : a ≠ b := by
            intro he
            subst he
            simp at hnd
          have ha := (ok.reader a).mp (by rw [hr]; simp)
          have hb := (ok.reader b).mp (by rw [hr]; simp)
          by_cases haw : a = w.ticket
          · refine ⟨b, ?_, Or.inr ⟨hb, hty⟩⟩
            intro hbw
            exact hab (haw.trans hbw.symm)
          · exact ⟨a, haw, Or.inr ⟨ha, hty⟩⟩
      · obtain ⟨x, hx⟩ := Option.isSome_iff_exists.mp hs
        exact ⟨x, hwriter x hx⟩
    · split at hst
      · rename_i hs
        match hr : (s.lock k).readers, hs with
        | [a], hs =>
          have ha := (ok.reader a).mp (by rw [hr]; simp)
          refine ⟨a, ?_, Or.inr ⟨ha, hty⟩⟩
          intro he
          subst he
          simp at hs
        | a :: b :: l, hs => simp at hs
        | [], hs => simp at hs
      · simp at hst

/-- **C41.** There is no cycle of waiting transactions, and more generally no
endless chain, even across shards.  The shards are reached by any histories;
the only assumption is that a transaction is prepared on a shard only when it
does not wait on any (the broker prepares when it has all locks). -/
theorem C41_no_deadlock {ι : Type} (shard : ι → State)
    (hr : ∀ i, Reach (shard i))
    (hp : ∀ i j t, isPrepared (shard i) t → ¬ IsWaiting (shard j) t) :
    ¬ ∃ f : Nat → Tn, ∀ n, ∃ i, WaitsFor (shard i) (f n) (f (n + 1)) := by
  rintro ⟨f, hf⟩
  have hdec : ∀ n, f (n + 1) < f n := by
    intro n
    obtain ⟨i, hi⟩ := hf n
    rcases C41_order (hr i) hi with h | h
    · exact h
    · obtain ⟨j, k, w, hj, he, _⟩ := hf (n + 1)
      exact absurd ⟨k, w, hj, he⟩ (hp i j _ h)
  have hbound : ∀ n, f n + n ≤ f 0 := by
    intro n
    induction n with
    | zero => simp
    | succ n ih =>
      have := hdec n
      omega
  have := hbound (f 0 + 1)
  omega

/-- **C41.** Someone can always make progress: if any transaction waits on any
shard, then some transaction that waits on no shard holds a lock. -/
theorem C41_progress {ι : Type} (shard : ι → State)
    (hr : ∀ i, Reach (shard i))
    (hp : ∀ i j t, isPrepared (shard i) t → ¬ IsWaiting (shard j) t)
    {i : ι} {t : Tn} (hw : IsWaiting (shard i) t) :
    ∃ j k h ty, Holds (shard j) h k ty ∧ ∀ i, ¬ IsWaiting (shard i) h := by
  induction t using Nat.strongRecOn generalizing i with
  | ind t ih =>
    obtain ⟨k, w, hm, rfl⟩ := hw
    have inv := (hr i).inv
    match hq : ((shard i).lock k).queue with
    | [] =>
      rw [hq] at hm
      simp at hm
    | w0 :: q =>
      have hs := (inv.key k).sorted
      rw [hq] at hm hs
      rcases List.mem_cons.mp hm with rfl | hm
      · obtain ⟨x, hx⟩ := front_blocked inv hq
        have hmem : w ∈ ((shard i).lock k).queue := by
          rw [hq]
          exact List.mem_cons_self
        by_cases hwait : ∃ j, IsWaiting (shard j) x
        · obtain ⟨j, hj⟩ := hwait
          rcases (inv.key k).order w hmem x hx with h | h
          · exact ih x h hj
          · exact absurd hj (hp i j x h)
        · refine ⟨i, k, x, ?_⟩
          have hno : ∀ j, ¬ IsWaiting (shard j) x :=
            fun j hj => hwait ⟨j, hj⟩
          rcases hx.2 with h | ⟨h, _⟩
          · exact ⟨.write, holds_iff.mpr h, hno⟩
          · exact ⟨.read, holds_iff.mpr h, hno⟩
      · refine ih w0.ticket ((List.pairwise_cons.mp hs).1 w hm) (i := i)
          ⟨k, w0, ?_, rfl⟩
        rw [hq]
        exact List.mem_cons_self

/-- The assumption on prepared transactions holds within one shard. -/
theorem C41_progress_one {s : State} (hr : Reach s) {t : Tn}
    (hw : IsWaiting s t) :
    ∃ k h ty, Holds s h k ty ∧ ¬ IsWaiting s h := by
  obtain ⟨_, k, h, ty, h1, h2⟩ := C41_progress (fun _ : Unit => s)
    (fun _ => hr) (fun _ _ t hp => C41_prepared_idle hr hp) (i := ()) hw
  exact ⟨k, h, ty, h1, h2 ()⟩

/-- A transaction that waits, for two older readers. -/
example : ∃ s, Reach s ∧ IsWaiting s 3 ∧ WaitsFor s 3 1 ∧ WaitsFor s 3 2 := by
  refine ⟨((runOps fresh readersRun).get (by decide)).1, ?_, ?_, ?_, ?_⟩
  · exact runOps_reach (ops := readersRun)
      (os := ((runOps fresh readersRun).get (by decide)).2) fresh_reach
      (Option.some_get (by decide)).symm
  · exact ⟨[1], ⟨3, .write, 30⟩, by decide, rfl⟩
  · refine ⟨[1], ⟨3, .write, 30⟩, by decide, rfl,
      Or.inl ⟨by decide, Or.inr ⟨?_, rfl⟩⟩⟩
    rw [holds_iff]
    decide
  · refine ⟨[1], ⟨3, .write, 30⟩, by decide, rfl,
      Or.inl ⟨by decide, Or.inr ⟨?_, rfl⟩⟩⟩
    rw [holds_iff]
    decide

/-! ### C42: prepared transactions are safe -/

/-- A run of requests none of which commits or rolls back `t`. -/
inductive Others (t : Tn) : State → State → Prop
  | refl (s : State) : Others t s s
  | step {s s' s'' : State} {op : Op} {o : Out} (h : Others t s s')
      (he : exec s' op = some (s'', o)) (hc : op ≠ .commit t)
      (hr : op ≠ .rollback t) : Others t s s''

theorem Others.reach {t : Tn} {s s' : State} (h : Others t s s')
    (hr : Reach s) : Reach s' := by
  induction h with
  | refl => exact hr
  | step _ he _ _ ih => exact .step ih he

/-- **C42.** Once prepared, a transaction's state, locks and pending update
stay exactly as they are whatever requests are served, until it is committed
or rolled back. -/
theorem C42_prepared_safe {s s' : State} {t : Tn} (hr : Reach s)
    (h : Others t s s') {tk : Ticket} (ht : s.ticket t = some tk)
    (hp : tk.state = .prepared) :
    s'.ticket t = some tk ∧
    ∀ k, ((s'.lock k).writer = some t ↔ (s.lock k).writer = some t) ∧
      (t ∈ (s'.lock k).readers ↔ t ∈ (s.lock k).readers) := by
  have hrec : s'.ticket t = some tk := by
    induction h with
    | refl => exact ht
    | step h' he hc hro ih => exact exec_prepared (h'.reach hr).inv ih hp he hc hro
  refine ⟨hrec, fun k => ?_⟩
  have a := C40_agree hr t k
  have b := C40_agree (h.reach hr) t k
  have hsame : ∀ ty, Holds s' t k ty ↔ Holds s t k ty := by
    intro ty
    unfold Holds
    rw [hrec, ht]
  exact ⟨b.1.trans ((hsame _).trans a.1.symm),
    b.2.1.trans ((hsame _).trans a.2.1.symm)⟩

/-- An older transaction asks for a key of a prepared younger one: it waits
and the prepared one keeps its lock. -/
example : ((runOps fresh [.tryLock 5 0 [1] .write true 50,
    .prepare 5 [([1], [7])], .tryLock 3 0 [1] .write true 30]).map
    fun r => ((r.1.ticket 5).map (·.state), heldOf r.1 [1] 5,
      (r.1.lock [1]).queue)) =
    some (some .prepared, some .write, [⟨3, .write, 30⟩]) := by decide

/-! ### C43: values -/

/-- **C43.** If a request changes the value of a key, it is a successful commit
of a prepared transaction which holds the key's write lock, and the new value
is the one of its prepared update. -/
theorem C43_only_commit {s s' : State} (hr : Reach s) {op : Op} {o : Out}
    (h : exec s op = some (s', o)) {k : Key} (hv : s'.value k ≠ s.value k) :
    ∃ t tk, op = .commit t ∧ o.result = none ∧ s.ticket t = some tk ∧
      tk.state = .prepared ∧ Holds s t k .write ∧
      tk.update.lookup k = some (s'.value k) := by
  obtain ⟨t, tk, h1, h2, h3, h4, h5, -⟩ := exec_value hr.inv h hv
  refine ⟨t, tk, h1, h2, h3, h4, ⟨tk, h3, ?_⟩, h5⟩
  have hm : ∃ p ∈ tk.update, p.1 = k := by
    clear h4
    revert h5
    generalize tk.update = u
    intro h5
    induction u with
    | nil => simp at h5
    | cons p u ih =>
      obtain ⟨x, y⟩ := p
      rw [List.lookup_cons] at h5
      cases hb : k == x with
      | true =>
        exact ⟨(x, y), List.mem_cons_self, (by simpa using hb : k = x).symm⟩
      | false =>
        rw [hb] at h5
        obtain ⟨q, hq, he⟩ := ih h5
        exact ⟨q, List.mem_cons_of_mem _ hq, he⟩
  obtain ⟨p, hp, he⟩ := hm
  have := (hr.inv.prep t tk h3 h4).2 p hp
  rw [he] at this
  exact this

/-- **C43.** A successful commit writes its whole update and nothing else. -/
theorem C43_commit_writes {s s' : State} (t : Tn) {o : Out}
    (h : exec s (.commit t) = some (s', o)) (hok : o.result = none) :
    ∃ tk, s.ticket t = some tk ∧ tk.state = .prepared ∧
      ∀ k, s'.value k = (tk.update.lookup k).getD (s.value k) := by
  have h' : commit s t = (s', o) := Option.some.inj h
  rcases commit_cases s t with hc | ⟨tk, h1, h2, h3⟩
  · rw [h'] at hc
    exact absurd hok hc.2.1
  · rw [h'] at h3
    simp only [Prod.mk.injEq] at h3
    refine ⟨tk, h1, h2, fun k => ?_⟩
    rw [h3.1]
    rfl

/-- The last result of `t` that mattered for its update: scanning the history
from the newest entry, the update of its `prepare`, if no commit, rollback or
finish of `t` succeeded since. -/
def preparedUpdate (ts : List (Tn × RTicket)) (t : Tn) :
    List (Op × Out) → Option (List (Key × Value))
  | [] => (ts.lookup t).bind fun r => if r.committed then none else some r.update
  | (op, o) :: h =>
    if op.ticket = t ∧ o.result = none then
      match op with
      | .tryLock .. => preparedUpdate ts t h
      | .prepare _ u => some u
      | _ => none
    else preparedUpdate ts t h

theorem phase_eq_prepared {s : State} {t : Tn} :
    phaseOf s t = some .prepared ↔ isPrepared s t := by
  unfold phaseOf isPrepared
  cases s.ticket t with
  | none => simp
  | some tk =>
    simp only [Option.map_some, Option.some.injEq, exists_eq_left',
      Ticket.phase]
    cases tk.state <;> simp

/-- **C43.** The update a prepared transaction will write is exactly the one
given to its `prepare`. -/
theorem C43_exact_update {value : Key → Value} {ts : List (Tn × RTicket)}
    {h : List (Op × Out)} {s : State} (hh : Hist value ts h s) {t : Tn}
    {tk : Ticket} (ht : s.ticket t = some tk) (hp : tk.state = .prepared) :
    preparedUpdate ts t h = some tk.update := by
  induction hh generalizing tk with
  | start wf =>
    unfold recover at ht
    simp only at ht
    cases hl : ts.lookup t with
    | none => simp [hl] at ht
    | some r =>
      simp only [hl, Option.map_some, Option.some.injEq] at ht
      subst ht
      unfold recoverTicket at hp ⊢
      cases hc : r.committed with
      | true => simp [hc] at hp
      | false => simp [preparedUpdate, hl, hc]
  | @step h s s' op o hh he ih =>
    have hr := hh.reach
    have hph := exec_phase hr.inv he t
    have hpre : phaseOf s' t = some .prepared :=
      phase_eq_prepared.mpr ⟨tk, ht, hp⟩
    rw [hpre] at hph
    -- if it was prepared before, its record is the same
    have hkeep : phaseOf s t = some .prepared → op ≠ .commit t →
        op ≠ .rollback t → preparedUpdate ts t h = some tk.update := by
      intro h1 h2 h3
      obtain ⟨tk0, g1, g2⟩ := phase_eq_prepared.mp h1
      have g3 := exec_prepared hr.inv g1 g2 he h2 h3
      rw [ht] at g3
      rw [Option.some.inj g3]
      exact ih g1 g2
    by_cases hop : op.ticket = t
    · subst hop
      cases op with
      | tryLock t b k ty f cb =>
        simp only [phaseStep, Op.ticket, ne_eq, not_true_eq_false,
          if_false] at hph
        have h1 : phaseOf s t = some .prepared := by
          split at hph
          · simp at hph
          · exact hph.symm
        have h2 := hkeep h1 (by simp) (by simp)
        unfold preparedUpdate
        simp only [Op.ticket] at h2 ⊢
        split <;> exact h2
      | prepare t u =>
        unfold preparedUpdate
        simp only [Op.ticket, true_and]
        by_cases ho : o.result = none
        · simp only [ho, if_true, Option.some.injEq]
          have h' : prepare s t u = (s', o) := Option.some.inj he
          rcases prepare_cases s t u with hc | ⟨tk', h1, h2, h3⟩
          · rw [h'] at hc
            exact absurd ho hc.2
          · rw [h'] at h3
            simp only [Prod.mk.injEq] at h3
            have ht' := ht
            rw [h3.1] at ht'
            simp only [State.setTicket, Op.ticket, if_true,
              Option.some.injEq] at ht'
            rw [← ht']
        · simp only [ho, if_false]
          simp only [phaseStep, Op.ticket, ne_eq, not_true_eq_false,
            if_false, ho] at hph
          exact hkeep hph.symm (by simp) (by simp)
      | commit t =>
        exfalso
        simp only [phaseStep, Op.ticket, ne_eq, not_true_eq_false,
          if_false] at hph
        split at hph
        · simp at hph
        · rename_i ho
          obtain ⟨tk0, g1, g2⟩ := phase_eq_prepared.mp hph.symm
          have h' : commit s t = (s', o) := Option.some.inj he
          have : o.result = none := by
            rw [show o = (commit s t).2 by rw [h']]
            simp [commit, g1, g2]
          exact ho this
      | rollback t =>
        exfalso
        simp only [phaseStep, Op.ticket, ne_eq, not_true_eq_false,
          if_false] at hph
        split at hph
        · simp at hph
        · rename_i ho
          obtain ⟨tk0, g1, g2⟩ := phase_eq_prepared.mp hph.symm
          have h' : rollback s t = (s', o) := Option.some.inj he
          have : o.result = none := by
            rw [show o = (rollback s t).2 by rw [h']]
            simp [rollback, g1]
          exact ho this
      | finish t =>
        unfold preparedUpdate
        simp only [Op.ticket, true_and]
        simp only [phaseStep, Op.ticket, ne_eq, not_true_eq_false,
          if_false] at hph
        split at hph
        · simp at hph
        · rename_i ho
          simp only [ho, if_false]
          exact hkeep hph.symm (by simp) (by simp)
    · have hx : phaseOf s t = some .prepared := by
        unfold phaseStep at hph
        rw [if_pos (fun h => hop h.symm)] at hph
        exact hph.symm
      unfold preparedUpdate
      rw [if_neg (fun hc => hop hc.1)]
      apply hkeep hx
      · rintro rfl
        exact hop rfl
      · rintro rfl
        exact hop rfl

/-- A run during which `t` holds a lock on `k` all the time. -/
inductive Keeps (t : Tn) (k : Key) : State → State → Prop
  | refl (s : State) : Keeps t k s s
  | step {s s' s'' : State} {op : Op} {o : Out} (h : Keeps t k s s')
      (he : exec s' op = some (s'', o)) (h1 : ∃ ty, Holds s' t k ty)
      (h2 : ∃ ty, Holds s'' t k ty) : Keeps t k s s''

/-- **C43.** While a transaction holds a lock on a key, for reading or for
writing, the key keeps its value. -/
theorem C43_value_stays {t : Tn} {k : Key} {s s' : State} (hr : Reach s)
    (h : Keeps t k s s') : s'.value k = s.value k ∧ Reach s' := by
  induction h with
  | refl => exact ⟨rfl, hr⟩
  | @step s' s'' op o _ he h1 h2 ih =>
    refine ⟨?_, .step ih.2 he⟩
    rw [← ih.1]
    apply Classical.byContradiction
    intro hv
    obtain ⟨t', tk, g1, -, g3, g4, g5, -⟩ := C43_only_commit ih.2 he hv
    obtain ⟨ty, hty⟩ := h1
    have heq : t' = t := C39_exclusion ih.2 g5 hty
    subst heq
    obtain ⟨t2, tk2, i1, -, -, -, -, tk', i2, -, i3⟩ := exec_value ih.2.inv he hv
    rw [g1] at i1
    simp only [Op.commit.injEq] at i1
    subst i1
    obtain ⟨ty2, tk3, j1, j2⟩ := h2
    rw [i2] at j1
    rw [← Option.some.inj j1, i3] at j2
    simp at j2

/-- **C43.** A lock request that is answered with a value is answered with the
key's value at that moment, and its transaction then holds the lock it asked
for. -/
theorem C43_granted_value {s s' : State} (hr : Reach s) {op : Op} {o : Out}
    (h : exec s op = some (s', o)) {k : Key} {c : Nat} {v : Value}
    (hc : (c, .value v) ∈ o.calls k) :
    v = s'.value k ∧ ∃ w ∈ queueWith s op k, w.cb = c ∧
      Holds s' w.ticket k w.type := by
  obtain ⟨h1, w, h2, h3, h4⟩ :=
    exec_truthful hr.inv h k (c, .value v) hc v rfl
  exact ⟨h1, w, h2, h3, holds_iff.mpr h4⟩

/-- A commit changes the value and the waiting reader is given the new one. -/
example : ((runOps fresh [.tryLock 5 0 [1] .write true 50,
    .prepare 5 [([1], [7])], .tryLock 3 0 [1] .read true 30, .commit 5]).map
    fun r => (r.1.value [1], r.2.map fun o => o.calls [1])) =
    some ([7], [[(50, .value [])], [], [], [(30, .value [7])]]) := by decide

/-! ### C44: every request is answered once -/

/-- How often callback `c` was given for key `k` in a history. -/
def askedCount (k : Key) (c : Nat) : List (Op × Out) → Nat
  | [] => 0
  | (op, _) :: h => asked op k c + askedCount k c h

/-- How often callback `c` was called for key `k` in a history. -/
def calledCount (k : Key) (c : Nat) : List (Op × Out) → Nat
  | [] => 0
  | (_, o) :: h => countCalls o.calls k c + calledCount k c h

/-- **C44.** In every history, each callback was called exactly as often as it
was given, less the times it is still waiting in the queue: a callback given
once is called at most once, and is waiting until it has been called. -/
theorem C44_answered_once {value : Key → Value} {ts : List (Tn × RTicket)}
    {h : List (Op × Out)} {s : State} (hh : Hist value ts h s) (k : Key)
    (c : Nat) :
    askedCount k c h = calledCount k c h + pending s k c := by
  induction hh with
  | start wf => simp [askedCount, calledCount, pending, recover]
  | step hh he ih =>
    have := exec_count hh.reach.inv he k c
    simp only [askedCount, calledCount]
    omega

/-- **C44.** No grantable request is left waiting: the first waiting request of
every key is blocked by a transaction that holds a conflicting lock. -/
theorem C44_blocked {s : State} (hr : Reach s) {k : Key} {w : Waiter}
    {q : List Waiter} (h : (s.lock k).queue = w :: q) :
    ∃ x, x ≠ w.ticket ∧
      (Holds s x k .write ∨ (Holds s x k .read ∧ w.type = .write)) := by
  obtain ⟨x, h1, h2⟩ := front_blocked hr.inv h
  refine ⟨x, h1, ?_⟩
  rw [holds_iff, holds_iff]
  exact h2

/-- A history in which callback 30 is still waiting and 10, 20 were called. -/
example : ((runOps fresh readersRun).map fun r =>
    (pending r.1 [1] 30, r.2.map fun o => countCalls o.calls [1] 10)) =
    some (1, [1, 0, 0]) := by decide

/-! ### C45: protocol errors -/

/-- The phase of a transaction according to the requests served and their
results alone. -/
def phaseAfter (ts : List (Tn × RTicket)) (t : Tn) :
    List (Op × Out) → Option Phase
  | [] => (ts.lookup t).map fun r =>
    if r.committed then .committed else .prepared
  | (op, o) :: h => phaseStep op o t (phaseAfter ts t h)

theorem phaseAfter_eq {value : Key → Value} {ts : List (Tn × RTicket)}
    {h : List (Op × Out)} {s : State} (hh : Hist value ts h s) (t : Tn) :
    phaseOf s t = phaseAfter ts t h := by
  induction hh with
  | start wf =>
    unfold phaseOf recover phaseAfter
    simp only
    cases ts.lookup t with
    | none => rfl
    | some r =>
      cases hc : r.committed <;> simp [recoverTicket, Ticket.phase, hc]
  | step hh he ih =>
    rw [exec_phase hh.reach.inv he t, ih]
    rfl

theorem phaseOf_cases (s : State) (t : Tn) :
    (s.ticket t = none ∧ phaseOf s t = none) ∨
    ∃ tk, s.ticket t = some tk ∧ phaseOf s t = some tk.phase := by
  unfold phaseOf
  cases s.ticket t with
  | none => simp
  | some tk => simp

/-- **C45.** A commit succeeds exactly for prepared transactions; otherwise the
error tells whether the transaction is unknown. -/
theorem C45_commit {value : Key → Value} {ts : List (Tn × RTicket)}
    {h : List (Op × Out)} {s : State} (hh : Hist value ts h s) (t : Tn) :
    (commit s t).2.result =
      match phaseAfter ts t h with
      | none => some ⟨.unknownTicket, none⟩
      | some .prepared => none
      | some _ => some ⟨.notPrepared, none⟩ := by
  rw [← phaseAfter_eq hh]
  rcases phaseOf_cases s t with ⟨h1, h2⟩ | ⟨tk, h1, h2⟩
  · rw [h2]
    simp [commit, h1]
  · rw [h2]
    unfold commit Ticket.phase
    rw [h1]
    simp only
    cases hs : tk.state <;> simp

/-- **C45.** A finish succeeds exactly for committed transactions. -/
theorem C45_finish {value : Key → Value} {ts : List (Tn × RTicket)}
    {h : List (Op × Out)} {s : State} (hh : Hist value ts h s) (t : Tn) :
    (finish s t).2.result =
      match phaseAfter ts t h with
      | none => some ⟨.unknownTicket, none⟩
      | some .committed => none
      | some _ => some ⟨.notCommitted, none⟩ := by
  rw [← phaseAfter_eq hh]
  rcases phaseOf_cases s t with ⟨h1, h2⟩ | ⟨tk, h1, h2⟩
  · rw [h2]
    simp [finish, h1]
  · rw [h2]
    unfold finish Ticket.phase
    rw [h1]
    simp only
    cases hs : tk.state <;> simp

/-- **C45, partial.** A rollback succeeds exactly for known transactions.
Missing from the claim: a committed transaction is rolled back as well, see
`C45_rollback_violated`. -/
theorem C45_rollback_partial {value : Key → Value} {ts : List (Tn × RTicket)}
    {h : List (Op × Out)} {s : State} (hh : Hist value ts h s) (t : Tn) :
    (rollback s t).2.result =
      match phaseAfter ts t h with
      | none => some ⟨.unknownTicket, none⟩
      | some _ => none := by
  rw [← phaseAfter_eq hh]
  rcases phaseOf_cases s t with ⟨h1, h2⟩ | ⟨tk, h1, h2⟩
  · rw [h2]
    simp [rollback, h1]
  · rw [h2]
    simp [rollback, h1]

/-- **C45.** The phase decides the error of a `prepare`; an active transaction
is prepared exactly if it is not wounded, waits for no lock and holds the
write lock of every key it updates. -/
theorem C45_prepare {value : Key → Value} {ts : List (Tn × RTicket)}
    {h : List (Op × Out)} {s : State} (hh : Hist value ts h s) (t : Tn)
    (u : List (Key × Value)) :
    match phaseAfter ts t h with
    | none => (prepare s t u).2.result = some ⟨.unknownTicket, none⟩
    | some .prepared => (prepare s t u).2.result = some ⟨.prepared, none⟩
    | some .committed => (prepare s t u).2.result = some ⟨.committed, none⟩
    | some .active =>
      (prepare s t u).2.result = none ↔
        (∀ tk, s.ticket t = some tk → tk.state ≠ .wounded) ∧
        ¬ IsWaiting s t ∧ ∀ p ∈ u, Holds s t p.1 .write := by
  rw [← phaseAfter_eq hh]
  have inv := hh.reach.inv
  rcases phaseOf_cases s t with ⟨h1, h2⟩ | ⟨tk, h1, h2⟩
  · rw [h2]
    simp [prepare, h1]
  · rw [h2]
    have hactive : (tk.state = .begun ∨ tk.state = .wounded) →
        ((prepare s t u).2.result = none ↔
        (∀ tk, s.ticket t = some tk → tk.state ≠ .wounded) ∧
        ¬ IsWaiting s t ∧ ∀ p ∈ u, Holds s t p.1 .write) := by
      intro hst
      constructor
      · intro hok
        rcases prepare_cases s t u with hc | ⟨tk', g1, g2, g3⟩
        · exact absurd hok hc.2
        · obtain ⟨i1, i2, i3⟩ := prepareError_none g2
          refine ⟨?_, ?_, ?_⟩
          · intro tk2 hk
            rw [g1] at hk
            rw [← Option.some.inj hk, i1]
            simp
          · rintro ⟨k, w, hw, he⟩
            refine inv.not_in_queue ?_ w hw he
            rw [queuedOf_some g1, i2]
            simp
          · intro p hp
            exact ⟨tk', g1, i3 p hp⟩
      · rintro ⟨g1, g2, g3⟩
        have hb : tk.state = .begun := by
          rcases hst with h | h
          · exact h
          · exact absurd h (g1 tk h1)
        have hq : tk.queued = [] := by
          rw [List.eq_nil_iff_forall_not_mem]
          intro k hk
          apply g2
          obtain ⟨w, hw, he⟩ :=
            ((inv.key k).waiter t).mpr ((queuedOf_some h1 k).mpr hk)
          exact ⟨k, w, hw, he⟩
        have hu : updateError tk u = none := by
          clear g2
          induction u with
          | nil => rfl
          | cons p u ih =>
            obtain ⟨k, v⟩ := p
            obtain ⟨tk', j1, j2⟩ := g3 (k, v) List.mem_cons_self
            rw [h1] at j1
            have j3 := Option.some.inj j1
            subst j3
            unfold updateError
            simp only at j2
            simp only [j2]
            exact ih fun q hq => g3 q (List.mem_cons_of_mem _ hq)
        simp [prepare, h1, prepareError, hb, hq, hu]
    unfold Ticket.phase
    cases hst : tk.state with
    | begun => exact hactive (Or.inl hst)
    | wounded => exact hactive (Or.inr hst)
    | prepared => simp [prepare, h1, prepareError, hst]
    | committed => simp [prepare, h1, prepareError, hst]

/-- **C45.** The refusal of an active transaction's `prepare` names the first
reason that applies. -/
theorem C45_prepare_reason (s : State) (t : Tn) (u : List (Key × Value))
    {tk : Ticket} (ht : s.ticket t = some tk) :
    (tk.state = .wounded →
      (prepare s t u).2.result = some ⟨.wounded, tk.details⟩) ∧
    (tk.state = .begun → tk.queued ≠ [] →
      (prepare s t u).2.result = some ⟨.lockQueued, none⟩) ∧
    (tk.state = .begun → tk.queued = [] →
      ((prepare s t u).2.result = some ⟨.lockNotHeld, none⟩ ↔
        ∃ l1 k v l2, u = l1 ++ (k, v) :: l2 ∧
          (∀ p ∈ l1, Holds s t p.1 .write) ∧ ∀ ty, ¬ Holds s t k ty)) := by
  refine ⟨?_, ?_, ?_⟩
  · intro h
    simp [prepare, ht, prepareError, h]
  · intro h h2
    simp [prepare, ht, prepareError, h, h2]
  · intro h h2
    have he : (prepare s t u).2.result = updateError tk u := by
      simp only [prepare, ht, prepareError, h, h2, reduceCtorEq, if_false,
        ne_eq, not_true_eq_false]
      cases updateError tk u <;> rfl
    have hold : ∀ k ty, Holds s t k ty ↔ tk.held k = some ty := by
      intro k ty
      rw [holds_iff, heldOf_some ht]
    rw [he]
    constructor
    · intro hu
      clear he
      induction u with
      | nil => simp [updateError] at hu
      | cons p u ih =>
        obtain ⟨k, v⟩ := p
        unfold updateError at hu
        split at hu
        · rename_i hk
          refine ⟨[], k, v, u, rfl, by simp, ?_⟩
          intro ty hc
          rw [hold, hk] at hc
          simp at hc
        · simp at hu
        · rename_i hk
          obtain ⟨l1, k', v', l2, g1, g2, g3⟩ := ih hu
          refine ⟨(k, v) :: l1, k', v', l2, by rw [g1]; rfl, ?_, g3⟩
          intro q hq
          rcases List.mem_cons.mp hq with rfl | hq
          · exact (hold _ _).mpr hk
          · exact g2 q hq
    · rintro ⟨l1, k, v, l2, rfl, g2, g3⟩
      clear he
      induction l1 with
      | nil =>
        have hk : tk.held k = none := by
          cases hc : tk.held k with
          | none => rfl
          | some ty => exact absurd ((hold k ty).mpr hc) (g3 ty)
        simp [updateError, hk]
      | cons p l1 ih =>
        obtain ⟨x, y⟩ := p
        have hk := (hold _ _).mp (g2 (x, y) List.mem_cons_self)
        simp only [List.cons_append]
        unfold updateError
        simp only at hk
        simp only [hk]
        exact ih fun q hq => g2 q (List.mem_cons_of_mem _ hq)

/-- **C45.** Lock requests: the process exits exactly if a known transaction
asks for its first lock; otherwise the request is answered at once with the
error of the phase, or refused if the lock is held already or waited for, or
accepted. -/
theorem C45_lock {value : Key → Value} {ts : List (Tn × RTicket)}
    {h : List (Op × Out)} {s : State} (hh : Hist value ts h s) (t : Tn)
    (b : Nat) (k : Key) (ty : LockType) (f : Bool) (cb : Nat) :
    let r := tryLock s t b k ty f cb
    let refusedWith := fun e => r = some (refuse s cb k e)
    (r = none ↔ f = true ∧ phaseAfter ts t h ≠ none) ∧
    (f = false →
      match phaseAfter ts t h with
      | none => refusedWith ⟨.unknownTicket, none⟩
      | some .prepared => refusedWith ⟨.prepared, none⟩
      | some .committed => refusedWith ⟨.committed, none⟩
      | some .active =>
        (∀ tk, s.ticket t = some tk → tk.state = .wounded →
          refusedWith ⟨.wounded, tk.details⟩) ∧
        ((∀ tk, s.ticket t = some tk → tk.state = .begun) →
          (Holds s t k .write ∨ (Holds s t k .read ∧ ty = .read) →
            refusedWith ⟨.lockHeld, none⟩) ∧
          (¬ (Holds s t k .write ∨ (Holds s t k .read ∧ ty = .read)) →
            (∃ w ∈ (s.lock k).queue, w.ticket = t) →
            refusedWith ⟨.lockQueued, none⟩))) := by
  intro r refusedWith
  rw [← phaseAfter_eq hh]
  have inv := hh.reach.inv
  rcases phaseOf_cases s t with ⟨h1, h2⟩ | ⟨tk, h1, h2⟩
  · rw [h2]
    refine ⟨?_, ?_⟩
    · simp only [r, tryLock, h1, Option.isSome_none, Bool.false_eq_true,
        and_false, if_false, ne_eq, not_true_eq_false, iff_false]
      split
      · simp
      · split <;> simp
    · intro hf
      simp [refusedWith, r, tryLock, h1, hf]
  · rw [h2]
    refine ⟨?_, ?_⟩
    · simp only [r, tryLock, h1, Option.isSome_some, and_true, ne_eq,
        reduceCtorEq, not_false_eq_true]
      constructor
      · intro hr
        split at hr
        · assumption
        · split at hr
          · simp at hr
          · split at hr <;> simp at hr
      · intro hf
        rw [if_pos hf]
    · intro hf
      have hexp : ∀ e, lockError tk k ty = some e → refusedWith e := by
        intro e he
        simp [refusedWith, r, tryLock, h1, hf, he]
      have hold : ∀ ty, Holds s t k ty ↔ tk.held k = some ty := by
        intro ty
        rw [holds_iff, heldOf_some h1]
      unfold Ticket.phase
      have hact : (tk.state = .begun ∨ tk.state = .wounded) →
          (∀ tk, s.ticket t = some tk → tk.state = .wounded →
            refusedWith ⟨.wounded, tk.details⟩) ∧
          ((∀ tk, s.ticket t = some tk → tk.state = .begun) →
            (Holds s t k .write ∨ (Holds s t k .read ∧ ty = .read) →
              refusedWith ⟨.lockHeld, none⟩) ∧
            (¬ (Holds s t k .write ∨ (Holds s t k .read ∧ ty = .read)) →
              (∃ w ∈ (s.lock k).queue, w.ticket = t) →
              refusedWith ⟨.lockQueued, none⟩)) := by
        intro _
        refine ⟨?_, ?_⟩
        · intro tk' g1 g2
          rw [h1] at g1
          rw [← Option.some.inj g1] at g2 ⊢
          apply hexp
          simp [lockError, g2]
        · intro g1
          have hb := g1 tk h1
          rw [hold, hold]
          refine ⟨?_, ?_⟩
          · intro g2
            apply hexp
            simp [lockError, hb, g2]
          · intro g2 g3
            apply hexp
            have g4 := (queuedOf_some h1 k).mp (((inv.key k).waiter t).mp g3)
            simp only [lockError, hb, reduceCtorEq, if_false]
            rw [if_neg g2, if_pos g4]
      cases hst : tk.state with
      | begun => exact hact (Or.inl hst)
      | wounded => exact hact (Or.inr hst)
      | prepared =>
        apply hexp
        simp [lockError, hst]
      | committed =>
        apply hexp
        simp [lockError, hst]

/-- **C45 violated.** A rollback after the commit is not refused: it succeeds
and forgets the transaction, so its `finish` is then refused. -/
theorem C45_rollback_violated : ∃ s, Reach s ∧
    ((runOps s [.tryLock 1 0 [1] .write true 10, .prepare 1 [([1], [7])],
      .commit 1, .rollback 1, .finish 1]).map fun r =>
      (r.1.value [1], r.2.map fun o => o.result)) =
    some ([7], [none, none, none, none, some ⟨.unknownTicket, none⟩]) :=
  ⟨fresh, fresh_reach, by decide⟩

/-- **C45 violated.** A repeated first lock request is not answered: the shard
process exits. -/
theorem C45_exit_violated : ∃ s, Reach s ∧
    runOps s [.tryLock 1 0 [1] .write true 10,
      .tryLock 1 0 [2] .write true 11] = none :=
  ⟨fresh, fresh_reach, rfl⟩

end Verif.Parsec
