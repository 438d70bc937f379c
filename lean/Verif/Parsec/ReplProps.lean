import Verif.Parsec.ReplStep

/-!
# Properties of the replicated PArSEC shard (C46, C66)
-/
namespace Verif.Parsec

/-! ### C46: repeated commands -/

/-- **C46.** A repeated prepare changes nothing and is answered alike. -/
theorem C46_prepare_again (s : RState) (t : Tn) (b : Nat)
    (u : List (Key × Value)) :
    (s.apply (.prepare t b u)).1.apply (.prepare t b u) =
      s.apply (.prepare t b u) := by
  cases hl : s.tickets.lookup t with
  | some r => simp only [RState.apply, hl]
  | none => simp only [RState.apply, hl, List.lookup_cons, beq_self_eq_true]

/-- **C46.** A repeated finish changes nothing and is answered alike. -/
theorem C46_finish_again (s : RState) (t : Tn) :
    (s.apply (.finish t)).1.apply (.finish t) = s.apply (.finish t) := by
  simp only [RState.apply, List.filter_filter, Bool.and_self]

/-- The specification: which updates are prepared, which transactions are
committed, and the data that results from applying each update once. -/
structure Ledger where
  data : Key → Value := fun _ => []
  prepared : Tn → Option (List (Key × Value)) := fun _ => none
  committed : Tn → Bool := fun _ => false

/-- A command in the specification. -/
def Ledger.step (l : Ledger) : Cmd → Ledger
  | .prepare t _ u =>
    if (l.prepared t).isSome then l
    else
      { l with
        prepared := fun x => if x = t then some u else l.prepared x
        committed := fun x => if x = t then false else l.committed x }
  | .commit t =>
    match l.prepared t with
    | none => l
    | some u =>
      if l.committed t then l
      else
        { l with
          data := fun k => (u.lookup k).getD (l.data k)
          committed := fun x => if x = t then true else l.committed x }
  | .finish t =>
    { l with prepared := fun x => if x = t then none else l.prepared x }

/-- No transaction is committed again before it is finished. -/
def NoRepeat (l : Ledger) : List Cmd → Prop
  | [] => True
  | c :: cs =>
    (∀ t, c = .commit t → (l.prepared t).isSome → l.committed t = false) ∧
    NoRepeat (l.step c) cs

/-- The replicated state after some commands. -/
def RState.run (s : RState) : List Cmd → RState
  | [] => s
  | c :: cs => (s.apply c).1.run cs

/-- The specification after some commands. -/
def Ledger.run (l : Ledger) : List Cmd → Ledger
  | [] => l
  | c :: cs => (l.step c).run cs

/-- The replicated state holds what the specification says. -/
structure Matches (s : RState) (l : Ledger) : Prop where
  data : s.value = l.data
  known : ∀ t, (s.tickets.lookup t).isSome = (l.prepared t).isSome
  state : ∀ t r, s.tickets.lookup t = some r → r.committed = l.committed t
  update : ∀ t r, s.tickets.lookup t = some r → r.committed = false →
    l.prepared t = some r.update

theorem Matches.step {s : RState} {l : Ledger} (h : Matches s l) {c : Cmd}
    (hc : ∀ t, c = .commit t → (l.prepared t).isSome → l.committed t = false) :
    Matches (s.apply c).1 (l.step c) := by
  cases c with
  | prepare t b u =>
    have hk := h.known t
    cases hl : s.tickets.lookup t with
    | some r =>
      rw [hl] at hk
      simp only [RState.apply, hl, Ledger.step, ← hk, Option.isSome_some,
        if_true]
      exact h
    | none =>
      rw [hl] at hk
      simp only [RState.apply, hl, Ledger.step, ← hk, Option.isSome_none,
        Bool.false_eq_true, if_false]
      constructor
      · exact h.data
      · intro x
        simp only [List.lookup_cons]
        by_cases hx : x = t
        · simp [hx]
        · have hb : (x == t) = false := by simpa using hx
          simp only [hb, if_neg hx]
          exact h.known x
      · intro x r hr
        simp only [List.lookup_cons] at hr
        by_cases hx : x = t
        · subst hx
          simp only [beq_self_eq_true, Option.some.injEq] at hr
          rw [← hr]
          simp
        · have hb : (x == t) = false := by simpa using hx
          simp only [hb] at hr
          simp only [if_neg hx]
          exact h.state x r hr
      · intro x r hr hrc
        simp only [List.lookup_cons] at hr
        by_cases hx : x = t
        · subst hx
          simp only [beq_self_eq_true, Option.some.injEq] at hr
          rw [← hr]
          simp
        · have hb : (x == t) = false := by simpa using hx
          simp only [hb] at hr
          simp only [if_neg hx]
          exact h.update x r hr hrc
  | commit t =>
    have hk := h.known t
    cases hl : s.tickets.lookup t with
    | none =>
      rw [hl] at hk
      have hp : l.prepared t = none := by simpa using hk.symm
      simp only [RState.apply, hl, Ledger.step, hp]
      exact h
    | some r =>
      rw [hl] at hk
      have hsome : (l.prepared t).isSome = true := by simpa using hk.symm
      have hcom := hc t rfl hsome
      have hrc : r.committed = false := by rw [h.state t r hl, hcom]
      have hp := h.update t r hl hrc
      have hstep : l.step (.commit t) =
          Ledger.mk (fun k => (r.update.lookup k).getD (l.data k)) l.prepared
            (fun x => if x = t then true else l.committed x) := by
        simp [Ledger.step, hp, hcom]
      rw [hstep]
      constructor
      · simp only [RState.apply, hl]
        rw [h.data]
        rfl
      · intro x
        rw [lookup_commit hl]
        by_cases hx : x = t
        · subst hx
          simp [hsome]
        · simp only [if_neg hx]
          exact h.known x
      · intro x y hy
        rw [lookup_commit hl] at hy
        by_cases hx : x = t
        · simp only [if_pos hx, Option.some.injEq] at hy
          rw [← hy]
          simp [RTicket.moved, hx]
        · simp only [if_neg hx] at hy ⊢
          exact h.state x y hy
      · intro x y hy hyc
        rw [lookup_commit hl] at hy
        by_cases hx : x = t
        · simp only [if_pos hx, Option.some.injEq] at hy
          rw [← hy] at hyc
          simp [RTicket.moved] at hyc
        · simp only [if_neg hx] at hy
          exact h.update x y hy hyc
  | finish t =>
    constructor
    · exact h.data
    · intro x
      simp only [RState.apply, lookup_filter_ne, Ledger.step]
      by_cases hx : x = t
      · simp [hx]
      · simp only [if_neg hx]
        exact h.known x
    · intro x r hr
      simp only [RState.apply, lookup_filter_ne] at hr
      by_cases hx : x = t
      · simp [hx] at hr
      · simp only [if_neg hx] at hr
        exact h.state x r hr
    · intro x r hr hrc
      simp only [RState.apply, lookup_filter_ne] at hr
      by_cases hx : x = t
      · simp [hx] at hr
      · simp only [if_neg hx] at hr
        simp only [Ledger.step, if_neg hx]
        exact h.update x r hr hrc

/-- **C46, partial.** As long as no transaction is committed again, the data
is the result of applying each prepared update exactly once, whatever else is
repeated.  Missing: repeated commits, see `C46_commit_violated`. -/
theorem C46_data_partial (cs : List Cmd) (h : NoRepeat {} cs) :
    (RState.run {} cs).value = (Ledger.run {} cs).data := by
  have key : ∀ (cs : List Cmd) (s : RState) (l : Ledger), Matches s l →
      NoRepeat l cs → Matches (s.run cs) (l.run cs) := by
    intro cs
    induction cs with
    | nil => intro s l hm _; exact hm
    | cons c cs ih => intro s l hm hn; exact ih _ _ (hm.step hn.1) hn.2
  refine (key cs {} {} ?_ h).data
  exact ⟨rfl, fun _ => rfl, by simp, by simp⟩

/-- Two transactions, with a repeated prepare and a repeated finish. -/
example : NoRepeat {} [.prepare 1 0 [([1], [7])], .prepare 1 0 [([1], [7])],
    .commit 1, .finish 1, .finish 1, .prepare 2 0 [([1], [8])], .commit 2] := by
  simp [NoRepeat, Ledger.step]

example : (RState.run {} [.prepare 1 0 [([1], [7])], .prepare 1 0 [([1], [7])],
    .commit 1, .finish 1, .finish 1, .prepare 2 0 [([1], [8])],
    .commit 2]).value [1] = [8] := by decide

/-- **C46 is false for commits.** A repeated commit is accepted and replaces
the committed values by empty ones, because the first commit moved the values
out of the stored update. -/
theorem C46_commit_violated : ∃ s : RState,
    (s.apply (.commit 1)).2 = none ∧
    (s.apply (.commit 1)).1.value [1] = [7] ∧
    ((s.apply (.commit 1)).1.apply (.commit 1)).2 = none ∧
    ((s.apply (.commit 1)).1.apply (.commit 1)).1.value [1] = [] :=
  ⟨RState.run {} [.prepare 1 0 [([1], [7])]], by decide⟩

/-- **C46 is false for commits.** The repeated commit also erases what a later
transaction wrote. -/
theorem C46_later_write_violated :
    (RState.run {} [.prepare 1 0 [([1], [7])], .commit 1,
      .prepare 2 0 [([1], [8])], .commit 2]).value [1] = [8] ∧
    (RState.run {} [.prepare 1 0 [([1], [7])], .commit 1,
      .prepare 2 0 [([1], [8])], .commit 2, .commit 1]).value [1] = [] := by
  decide

/-! ### C66: change of leader

The theorems are about careful requests (`Careful`): a prepare names the broker
that locked and is not sent while a rollback or finish is under way, a commit is
not repeated, and a prepared transaction is not finished.  Without care C66 is
false (`C66_repeated_commit_violated`, `C66_early_finish_violated`). -/

/-- A cluster without data: the first leader has recovered an empty state. -/
def Sys.init : Sys := Sys.failover {} 0

/-- A run of the cluster in which requests are made carefully, newest event
first. -/
inductive Run : List (Event × SOut) → Sys → Prop
  | start : Run [] Sys.init
  | step {h : List (Event × SOut)} {s s' : Sys} {e : Event} {o : SOut}
      (hr : Run h s) (hc : Careful s e) (hs : s.step e = some (s', o)) :
      Run ((e, o) :: h) s'

theorem Run.sync {h : List (Event × SOut)} {s : Sys} (hr : Run h s) :
    Sync s := by
  induction hr with
  | start => exact recovered_sync wf_nil
  | step _ hc hs ih => exact step_sync ih hc hs

/-- Runs events one after the other, for examples. -/
def Sys.runEvents (s : Sys) : List Event → Option (Sys × List SOut)
  | [] => some (s, [])
  | e :: es =>
    match s.step e with
    | none => none
    | some (s', o) =>
      match s'.runEvents es with
      | none => none
      | some (s'', os) => some (s'', o :: os)

/-- Decides `Careful`, for examples. -/
def carefulB (s : Sys) : Event → Bool
  | .request (.prepare t b _) => b = brokerOf s.shard t ∧
      .rollback t ∉ s.log ∧ .finish t ∉ s.log
  | .request (.commit t) => (match markOf s.shard t with
      | .committed _ => false
      | _ => true) && decide (.commit t ∉ s.log)
  | .request (.finish t) => match markOf s.shard t with
      | .prepared _ _ => false
      | _ => true
  | _ => true

theorem carefulB_careful {s : Sys} {e : Event} (h : carefulB s e = true) :
    Careful s e := by
  cases e with
  | apply => trivial
  | failover n => trivial
  | request r =>
    cases r with
    | tryLock => trivial
    | prepare t b u => simpa [carefulB, Careful] using h
    | rollback t => trivial
    | commit t =>
      simp only [carefulB, Careful, Bool.and_eq_true, decide_eq_true_eq] at *
      refine ⟨?_, h.2⟩
      intro b hb
      rw [hb] at h
      simp at h
    | finish t =>
      simp only [carefulB, Careful] at *
      intro b u hb
      rw [hb] at h
      simp at h

/-- Whether all events of a run are careful, for examples. -/
def carefulRun (s : Sys) : List Event → Bool
  | [] => true
  | e :: es => carefulB s e && match s.step e with
    | none => false
    | some (s', _) => carefulRun s' es

/-- The careful runs that are computed are runs. -/
theorem carefulRun_run {es : List Event} : ∀ {h : List (Event × SOut)} {s : Sys},
    Run h s → carefulRun s es = true →
    ∃ s' os, s.runEvents es = some (s', os) ∧
      Run ((es.zip os).reverse ++ h) s' := by
  induction es with
  | nil => intro h s hr _; exact ⟨s, [], rfl, hr⟩
  | cons e es ih =>
    intro h s hr hc
    simp only [carefulRun, Bool.and_eq_true] at hc
    cases hst : s.step e with
    | none => simp [hst] at hc
    | some q =>
      obtain ⟨s1, o⟩ := q
      simp only [hst] at hc
      obtain ⟨s', os, h1, h2⟩ := ih (.step hr (carefulB_careful hc.1) hst) hc.2
      refine ⟨s', o :: os, ?_, ?_⟩
      · simp only [Sys.runEvents, hst, h1]
      · simpa using h2

/-- **C66, partial.** In every run, with any number of changes of the leader, the
leader's shard is in a state of an ordinary shard, so that everything proved
about those holds, and its data is the replicated data. -/
theorem C66_shard_partial {h : List (Event × SOut)} {s : Sys} (hr : Run h s) :
    Reach s.shard ∧ s.repl.value = s.shard.value :=
  ⟨hr.sync.reach, hr.sync.values⟩

/-- **C66, partial.** After a change of leader the data is what the old leader would
have had after executing the commands that were not lost. -/
theorem C66_values_partial {h : List (Event × SOut)} {s : Sys} (hr : Run h s)
    (n : Nat) : (s.failover n).shard.value = (s.applyN n).shard.value := by
  rw [failover_eq, ← (applyN_sync hr.sync n).values]
  rfl

/-- The transaction of a pending request. -/
def Pend.ticket : Pend → Tn
  | .prepare t _ _ => t
  | .commit t => t
  | .rollback t => t
  | .finish t => t

theorem lookup_apply_other (s : RState) (p : Pend) {t : Tn}
    (h : p.ticket ≠ t) :
    (s.apply p.cmd).1.tickets.lookup t = s.tickets.lookup t := by
  cases p with
  | prepare x b u =>
    simp only [Pend.cmd, RState.apply]
    cases hl : s.tickets.lookup x with
    | some r => rfl
    | none =>
      have hb : (t == x) = false := by simpa using fun e => h e.symm
      simp only [List.lookup_cons, hb]
  | commit x =>
    simp only [Pend.cmd]
    cases hl : s.tickets.lookup x with
    | none => rw [apply_commit_none hl]
    | some r =>
      rw [lookup_commit hl, if_neg (fun e => h e.symm)]
  | rollback x =>
    simp only [Pend.cmd, RState.apply, lookup_filter_ne]
    rw [if_neg (fun e => h e.symm)]
  | finish x =>
    simp only [Pend.cmd, RState.apply, lookup_filter_ne]
    rw [if_neg (fun e => h e.symm)]

theorem Sync.prepared {s : Sys} (h : Sync s) {t : Tn} {b : Nat}
    {u : List (Key × Value)}
    (hl : s.repl.tickets.lookup t = some ⟨b, u, false⟩) :
    markOf s.shard t = .prepared b u := by
  have ht := h.ticket t
  rw [hl] at ht
  cases hm : markOf s.shard t with
  | idle =>
    rw [hm] at ht
    exact absurd ht.1 (by simp)
  | committed b' =>
    rw [hm] at ht
    obtain ⟨x, hx, hx2, _⟩ := ht.1
    rw [← Option.some.inj hx] at hx2
    simp at hx2
  | prepared b' u' =>
    rw [hm] at ht
    rcases ht with ⟨h1, _⟩ | ⟨h1, _⟩
    · simp only [Option.some.injEq, RTicket.mk.injEq, and_true] at h1
      rw [h1.1, h1.2]
    · simp at h1

theorem Sync.committed {s : Sys} (h : Sync s) {t : Tn} {r : RTicket}
    (hl : s.repl.tickets.lookup t = some r) (hc : r.committed = true) :
    markOf s.shard t = .committed r.broker := by
  have ht := h.ticket t
  rw [hl] at ht
  cases hm : markOf s.shard t with
  | idle =>
    rw [hm] at ht
    exact absurd ht.1 (by simp)
  | committed b' =>
    rw [hm] at ht
    obtain ⟨x, hx, _, hx3⟩ := ht.1
    rw [Option.some.inj hx, hx3]
  | prepared b' u' =>
    rw [hm] at ht
    rcases ht with ⟨h1, _⟩ | ⟨h1, _⟩
    · rw [Option.some.inj h1] at hc
      simp at hc
    · simp at h1

/-- The event asks for the end of `t`: commit, rollback or finish. -/
def Event.ends (t : Tn) : Event → Prop
  | .request (.commit x) => x = t
  | .request (.rollback x) => x = t
  | .request (.finish x) => x = t
  | _ => False

/-- Careful events, none of which ends `t`. -/
inductive Without (t : Tn) : Sys → Sys → Prop
  | refl (s : Sys) : Without t s s
  | step {s s' s'' : Sys} {e : Event} {o : SOut} (h : Without t s s')
      (hc : Careful s' e) (hs : s'.step e = some (s'', o)) (hn : ¬ e.ends t) :
      Without t s s''

/-- Nothing in the log ends `t`. -/
def Quiet (t : Tn) (log : List Pend) : Prop :=
  .commit t ∉ log ∧ .rollback t ∉ log ∧ .finish t ∉ log

theorem Quiet.not_ends {t : Tn} {p : Pend} {log : List Pend}
    (h : Quiet t (p :: log)) : (∃ b u, p = .prepare t b u) ∨ p.ticket ≠ t := by
  cases p with
  | prepare x b u =>
    by_cases hx : x = t
    · subst hx
      exact Or.inl ⟨b, u, rfl⟩
    · exact Or.inr hx
  | commit x =>
    right
    rintro rfl
    exact h.1 List.mem_cons_self
  | rollback x =>
    right
    rintro rfl
    exact h.2.1 List.mem_cons_self
  | finish x =>
    right
    rintro rfl
    exact h.2.2 List.mem_cons_self

theorem Quiet.tail {t : Tn} {p : Pend} {log : List Pend}
    (h : Quiet t (p :: log)) : Quiet t log :=
  ⟨fun hc => h.1 (List.mem_cons_of_mem _ hc),
   fun hc => h.2.1 (List.mem_cons_of_mem _ hc),
   fun hc => h.2.2 (List.mem_cons_of_mem _ hc)⟩

/-- The record of a transaction survives every event that does not end it. -/
structure Kept (t : Tn) (r : RTicket) (s : Sys) : Prop where
  record : s.repl.tickets.lookup t = some r
  quiet : Quiet t s.log

theorem Kept.apply {t : Tn} {r : RTicket} {s : Sys} (h : Kept t r s) :
    Kept t r s.apply.1 := by
  cases hl : s.log with
  | nil =>
    unfold Sys.apply
    rw [hl]
    exact h
  | cons p log =>
    obtain ⟨h1, h2⟩ := apply_repl hl
    have hq := h.quiet
    rw [hl] at hq
    constructor
    · rw [h1]
      rcases hq.not_ends with ⟨b, u, rfl⟩ | hne
      · simp only [Pend.cmd, RState.apply, h.record]
      · rw [lookup_apply_other _ _ hne]
        exact h.record
    · rw [h2]
      exact hq.tail

theorem Kept.applyN {t : Tn} {r : RTicket} {s : Sys} (h : Kept t r s)
    (n : Nat) : Kept t r (s.applyN n) := by
  induction n generalizing s with
  | zero => exact h
  | succ n ih => exact ih h.apply

theorem Kept.step {t : Tn} {r : RTicket} {s : Sys} (h : Kept t r s)
    {e : Event} {s' : Sys} {o : SOut} (hs : s.step e = some (s', o))
    (hn : ¬ e.ends t) : Kept t r s' := by
  have happ : ∀ p : Pend, p ≠ .commit t → p ≠ .rollback t → p ≠ .finish t →
      Quiet t (s.log ++ [p]) := by
    intro p h1 h2 h3
    obtain ⟨q1, q2, q3⟩ := h.quiet
    refine ⟨?_, ?_, ?_⟩ <;>
    · intro hm
      rcases List.mem_append.mp hm with hm | hm
      · contradiction
      · have := List.mem_singleton.mp hm
        simp_all
  cases e with
  | request q =>
    cases q with
    | tryLock x b k ty f cb =>
      simp only [Sys.step, Sys.request] at hs
      cases hl : tryLock s.shard x b k ty f cb with
      | none => simp [hl] at hs
      | some y =>
        simp only [hl, Option.some.injEq, Prod.mk.injEq] at hs
        rw [← hs.1]
        exact ⟨h.record, h.quiet⟩
    | prepare x b u =>
      simp only [Sys.step, Sys.request] at hs
      cases hl : (prepare s.shard x u).2.result with
      | some e =>
        simp only [hl, Option.some.injEq, Prod.mk.injEq] at hs
        rw [← hs.1]
        exact h
      | none =>
        simp only [hl, Option.some.injEq, Prod.mk.injEq] at hs
        rw [← hs.1]
        exact ⟨h.record, happ _ (by simp) (by simp) (by simp)⟩
    | commit x =>
      simp only [Sys.step, Sys.request, Option.some.injEq, Prod.mk.injEq] at hs
      rw [← hs.1]
      refine ⟨h.record, happ _ ?_ (by simp) (by simp)⟩
      intro he
      simp only [Pend.commit.injEq] at he
      exact hn he
    | rollback x =>
      simp only [Sys.step, Sys.request, Option.some.injEq, Prod.mk.injEq] at hs
      rw [← hs.1]
      refine ⟨h.record, happ _ (by simp) ?_ (by simp)⟩
      intro he
      simp only [Pend.rollback.injEq] at he
      exact hn he
    | finish x =>
      simp only [Sys.step, Sys.request, Option.some.injEq, Prod.mk.injEq] at hs
      rw [← hs.1]
      refine ⟨h.record, happ _ (by simp) (by simp) ?_⟩
      intro he
      simp only [Pend.finish.injEq] at he
      exact hn he
  | apply =>
    simp only [Sys.step, Option.some.injEq] at hs
    rw [show s' = s.apply.1 by rw [hs]]
    exact h.apply
  | failover n =>
    simp only [Sys.step, Option.some.injEq, Prod.mk.injEq] at hs
    rw [← hs.1, failover_eq]
    exact ⟨(h.applyN n).record, by simp [Quiet]⟩

theorem Without.kept {t : Tn} {r : RTicket} {s s' : Sys}
    (hw : Without t s s') (hs : Sync s) (h : Kept t r s) :
    Sync s' ∧ Kept t r s' := by
  induction hw with
  | refl => exact ⟨hs, h⟩
  | step _ hc he hn ih => exact ⟨step_sync ih.1 hc he, ih.2.step he hn⟩

/-- **C66, partial.** Once a prepare was confirmed, the transaction is prepared with its
update and has the write locks of all keys it updates, through any number of
changes of the leader, until its commit, rollback or finish is requested. -/
theorem C66_prepared_partial {h : List (Event × SOut)} {s s' : Sys} (hr : Run h s)
    {t : Tn} {b : Nat} {u : List (Key × Value)}
    (hack : s.apply.2.reply = some (.prepare t b u, none))
    (hq : Quiet t s.log) (hw : Without t s.apply.1 s') :
    ∃ tk, s'.shard.ticket t = some tk ∧ tk.state = .prepared ∧
      tk.broker = b ∧ tk.update = u ∧ ∀ p ∈ u, Holds s'.shard t p.1 .write := by
  have hsync := hr.sync
  have hk : Kept t ⟨b, u, false⟩ s.apply.1 := by
    cases hl : s.log with
    | nil => simp [Sys.apply, hl] at hack
    | cons p log =>
      have hp : p = .prepare t b u := by
        unfold Sys.apply at hack
        rw [hl] at hack
        cases p with
        | prepare x b' u' =>
          simp only [afterCmd, Option.some.injEq, Prod.mk.injEq,
            Req.prepare.injEq] at hack
          obtain ⟨⟨rfl, rfl, rfl⟩, _⟩ := hack
          rfl
        | commit x =>
          simp only [afterCmd] at hack
          cases he : (s.repl.apply (Pend.commit x).cmd).2 <;>
            simp [he] at hack
        | rollback x => simp [afterCmd] at hack
        | finish x => simp [afterCmd] at hack
      subst hp
      obtain ⟨h1, h2⟩ := apply_repl hl
      have hq' := hq
      rw [hl] at hq'
      refine ⟨?_, by rw [h2]; exact hq'.tail⟩
      have hnone : s.repl.tickets.lookup t = none := by
        have ht := hsync.ticket t
        have hin : Pend.prepare t b u ∈ s.log := by
          rw [hl]
          exact List.mem_cons_self
        cases hm : markOf s.shard t with
        | idle =>
          rw [hm] at ht
          exact ht.1
        | committed b' =>
          rw [hm] at ht
          exact absurd rfl (ht.2.1 _ hin)
        | prepared b' u' =>
          rw [hm] at ht
          rcases ht with ⟨_, h4⟩ | ⟨h4, _⟩
          · exact absurd rfl (h4 _ hin)
          · exact h4
      rw [h1]
      simp only [Pend.cmd, RState.apply, hnone, List.lookup_cons,
        beq_self_eq_true]
  obtain ⟨h1, h2⟩ := hw.kept (apply_sync hsync) hk
  obtain ⟨tk, k1, k2, k3, k4⟩ := markOf_prepared.mp (h1.prepared h2.record)
  refine ⟨tk, k1, k2, k3, k4, ?_⟩
  intro p hp
  exact ⟨tk, k1, (h1.reach.inv.prep t tk k1 k2).2 p (by rw [k4]; exact hp)⟩

/-- **C66, partial.** Once a commit was confirmed, the transaction is committed, also for
every later leader, until its rollback or finish is requested. -/
theorem C66_committed_partial {h : List (Event × SOut)} {s s' : Sys} (hr : Run h s)
    {t : Tn} (hack : s.apply.2.reply = some (.commit t, none))
    (hq : .rollback t ∉ s.log ∧ .finish t ∉ s.log)
    (hw : Without t s.apply.1 s') :
    ∃ tk, s'.shard.ticket t = some tk ∧ tk.state = .committed := by
  have hsync := hr.sync
  have hsync' := apply_sync hsync
  have hmark : ∃ b, markOf s.apply.1.shard t = .committed b ∧
      ∃ p, s.log = p :: s.apply.1.log := by
    cases hl : s.log with
    | nil => simp [Sys.apply, hl] at hack
    | cons p log =>
      unfold Sys.apply at hack ⊢
      rw [hl] at hack ⊢
      cases p with
      | prepare x b' u' => simp [afterCmd] at hack
      | rollback x => simp [afterCmd] at hack
      | finish x => simp [afterCmd] at hack
      | commit x =>
        simp only [afterCmd] at hack ⊢
        cases he : (s.repl.apply (Pend.commit x).cmd).2 with
        | some e => simp [he] at hack
        | none =>
          simp only [he, Option.some.injEq, Prod.mk.injEq,
            Req.commit.injEq] at hack ⊢
          obtain ⟨rfl, hres⟩ := hack
          refine ⟨brokerOf s.shard x, ?_, _, rfl⟩
          have hx : exec s.shard (.commit x) =
            some ((commit s.shard x).1, (commit s.shard x).2) := rfl
          rw [exec_mark hsync.reach.inv hx x]
          simp [markStep, Op.ticket, hres]
  obtain ⟨b, hb, p, hp⟩ := hmark
  have ht := hsync'.ticket t
  rw [hb] at ht
  obtain ⟨⟨r, hr1, hr2, hr3⟩, -, hnc⟩ := ht
  have hk : Kept t r s.apply.1 := by
    refine ⟨hr1, hnc, ?_, ?_⟩
    · intro hc
      apply hq.1
      rw [hp]
      exact List.mem_cons_of_mem _ hc
    · intro hc
      apply hq.2
      rw [hp]
      exact List.mem_cons_of_mem _ hc
  obtain ⟨h1, h2⟩ := hw.kept hsync' hk
  obtain ⟨tk, k1, k2, -⟩ := markOf_committed.mp (h1.committed h2.record hr2)
  exact ⟨tk, k1, k2⟩

/-- **C66, partial.** Right after a change of leader the only locks are write locks of
prepared transactions on the keys they update, and nobody waits. -/
theorem C66_locks_partial {h : List (Event × SOut)} {s : Sys} (hr : Run h s) (n : Nat)
    {t : Tn} {k : Key} :
    (∀ ty, Holds (s.failover n).shard t k ty →
      ty = .write ∧ ∃ tk, (s.failover n).shard.ticket t = some tk ∧
        tk.state = .prepared ∧ ∃ p ∈ tk.update, p.1 = k) ∧
    ((s.failover n).shard.lock k).queue = [] := by
  have hwf := (applyN_sync hr.sync n).wellFormed
  rw [failover_eq]
  refine ⟨?_, rfl⟩
  rintro ty ⟨tk, h1, h2⟩
  simp only [recover] at h1
  cases hl : (s.applyN n).repl.tickets.lookup t with
  | none => simp [hl] at h1
  | some r =>
    simp only [hl, Option.map_some, Option.some.injEq] at h1
    rw [← h1] at h2
    simp only [recoverTicket] at h2
    split at h2
    · rename_i hc
      simp only [Bool.and_eq_true, Bool.not_eq_true', List.any_eq_true,
        decide_eq_true_eq] at hc
      refine ⟨(Option.some.inj h2).symm, recoverTicket r, ?_, ?_, ?_⟩
      · simp [recover, hl]
      · simp [recoverTicket, hc.1]
      · obtain ⟨q, hq, he⟩ := hc.2
        exact ⟨q, hq, he⟩
    · simp at h2

/-- A transaction is prepared, the leader changes, the transaction commits and
the leader changes again. -/
example : ((Sys.init.runEvents [.request (.tryLock 1 0 [1] .write true 10),
    .request (.prepare 1 0 [([1], [7])]), .apply, .failover 0,
    .request (.commit 1), .apply, .failover 0]).map
    fun r => (r.1.shard.value [1], markOf r.1.shard 1)) =
    some ([7], .committed 0) := by decide

/-- **C66 needs the care.** A repeated commit, though answered with an error,
makes the next leader serve an empty value. -/
theorem C66_repeated_commit_violated :
    ((Sys.init.runEvents [.request (.tryLock 1 0 [1] .write true 10),
      .request (.prepare 1 0 [([1], [7])]), .apply,
      .request (.commit 1), .request (.commit 1), .apply, .apply]).map
      fun r => r.1.shard.value [1]) = some [7] ∧
    ((Sys.init.runEvents [.request (.tryLock 1 0 [1] .write true 10),
      .request (.prepare 1 0 [([1], [7])]), .apply,
      .request (.commit 1), .request (.commit 1), .apply, .apply,
      .failover 0]).map
      fun r => r.1.shard.value [1]) = some [] := by decide

/-- **C66 needs the care.** A finish of a prepared transaction is answered
`not_committed`, but the transaction can no longer commit and the next leader
does not know it. -/
theorem C66_early_finish_violated :
    ((Sys.init.runEvents [.request (.tryLock 1 0 [1] .write true 10),
      .request (.prepare 1 0 [([1], [7])]), .apply,
      .request (.finish 1), .apply, .request (.commit 1), .apply]).map
      fun r => (markOf r.1.shard 1, r.2.filterMap fun o =>
        o.reply.map fun x => x.2.map fun e => e.code)) =
      some (.prepared 0 [([1], [7])], [none, some .notCommitted,
        some .internalError]) ∧
    ((Sys.init.runEvents [.request (.tryLock 1 0 [1] .write true 10),
      .request (.prepare 1 0 [([1], [7])]), .apply,
      .request (.finish 1), .apply, .failover 0]).map
      fun r => markOf r.1.shard 1) = some .idle := by decide

/-! ### The hypotheses are met -/

/-- A transaction locks a key and is prepared; the prepare is not confirmed
yet. -/
def preparing : List Event :=
  [.request (.tryLock 1 0 [1] .write true 10),
   .request (.prepare 1 0 [([1], [7])])]

example : carefulRun Sys.init preparing = true := by decide

/-- The next command confirms it. -/
example : ((Sys.init.runEvents preparing).map fun r =>
    (r.1.apply.2.reply, r.1.log)) =
    some (some (.prepare 1 0 [([1], [7])], none),
      [.prepare 1 0 [([1], [7])]]) := by decide

/-- A commit is about to be confirmed, after a change of leader. -/
def committing : List Event :=
  preparing ++ [.apply, .failover 0, .request (.commit 1)]

example : carefulRun Sys.init committing = true := by decide

example : ((Sys.init.runEvents committing).map fun r =>
    (r.1.apply.2.reply, r.1.log)) =
    some (some (.commit 1, none), [.commit 1]) := by decide

end Verif.Parsec
