import Verif.Parsec.BrokerProps

/-!
# The PArSEC broker answers its user (C68)
-/
namespace Verif.Parsec.Broker

/-- A committed ticket stays committed until it is removed. -/
theorem committed_stays {s s' : State} {h : Hist} {e : Event} {o : Out}
    (hp : Plain h e) (hs : step s e = some (s', o)) {t : Tn} {tk : Ticket}
    (hl : s.tickets.lookup t = some tk) (hst : tk.state = .committed) :
    s'.tickets.lookup t = none ∨
      ∃ tk', s'.tickets.lookup t = some tk' ∧ tk'.state = .committed := by
  have key : ∀ (t' : Tn) (x y : Ticket), s.tickets.lookup t' = some x →
      (x.state = .committed → y.state = .committed) →
      (s.set t' y).tickets.lookup t = none ∨
      ∃ tk', (s.set t' y).tickets.lookup t = some tk' ∧
        tk'.state = .committed := by
    intro t' x y hx hy
    right
    rw [lookup_set]
    by_cases ht : t = t'
    · subst ht
      rw [hl] at hx
      rw [if_pos rfl]
      exact ⟨y, rfl, hy (Option.some.inj hx ▸ hst)⟩
    · rw [if_neg ht]
      exact ⟨tk, hl, hst⟩
  have same : s.tickets.lookup t = none ∨
      ∃ tk', s.tickets.lookup t = some tk' ∧ tk'.state = .committed :=
    .inr ⟨tk, hl, hst⟩
  have erased : ∀ t', (s.erase t').tickets.lookup t = none ∨
      ∃ tk', (s.erase t').tickets.lookup t = some tk' ∧
        tk'.state = .committed := by
    intro t'
    rw [lookup_erase]
    split
    · exact .inl rfl
    · exact same
  cases e with
  | ticketNumber cb r =>
    simp only [step, Option.some.injEq] at hs
    cases r with
    | none =>
      simp only [handleTicketNumber, Prod.mk.injEq] at hs
      rw [← hs.1]
      exact same
    | some q =>
      simp only [handleTicketNumber, Prod.mk.injEq] at hs
      rw [← hs.1]
      have h1 : (if s.highest < q.2 then { s with highest := q.2 } else s).tickets
          = s.tickets := by split <;> rfl
      rw [h1]
      cases hq : s.tickets.lookup q.1 with
      | some x =>
        simp only
        rw [h1]
        exact same
      | none =>
        simp only
        rw [lookup_set, h1]
        by_cases ht : t = q.1
        · rw [ht, hq] at hl
          simp at hl
        · rw [if_neg ht]
          exact same
  | tryLock cb t' ok =>
    simp only [step, Option.some.injEq, tryLock] at hs
    repeat' split at hs
    all_goals
      simp only [Prod.mk.injEq] at hs
      rw [← hs.1]
      first
        | exact same
        | (refine key _ _ _ (by assumption) ?_; simp_all)
  | foundKey cb t' k ty r ok =>
    simp only [step, Option.some.injEq, handleFindKey] at hs
    repeat' split at hs
    all_goals
      simp only [Prod.mk.injEq] at hs
      rw [← hs.1]
      first
        | exact same
        | (refine key _ _ _ (by assumption) ?_; simp_all)
  | locked cb t' k j r =>
    cases r with
    | error e =>
      simp only [step, Option.some.injEq, handleLock, Prod.mk.injEq] at hs
      rw [← hs.1]
      exact same
    | value v =>
      simp only [step, Option.some.injEq, handleLock] at hs
      repeat' split at hs
      all_goals
        simp only [Prod.mk.injEq] at hs
        rw [← hs.1]
        first
          | exact same
          | (refine key _ _ _ (by assumption) ?_; exact fun h => h)
  | commit cb t' u p =>
    simp only [step, Option.some.injEq, commit] at hs
    cases hl' : s.tickets.lookup t' with
    | none =>
      rw [hl'] at hs
      simp only at hs
      rw [commitDone_plain rfl] at hs
      simp only [Prod.mk.injEq] at hs
      rw [← hs.1]
      exact same
    | some x =>
      simp only [hl'] at hs
      rw [commit_result rfl] at hs
      simp only [Prod.mk.injEq] at hs
      rw [← hs.1]
      refine key _ _ _ hl' ?_
      intro hx
      simp [Ticket.commit, Ticket.commitError, hx]
  | prepared c' t' j r p =>
    obtain ⟨hcr, _⟩ := hp
    simp only [step, Option.some.injEq, handlePrepare,
      commitDone_plain hcr] at hs
    repeat' split at hs
    all_goals
      simp only [Prod.mk.injEq] at hs
      rw [← hs.1]
      first
        | exact same
        | (refine key _ _ _ (by assumption) ?_; simp_all)
  | committed c' t' j r p =>
    obtain ⟨hcr, _⟩ := hp
    simp only [step, Option.some.injEq, handleCommit, commitDone_plain hcr] at hs
    repeat' split at hs
    all_goals
      simp only [Prod.mk.injEq] at hs
      rw [← hs.1]
      first
        | exact same
        | (refine key _ _ _ (by assumption) ?_; simp_all)
  | rollback cb t' p =>
    simp only [step, Option.some.injEq, rollback, rollbackDone_plain] at hs
    repeat' split at hs
    all_goals
      simp only [Prod.mk.injEq] at hs
      rw [← hs.1]
      first
        | exact same
        | (refine key _ _ _ (by assumption) ?_; simp_all)
  | rolledBack c' t' j r p =>
    obtain ⟨hcr, _⟩ := hp
    simp only [step, Option.some.injEq, handleRollback,
      rollbackDone_plain hcr] at hs
    repeat' split at hs
    all_goals
      simp only [Prod.mk.injEq] at hs
      rw [← hs.1]
      first
        | exact same
        | (refine key _ _ _ (by assumption) ?_; simp_all)
  | finish cb t' p =>
    simp only [step, Option.some.injEq, finish] at hs
    repeat' split at hs
    all_goals
      simp only [Prod.mk.injEq] at hs
      rw [← hs.1]
      first
        | exact same
        | exact erased _
        | (refine key _ _ _ (by assumption) ?_; simp [Ticket.finish])
  | finished c' t' j r =>
    simp only [step, Option.some.injEq, handleFinish] at hs
    repeat' split at hs
    all_goals
      simp only [Prod.mk.injEq] at hs
      rw [← hs.1]
      first
        | exact same
        | exact erased _
        | (refine key _ _ _ (by assumption) ?_; simp_all)
  | recover cb => exact hp.elim
  | gotTickets cb i r p => exact hp.elim

/-- The user was told that `t` is committed. -/
def Succeeded (t : Tn) (h : Hist) : Prop :=
  ∃ x ∈ h, ∃ cb, Said.commit cb t none ∈ x.2.said

theorem succeeded_state {n : Nat} {h : Hist} {s : State} (hr : Run n h s)
    {t : Tn} (hsu : Succeeded t h) :
    Issued t h ∧ (s.tickets.lookup t = none ∨
      ∃ tk, s.tickets.lookup t = some tk ∧ tk.state = .committed) := by
  induction hr with
  | start =>
    obtain ⟨x, hx, _⟩ := hsu
    simp at hx
  | @step h s s' e o hr hp hs ih =>
    obtain ⟨x, hx, cb, hcb⟩ := hsu
    have up : Issued t h → Issued t ((e, o) :: h) := by
      rintro ⟨y, hy, h1⟩
      exact ⟨y, List.mem_cons_of_mem _ hy, h1⟩
    rcases List.mem_cons.mp hx with rfl | hx
    · obtain ⟨tk, tk', h1, _, h3, h4⟩ := success_said hp hs hcb
      exact ⟨up (hr.inv.issued t tk h1), .inr ⟨tk', h3, h4⟩⟩
    · obtain ⟨hi, h2⟩ := ih ⟨x, hx, cb, hcb⟩
      refine ⟨up hi, ?_⟩
      rcases h2 with h2 | ⟨tk, h2, h3⟩
      · left
        rcases good_step hr.inv hp hs with ⟨h4, _⟩ | ⟨t', ht', hg⟩
        · rw [h4]
          exact h2
        · by_cases htt : t = t'
          · subst htt
            rcases hg.known with h5 | ⟨_, h5⟩
            · rw [h2] at h5
              simp at h5
            · cases h6 : s'.tickets.lookup t with
              | none => rfl
              | some tk =>
                obtain ⟨_, cb', m, h7⟩ := h5 tk h6
                subst h7
                exact absurd hi hp
          · have := hg.other t htt
            simp only at this
            rw [this]
            exact h2
      · exact committed_stays hp hs h2 h3

/-- **C68, partial.** Success of a transaction is reported to the user at most
once. -/
theorem C68_success_once_partial {n : Nat} {h : Hist} {s s' : State} {e : Event}
    {o : Out} (hr : Run n h s) (hp : Plain h e) (hs : step s e = some (s', o))
    {cb : Nat} {t : Tn} (hc : Said.commit cb t none ∈ o.said) :
    ¬Succeeded t h := by
  intro hsu
  obtain ⟨tk, _, h1, h2, _⟩ := success_said hp hs hc
  rcases (succeeded_state hr hsu).2 with h3 | ⟨tk', h3, h4⟩
  · rw [h1] at h3
    simp at h3
  · rw [h1] at h3
    rw [Option.some.inj h3, h4] at h2
    simp at h2

/-- **C68, partial.** A request for a lock is passed on to the directory or
answered; the directory's answer leads to one request to a shard or to one
answer; the shard's answer leads to one answer. -/
theorem C68_lock_partial (s : State) (cb : Nat) (t : Tn) (k : Key)
    (ty : LockType) (i : Nat) (ok : Bool) (res : Option Nat) (a : Answer) :
    ((tryLock s cb t ok).2.calls = [] ∧
      ((tryLock s cb t ok).2.said = [] ∧ ok = true ∨
        ∃ r, (tryLock s cb t ok).2.said = [.lock cb t r])) ∧
    ((∃ j f, (handleFindKey s cb t k ty res ok).2.calls =
        [.tryLock j t k ty f cb] ∧ (handleFindKey s cb t k ty res ok).2.said = [])
      ∨ ((handleFindKey s cb t k ty res ok).2.calls = [] ∧
        ∃ r, (handleFindKey s cb t k ty res ok).2.said = [.lock cb t r])) ∧
    (handleLock s cb t k i a).2.calls = [] ∧
    ∃ r, (handleLock s cb t k i a).2.said = [.lock cb t r] := by
  refine ⟨?_, ?_, ?_⟩
  · unfold tryLock
    repeat' split
    all_goals simp_all
  · generalize hf : handleFindKey s cb t k ty res ok = r
    unfold handleFindKey at hf
    simp only at hf
    repeat' split at hf
    all_goals
      rw [← hf]
      simp
  · generalize hf : handleLock s cb t k i a = r
    unfold handleLock at hf
    simp only at hf
    repeat' split at hf
    all_goals
      rw [← hf]
      simp

/-! ### Concrete runs -/

/-- `Plain` as a test. -/
def plain (h : Hist) : Event → Bool
  | .ticketNumber _ (some (t, _)) => h.all fun x =>
    match x.1 with
    | .ticketNumber _ (some (y, _)) => y ≠ t
    | _ => true
  | .locked cb t k i _ => (attempt t h).any fun x => x.2.calls.any fun
    | .tryLock j y q _ _ d => j = i && y = t && q = k && d = cb
    | _ => false
  | .prepared c t i _ _ => !c.recovery && (attempt t h).any fun x =>
    x.2.calls.any fun
      | .prepare j y _ d => j = i && y = t && d = c
      | _ => false
  | .committed c t i _ _ => !c.recovery && (attempt t h).any fun x =>
    x.2.calls.any fun d => d = .commit i t c
  | .rolledBack c t i _ _ => !c.recovery && (attempt t h).any fun x =>
    x.2.calls.any fun d => d = .rollback i t c
  | .finished c t i _ => !c.recovery && (attempt t h).any fun x =>
    x.2.calls.any fun d => d = .finish i t c
  | .recover _ => false
  | .gotTickets _ _ _ _ => false
  | _ => true

theorem plain_sound {h : Hist} {e : Event} (he : plain h e = true) :
    Plain h e := by
  cases e with
  | ticketNumber cb r =>
    cases r with
    | none => trivial
    | some q =>
      simp only [plain, List.all_eq_true] at he
      rintro ⟨x, hx, cb', m, h1⟩
      have := he x hx
      rw [h1] at this
      simp at this
  | locked cb t k i a =>
    simp only [plain, List.any_eq_true] at he
    obtain ⟨x, hx, c, hc, h1⟩ := he
    cases c <;> simp at h1
    rename_i j y q ty f d
    obtain ⟨⟨⟨rfl, rfl⟩, rfl⟩, rfl⟩ := h1
    exact ⟨ty, f, x, hx, hc⟩
  | prepared c t i a p =>
    simp only [plain, List.any_eq_true, Bool.and_eq_true,
      Bool.not_eq_true'] at he
    obtain ⟨h0, x, hx, d, hd, h1⟩ := he
    cases d <;> simp at h1
    rename_i j y u d
    obtain ⟨⟨rfl, rfl⟩, rfl⟩ := h1
    exact ⟨h0, u, x, hx, hd⟩
  | committed c t i a p =>
    simp only [plain, List.any_eq_true, Bool.and_eq_true,
      Bool.not_eq_true', decide_eq_true_eq] at he
    obtain ⟨h0, x, hx, d, hd, rfl⟩ := he
    exact ⟨h0, x, hx, hd⟩
  | rolledBack c t i a p =>
    simp only [plain, List.any_eq_true, Bool.and_eq_true,
      Bool.not_eq_true', decide_eq_true_eq] at he
    obtain ⟨h0, x, hx, d, hd, rfl⟩ := he
    exact ⟨h0, x, hx, hd⟩
  | finished c t i a =>
    simp only [plain, List.any_eq_true, Bool.and_eq_true,
      Bool.not_eq_true', decide_eq_true_eq] at he
    obtain ⟨h0, x, hx, d, hd, rfl⟩ := he
    exact ⟨h0, x, hx, hd⟩
  | recover cb => simp [plain] at he
  | gotTickets cb i r p => simp [plain] at he
  | tryLock cb t ok => trivial
  | foundKey cb t k ty r ok => trivial
  | commit cb t u p => trivial
  | rollback cb t p => trivial
  | finish cb t p => trivial

/-- A sequence of events that must be `Plain`. -/
def execPlain : State → Hist → List Event → Option (Hist × State)
  | s, h, [] => some (h, s)
  | s, h, e :: es =>
    if plain h e then
      match step s e with
      | none => none
      | some (s', o) => execPlain s' ((e, o) :: h) es
    else none

theorem execPlain_run {n : Nat} (es : List Event) : ∀ {s : State} {h : Hist},
    Run n h s → ∀ {r : Hist × State},
    execPlain s h es = some r → Run n r.1 r.2 := by
  induction es with
  | nil =>
    intro s h hr r he
    simp only [execPlain, Option.some.injEq] at he
    rw [← he]
    exact hr
  | cons e es ih =>
    intro s h hr r he
    simp only [execPlain] at he
    split at he
    · rename_i hp
      cases hs : step s e with
      | none => simp [hs] at he
      | some q =>
        simp only [hs] at he
        exact ih (.step hr (plain_sound hp) hs) he
    · simp at he

/-- A user locks keys of two shards and commits. -/
def twoShards : List Event :=
  [.ticketNumber 0 (some (7, 8)),
   .tryLock 1 7 true,
   .foundKey 1 7 [1] .write (some 0) true,
   .locked 1 7 [1] 0 (.value [10]),
   .tryLock 2 7 true,
   .foundKey 2 7 [2] .write (some 1) true,
   .locked 2 7 [2] 1 (.value [20]),
   .commit 3 7 [([1], [11]), ([2], [21])] none]

/-- Both shards prepare and commit. -/
def twoShardsOk : List Event := twoShards ++
  [.prepared ⟨3, false⟩ 7 1 none none,
   .prepared ⟨3, false⟩ 7 0 none none,
   .committed ⟨3, false⟩ 7 0 none none,
   .committed ⟨3, false⟩ 7 1 none none]

/-- Both shards refuse to prepare. -/
def twoShardsFail : List Event := twoShards ++
  [.prepared ⟨3, false⟩ 7 1 (some ⟨.internalError, none⟩) none,
   .prepared ⟨3, false⟩ 7 0 (some ⟨.internalError, none⟩) none]

/-- The history and the state after these events, with two shards. -/
def after (es : List Event) : Hist × State :=
  (execPlain { shards := 2 } [] es).getD ([], { shards := 2 })

theorem after_run {es : List Event}
    (h : (execPlain { shards := 2 } [] es).isSome = true) :
    Run 2 (after es).1 (after es).2 := by
  obtain ⟨r, hr⟩ := Option.isSome_iff_exists.mp h
  unfold after
  rw [hr]
  exact execPlain_run es .start hr

instance (t : Tn) (h : Hist) (c : Call) : Decidable (Asked t h c) :=
  inferInstanceAs (Decidable (∃ x ∈ attempt t h, c ∈ x.2.calls))

/-- The theorems about commits apply to this run: both shards are asked for a
lock and to commit, and success is reported. -/
example : Run 2 (after twoShardsOk).1 (after twoShardsOk).2 := after_run rfl
example : (after twoShardsOk).1.head?.map (fun x => x.2.said) =
    some [.commit 3 7 none] := rfl
example : Asked 7 (after twoShardsOk).1 (.tryLock 0 7 [1] .write true 1) ∧
    Asked 7 (after twoShardsOk).1 (.tryLock 1 7 [2] .write true 2) ∧
    Asked 7 (after twoShardsOk).1 (.commit 0 7 ⟨3, false⟩) ∧
    Asked 7 (after twoShardsOk).1 (.commit 1 7 ⟨3, false⟩) := by decide

/-- `C47_no_rollback_partial` applies to this run: the user gives up, and both
shards are asked to roll back. -/
example : (after (twoShards ++ [.rollback 4 7 none])).1.head?.map
    (fun x => x.2.calls) =
    some [.rollback 0 7 ⟨4, false⟩, .rollback 1 7 ⟨4, false⟩] := rfl

/-- **C68 is violated**: if no shard prepares, the callback given to `commit` is
called once for every shard. -/
theorem C68_twice_violated : ∃ es, Run 2 (after es).1 (after es).2 ∧
    (after es).1.filterMap (fun x => match x.1 with
      | .commit cb t _ _ => some (cb, t)
      | _ => none) = [(3, 7)] ∧
    (after es).1.flatMap (fun x => x.2.said.filter fun
      | .commit _ _ _ => true
      | _ => false) =
      [.commit 3 7 (some (.shard ⟨.internalError, none⟩)),
       .commit 3 7 (some (.shard ⟨.internalError, none⟩))] :=
  ⟨twoShardsFail, after_run rfl, rfl, rfl⟩

/-- **C68 is violated**: the callback given to `commit` is never called if no
lock was asked for.  No request was made, so no answer can come. -/
theorem C68_never_violated : ∃ es, Run 2 (after es).1 (after es).2 ∧
    (after es).1.filterMap (fun x => match x.1 with
      | .commit cb t _ _ => some (cb, t)
      | _ => none) = [(3, 7)] ∧
    (after es).1.flatMap (fun x => x.2.said) = [.begin 0 (.ok 7)] ∧
    (after es).1.flatMap (fun x => x.2.calls) = [] :=
  ⟨[.ticketNumber 0 (some (7, 8)), .commit 3 7 [] none], after_run rfl, rfl, rfl,
   rfl⟩

/-! ### Late answers -/

/-- The transaction is rolled back while a shard prepares, and executed again. -/
def again : List Event :=
  [.ticketNumber 0 (some (7, 8)),
   .tryLock 1 7 true,
   .foundKey 1 7 [1] .write (some 0) true,
   .locked 1 7 [1] 0 (.value [10]),
   .commit 2 7 [([1], [11])] none,
   .rollback 3 7 none,
   .rolledBack ⟨3, false⟩ 7 0 none none,
   .tryLock 4 7 true,
   .foundKey 4 7 [1] .write (some 0) true,
   .locked 4 7 [1] 0 (.value [10]),
   .commit 5 7 [([1], [12])] none]

/-- The broker's reaction if the answer to the first request to prepare arrives
after all that. -/
def lateOut : Out :=
  ((step (after again).2 (.prepared ⟨2, false⟩ 7 0 none none)).getD
    ((after again).2, {})).2

/-- **C47 is violated** if an answer arrives after the answer to a later
request: the shard is asked to commit although it has not reported that it
prepared the transaction.  Up to the last event the run is one of `Run`, and the
last event answers a request that was made and not answered before. -/
theorem C47_late_answer_violated :
    Run 2 (after again).1 (after again).2 ∧
    (∃ x ∈ (after again).1,
      Call.prepare 0 7 [([1], [11])] ⟨2, false⟩ ∈ x.2.calls) ∧
    (∀ x ∈ (after again).1, ∀ c i r p, x.1 ≠ .prepared c 7 i r p) ∧
    ∃ s', step (after again).2 (.prepared ⟨2, false⟩ 7 0 none none) =
        some (s', lateOut) ∧ Call.commit 0 7 ⟨2, false⟩ ∈ lateOut.calls ∧
      Touched 7 (after again).1 0 ∧
      ¬ReportedPrepared 7
        ((.prepared ⟨2, false⟩ 7 0 none none, lateOut) :: (after again).1) 0 := by
  have hprep : ∀ x ∈ (after again).1, ∀ c i r p, x.1 ≠ .prepared c 7 i r p := by
    have h : ∀ x ∈ (after again).1, (match x.1 with
      | .prepared _ _ _ _ _ => false
      | _ => true) = true := by decide
    intro x hx c i r p he
    have := h x hx
    rw [he] at this
    simp at this
  refine ⟨after_run rfl, by decide, hprep, _, rfl, by decide,
    ⟨[1], .write, true, 4, by decide⟩, ?_⟩
  rintro ⟨post, c, p, o, pre, h1, u, x, hx, h2⟩
  have hsub : ∀ y ∈ post ++ (.prepared c 7 0 none p, o) :: pre,
      y ∈ (Event.prepared ⟨2, false⟩ 7 0 none none, lateOut) ::
        (after again).1 := by
    rw [← h1]
    exact fun y hy => attempt_subset hy
  have hc : c = ⟨2, false⟩ := by
    rcases List.mem_cons.mp (hsub (.prepared c 7 0 none p, o) (by simp)) with h | h
    · simp only [Prod.mk.injEq, Event.prepared.injEq] at h
      exact h.1.1
    · exact absurd rfl (hprep _ h c 0 none p)
  have hno : ∀ y ∈ attempt 7
      ((.prepared ⟨2, false⟩ 7 0 none none, lateOut) :: (after again).1),
      (y.2.calls.all fun
        | .prepare _ _ _ d => d ≠ ⟨2, false⟩
        | _ => true) = true := by decide
  have := hno x (by
    rw [h1]
    exact List.mem_append_right _ (List.mem_cons_of_mem _ hx))
  rw [List.all_eq_true] at this
  have := this _ h2
  simp [hc] at this

end Verif.Parsec.Broker
