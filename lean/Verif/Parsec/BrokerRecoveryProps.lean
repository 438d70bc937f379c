import Verif.Parsec.BrokerRecovery
import Verif.Parsec.ShardProps

/-!
# Properties of the PArSEC broker: recovery (C48)
-/
namespace Verif.Parsec.Broker

theorem RRun.calls {n : Nat} {h : Hist} {s : State} (hr : RRun n h s) {c : Call}
    (hc : Ever h c) : CallOk h c := by
  rcases hr.inv.phase with col | b
  · obtain ⟨i, cb, rfl⟩ := col.calls c hc
    trivial
  · exact b.calls c hc

/-- **C48.** Recovery asks a shard to commit only a transaction that some shard
reported committed, and only if this one knows it and did not. -/
theorem C48_commit {n : Nat} {h : Hist} {s : State} (hr : RRun n h s) {j : Nat}
    {t : Tn} {c : Cont} (hc : Ever h (.commit j t c)) :
    (∃ st, Reports h j t st) ∧ ¬Reports h j t .committed ∧
      ∃ k, Reports h k t .committed :=
  hr.calls hc

/-- **C48.** Recovery asks a shard to roll back only a transaction that it knows
and that no shard reported committed. -/
theorem C48_rollback {n : Nat} {h : Hist} {s : State} (hr : RRun n h s) {j : Nat}
    {t : Tn} {c : Cont} (hc : Ever h (.rollback j t c)) :
    (∃ st, Reports h j t st) ∧ ∀ k, ¬Reports h k t .committed :=
  hr.calls hc

/-- **C48.** Recovery never asks for a commit and for a rollback of the same
transaction. -/
theorem C48_never_both {n : Nat} {h : Hist} {s : State} (hr : RRun n h s)
    {j k : Nat} {t : Tn} {c d : Cont} (hc : Ever h (.commit j t c)) :
    ¬Ever h (.rollback k t d) := by
  intro hd
  obtain ⟨_, _, i, hi⟩ := C48_commit hr hc
  exact (C48_rollback hr hd).2 i hi

/-- **C48.** Recovery asks for a finish only of transactions that all shards that
know it have committed. -/
theorem C48_finish {n : Nat} {h : Hist} {s : State} (hr : RRun n h s) {j : Nat}
    {t : Tn} {c : Cont} (hc : Ever h (.finish j t c)) :
    (∃ st, Reports h j t st) ∧ (∃ k, Reports h k t .committed) ∧
    ∀ k st, Reports h k t st →
      Reports h k t .committed ∨ ConfirmedCommit h k t :=
  hr.calls hc

/-- **C48.** When the last shard has reported, every transaction is dealt with:
if all shards that know it committed it, they are asked to finish it; if some
did, the others are asked to commit it; if none did, all are asked to roll it
back.  (`p t = none`: all requests for `t` could be sent.) -/
theorem C48_complete {n : Nat} {h : Hist} {s s' : State} {cb i : Nat}
    {ts : List (Tn × Parsec.TState)} {p : Tn → Option Stop} {o : Out}
    (hr : RRun n h s) (hp : Recov h (.gotTickets cb i (some ts) p))
    (hs : step s (.gotTickets cb i (some ts) p) = some (s', o))
    (hall : ∀ j, j < n → ∃ us, Sent ((.gotTickets cb i (some ts) p, o) :: h) j us)
    {j : Nat} {t : Tn} {st : Parsec.TState} (hpt : p t = none)
    (hj : Reports ((.gotTickets cb i (some ts) p, o) :: h) j t st) :
    ((∀ k st', Reports ((.gotTickets cb i (some ts) p, o) :: h) k t st' →
        st' = .committed) → Call.finish j t ⟨cb, true⟩ ∈ o.calls) ∧
    ((∃ k, Reports ((.gotTickets cb i (some ts) p, o) :: h) k t .committed) →
      st ≠ .committed → Call.commit j t ⟨cb, true⟩ ∈ o.calls) ∧
    ((∀ k, ¬Reports ((.gotTickets cb i (some ts) p, o) :: h) k t .committed) →
      Call.rollback j t ⟨cb, true⟩ ∈ o.calls) := by
  obtain ⟨h1, h2, h3⟩ := hp
  have inv := hr.inv
  have hi := inv.asked i cb h1
  have col : Collect n h s := by
    rcases inv.phase with h4 | h4
    · exact h4
    · exact absurd (h4.complete i hi) h2
  obtain ⟨s1, o1, h4, _, _, h7⟩ := col.report (p := p) (cb := cb) inv.shards hi
    h2 (h3 ts rfl)
  have hs : handleGetTickets s cb i (some ts) p = some (s', o) := hs
  rw [hs] at h4
  simp only [Option.some.injEq, Prod.mk.injEq] at h4
  rw [← h4.2] at h7
  rcases h7 with ⟨_, _, k, hk, hno⟩ | ⟨_, hc⟩
  · obtain ⟨us, hus⟩ := hall k hk
    exact absurd hus (hno us)
  · exact hc j t st hpt hj

/-- **C48.** Recovery does not end the process. -/
theorem C48_no_exit {n : Nat} {h : Hist} {s : State} (hr : RRun n h s) {e : Event}
    (hp : Recov h e) : step s e ≠ none := by
  obtain ⟨s', o, h1, _⟩ := hr.inv.step hp
  rw [h1]
  simp

/-! ### Success -/

theorem finishDone_said {s : State} {c : Cont} (hc : c.recovery = true) {t : Tn}
    {r : Option Fail} {cb : Nat}
    (h : Said.recover cb none ∈ finishDone s c t r) : s.tickets = [] := by
  unfold finishDone at h
  rw [if_pos hc] at h
  repeat' split at h
  · simp at h
  · rename_i h1
    simpa using h1
  · simp at h

theorem finish_said {s : State} {t : Tn} {c : Cont} {p : Option Stop}
    (hc : c.recovery = true) {cb : Nat}
    (h : Said.recover cb none ∈ (finish s t c p).2.said) :
    (finish s t c p).1.tickets = [] := by
  revert h
  unfold finish
  repeat' split
  all_goals
    try exact finishDone_said hc
  simp only
  split
  · exact finishDone_said hc
  · simp

/-- Success is reported when no ticket is left. -/
theorem recover_said {h : Hist} {s s' : State} {e : Event} {o : Out}
    (hp : Recov h e) (hs : step s e = some (s', o)) {cb : Nat}
    (hc : Said.recover cb none ∈ o.said) : s'.tickets = [] := by
  cases e with
  | recover cb' =>
    simp only [step, Option.some.injEq, Prod.mk.injEq] at hs
    rw [← hs.2] at hc
    unfold recover at hc
    split at hc <;> simp at hc
  | gotTickets cb' i r p =>
    simp only [step] at hs
    unfold handleGetTickets at hs
    cases r with
    | none =>
      simp only [Option.some.injEq, Prod.mk.injEq] at hs
      rw [← hs.2] at hc
      simp at hc
    | some ts =>
      simp only at hs
      generalize (if (s.recovery.lookup i).isSome = true then s.recovery
        else s.recovery ++ [(i, ts)]) = rs at hs
      split at hs
      · simp only [Option.some.injEq, Prod.mk.injEq] at hs
        rw [← hs.2] at hc
        simp at hc
      · split at hs
        · rename_i h1
          simp only [Option.some.injEq, Prod.mk.injEq] at hs
          rw [← hs.1]
          simpa using h1
        · split at hs
          · simp only [Option.some.injEq] at hs
            have : o.said = (doRecovery _ cb' p).2.said :=
              congrArg (fun r => r.2.said) hs.symm
            rw [this] at hc
            simp only [doRecovery, List.mem_flatMap, List.mem_map] at hc
            obtain ⟨_, ⟨e, _, rfl⟩, h2⟩ := hc
            simp only [Ticket.recover] at h2
            repeat' split at h2
            all_goals simp at h2
          · simp at hs
  | committed c t i r p =>
    have hcr := hp.1
    simp only [step, Option.some.injEq] at hs
    unfold handleCommit at hs
    simp only [commitDone_rec hcr, commitDone_ok hcr] at hs
    repeat' split at hs
    all_goals
      first
        | (have h1 := congrArg (fun r => r.1) hs
           have h2 := congrArg (fun r => r.2) hs
           simp only at h1 h2
           rw [← h2] at hc
           rw [← h1]
           first
             | exact finish_said hcr hc
             | (exfalso; simp at hc))
  | rolledBack c t i r p =>
    have hcr := hp.1
    simp only [step, Option.some.injEq] at hs
    unfold handleRollback at hs
    simp only [rollbackDone_rec hcr, rollbackDone_ok hcr] at hs
    repeat' split at hs
    all_goals
      first
        | (have h1 := congrArg (fun r => r.1) hs
           have h2 := congrArg (fun r => r.2) hs
           simp only at h1 h2
           rw [← h2] at hc
           rw [← h1]
           first
             | exact finish_said hcr hc
             | (exfalso; simp at hc))
  | finished c t i r =>
    have hcr := hp.1
    simp only [step, Option.some.injEq] at hs
    unfold handleFinish at hs
    simp only at hs
    repeat' split at hs
    all_goals
      simp only [Prod.mk.injEq] at hs
      rw [← hs.2] at hc
      rw [← hs.1]
      first
        | exact finishDone_said hcr hc
        | (exfalso; simp at hc)
  | ticketNumber cb r => exact hp.elim
  | tryLock cb t ok => exact hp.elim
  | foundKey cb t k ty r ok => exact hp.elim
  | locked cb t k i r => exact hp.elim
  | commit cb t u p => exact hp.elim
  | prepared c t i r p => exact hp.elim
  | rollback cb t p => exact hp.elim
  | finish cb t p => exact hp.elim

/-- Success is reported only after all shards have reported. -/
theorem recover_said_complete {n : Nat} {h : Hist} {s s' : State} {e : Event}
    {o : Out} (hr : RRun n h s) (hp : Recov h e) (hs : step s e = some (s', o))
    {cb : Nat} (hc : Said.recover cb none ∈ o.said) :
    PB n ((e, o) :: h) fun t => s'.tickets.lookup t := by
  have inv := hr.inv
  cases e with
  | recover cb' =>
    simp only [step, Option.some.injEq, Prod.mk.injEq] at hs
    rw [← hs.2] at hc
    unfold recover at hc
    split at hc <;> simp at hc
  | gotTickets cb' i r p =>
    cases r with
    | none =>
      simp only [step, handleGetTickets, Option.some.injEq, Prod.mk.injEq] at hs
      rw [← hs.2] at hc
      simp at hc
    | some ts =>
      obtain ⟨h1, h2, h3⟩ := hp
      have hi := inv.asked i cb' h1
      have col : Collect n h s := by
        rcases inv.phase with h4 | h4
        · exact h4
        · exact absurd (h4.complete i hi) h2
      obtain ⟨s1, o1, h4, _, _, h7⟩ := col.report (p := p) (cb := cb') inv.shards
        hi h2 (h3 ts rfl)
      have hs : handleGetTickets s cb' i (some ts) p = some (s', o) := hs
      rw [hs] at h4
      simp only [Option.some.injEq, Prod.mk.injEq] at h4
      rw [← h4.2, ← h4.1] at h7
      rcases h7 with ⟨_, h8, _⟩ | ⟨h8, _⟩
      · rw [h8] at hc
        simp at hc
      · exact h8
  | committed c t i r p =>
    rcases inv.phase with col | b
    · obtain ⟨_, _, hj⟩ := col.calls _ hp.2
      simp at hj
    · have hs : some (handleCommit s c t i r p) = some (s', o) := hs
      have hb := b.committed hp
      rw [Option.some.inj hs] at hb
      exact hb
  | rolledBack c t i r p =>
    rcases inv.phase with col | b
    · obtain ⟨_, _, hj⟩ := col.calls _ hp.2
      simp at hj
    · have hs : some (handleRollback s c t i r p) = some (s', o) := hs
      have hb := b.rolledBack hp
      rw [Option.some.inj hs] at hb
      exact hb
  | finished c t i r =>
    rcases inv.phase with col | b
    · obtain ⟨_, _, hj⟩ := col.calls _ hp.2
      simp at hj
    · have hs : some (handleFinish s c t i r) = some (s', o) := hs
      have hb := b.finished hp
      rw [Option.some.inj hs] at hb
      exact hb
  | ticketNumber cb r => exact hp.elim
  | tryLock cb t ok => exact hp.elim
  | foundKey cb t k ty r ok => exact hp.elim
  | locked cb t k i r => exact hp.elim
  | commit cb t u p => exact hp.elim
  | prepared c t i r p => exact hp.elim
  | rollback cb t p => exact hp.elim
  | finish cb t p => exact hp.elim

/-- **C48.** When recovery reports success, all shards have reported and every
reported transaction is resolved: all shards that know it committed and finished
it, or all of them rolled it back. -/
theorem C48_success {n : Nat} {h : Hist} {s s' : State} {e : Event} {o : Out}
    (hr : RRun n h s) (hp : Recov h e) (hs : step s e = some (s', o)) {cb : Nat}
    (hc : Said.recover cb none ∈ o.said) :
    (∀ j, j < n → Answered ((e, o) :: h) j) ∧
    ∀ j t st, Reports ((e, o) :: h) j t st →
    ((∃ k, Reports ((e, o) :: h) k t .committed) ∧
      ∀ k st', Reports ((e, o) :: h) k t st' →
        (Reports ((e, o) :: h) k t .committed ∨
          ConfirmedCommit ((e, o) :: h) k t) ∧
        ConfirmedFinish ((e, o) :: h) k t) ∨
    ((∀ k, ¬Reports ((e, o) :: h) k t .committed) ∧
      ∀ k st', Reports ((e, o) :: h) k t st' →
        ConfirmedRollback ((e, o) :: h) k t) := by
  have b := recover_said_complete hr hp hs hc
  refine ⟨b.complete, fun j t st hj => ?_⟩
  exact b.gone t (by simp [recover_said hp hs hc]) ⟨j, st, hj⟩

/-! ### Concrete runs -/

/-- `Recov` as a test. -/
def recov (h : Hist) : Event → Bool
  | .recover _ => h.isEmpty
  | .gotTickets cb i r _ =>
    (h.any fun x => x.2.calls.any fun d => d = .getTickets i cb) &&
    (h.all fun x => match x.1 with
      | .gotTickets _ j _ _ => j ≠ i
      | _ => true) &&
    match r with
    | none => true
    | some ts => decide (ts.map fun e => e.1).Nodup
  | .committed c t i _ _ => c.recovery &&
    h.any fun x => x.2.calls.any fun d => d = .commit i t c
  | .rolledBack c t i _ _ => c.recovery &&
    h.any fun x => x.2.calls.any fun d => d = .rollback i t c
  | .finished c t i _ => c.recovery &&
    h.any fun x => x.2.calls.any fun d => d = .finish i t c
  | _ => false

theorem recov_sound {h : Hist} {e : Event} (he : recov h e = true) : Recov h e := by
  cases e with
  | recover cb =>
    have : h = [] := by simpa [recov] using he
    exact this
  | gotTickets cb i r p =>
    simp only [recov, Bool.and_eq_true, List.any_eq_true, List.all_eq_true,
      decide_eq_true_eq] at he
    obtain ⟨⟨⟨x, hx, d, hd, rfl⟩, h2⟩, h3⟩ := he
    refine ⟨⟨x, hx, hd⟩, ?_, ?_⟩
    · rintro ⟨y, hy, cb', r', p', h4⟩
      have := h2 y hy
      rw [h4] at this
      simp at this
    · rintro ts rfl
      simpa using h3
  | committed c t i a p =>
    simp only [recov, List.any_eq_true, Bool.and_eq_true, decide_eq_true_eq] at he
    obtain ⟨h0, x, hx, d, hd, rfl⟩ := he
    exact ⟨h0, x, hx, hd⟩
  | rolledBack c t i a p =>
    simp only [recov, List.any_eq_true, Bool.and_eq_true, decide_eq_true_eq] at he
    obtain ⟨h0, x, hx, d, hd, rfl⟩ := he
    exact ⟨h0, x, hx, hd⟩
  | finished c t i a =>
    simp only [recov, List.any_eq_true, Bool.and_eq_true, decide_eq_true_eq] at he
    obtain ⟨h0, x, hx, d, hd, rfl⟩ := he
    exact ⟨h0, x, hx, hd⟩
  | ticketNumber cb r => simp [recov] at he
  | tryLock cb t ok => simp [recov] at he
  | foundKey cb t k ty r ok => simp [recov] at he
  | locked cb t k i r => simp [recov] at he
  | commit cb t u p => simp [recov] at he
  | prepared c t i r p => simp [recov] at he
  | rollback cb t p => simp [recov] at he
  | finish cb t p => simp [recov] at he

/-- A sequence of events that must be `Recov`. -/
def execRecov : State → Hist → List Event → Option (Hist × State)
  | s, h, [] => some (h, s)
  | s, h, e :: es =>
    if recov h e then
      match step s e with
      | none => none
      | some (s', o) => execRecov s' ((e, o) :: h) es
    else none

theorem execRecov_run {n : Nat} (es : List Event) : ∀ {s : State} {h : Hist},
    RRun n h s → ∀ {r : Hist × State},
    execRecov s h es = some r → RRun n r.1 r.2 := by
  induction es with
  | nil =>
    intro s h hr r he
    simp only [execRecov, Option.some.injEq] at he
    rw [← he]
    exact hr
  | cons e es ih =>
    intro s h hr r he
    simp only [execRecov] at he
    split at he
    · rename_i hp
      cases hs : step s e with
      | none => simp [hs] at he
      | some q =>
        simp only [hs] at he
        exact ih (.step hr (recov_sound hp) hs) he
    · simp at he

/-- The history and the state after these events, with two shards. -/
def recovered (es : List Event) : Hist × State :=
  (execRecov { shards := 2 } [] es).getD ([], { shards := 2 })

theorem recovered_run {es : List Event}
    (h : (execRecov { shards := 2 } [] es).isSome = true) :
    RRun 2 (recovered es).1 (recovered es).2 := by
  obtain ⟨r, hr⟩ := Option.isSome_iff_exists.mp h
  unfold recovered
  rw [hr]
  exact execRecov_run es .start hr

/-- Shard 0 has committed transaction 7 and prepared 8; shard 1 has prepared
both. -/
def takeOver : List Event :=
  [.recover 0,
   .gotTickets 0 1 (some [(7, .prepared), (8, .prepared)]) (fun _ => none),
   .gotTickets 0 0 (some [(7, .committed), (8, .prepared)]) (fun _ => none)]

/-- The theorems apply to this run: 7 is committed, 8 is rolled back. -/
example : RRun 2 (recovered takeOver).1 (recovered takeOver).2 :=
  recovered_run rfl
example : (recovered takeOver).1.head?.map (fun x => x.2.calls) =
    some [.rollback 1 8 ⟨0, true⟩, .rollback 0 8 ⟨0, true⟩,
      .commit 1 7 ⟨0, true⟩] := by decide

/-- And all of it succeeds. -/
example : RRun 2 (recovered (takeOver ++
    [.rolledBack ⟨0, true⟩ 8 0 none none, .committed ⟨0, true⟩ 7 1 none none,
     .finished ⟨0, true⟩ 7 1 none, .rolledBack ⟨0, true⟩ 8 1 none none,
     .finished ⟨0, true⟩ 7 0 none])).1 (recovered (takeOver ++
    [.rolledBack ⟨0, true⟩ 8 0 none none, .committed ⟨0, true⟩ 7 1 none none,
     .finished ⟨0, true⟩ 7 1 none, .rolledBack ⟨0, true⟩ 8 1 none none,
     .finished ⟨0, true⟩ 7 0 none])).2 ∧
    (recovered (takeOver ++
    [.rolledBack ⟨0, true⟩ 8 0 none none, .committed ⟨0, true⟩ 7 1 none none,
     .finished ⟨0, true⟩ 7 1 none, .rolledBack ⟨0, true⟩ 8 1 none none,
     .finished ⟨0, true⟩ 7 0 none])).1.head?.map (fun x => x.2.said) =
    some [.recover 0 none] :=
  ⟨recovered_run rfl, rfl⟩

/-! ### A commit on its way -/

/-- Transaction 1 is prepared on two shards. -/
def shardA : List Op :=
  [.tryLock 1 0 [1] .write true 10, .prepare 1 [([1], [7])]]
def shardB : List Op :=
  [.tryLock 1 0 [2] .write true 11, .prepare 1 [([2], [8])]]

/-- Recovery finds transaction 1 prepared everywhere, and rolls it back. -/
def race : List Event :=
  [.recover 0,
   .gotTickets 0 0 (some [(1, .prepared)]) (fun _ => none),
   .gotTickets 0 1 (some [(1, .prepared)]) (fun _ => none),
   .rolledBack ⟨0, true⟩ 1 0 none none,
   .rolledBack ⟨0, true⟩ 1 1 none none]

/-- **C48 is violated** if a request to commit that the failed broker sent gets
to a shard after the shard has reported to the new one: both shards truthfully
report the transaction prepared, the first one then commits and accepts the
rollback as well, recovery reports success, and the transaction is committed on
one shard and rolled back on the other. -/
theorem C48_race_violated : ∃ a b, Reach a ∧ Reach b ∧
    ((runOps a shardA).map fun r => getTickets r.1 0 1) = some (some .prepared) ∧
    ((runOps b shardB).map fun r => getTickets r.1 0 1) = some (some .prepared) ∧
    RRun 2 (recovered race).1 (recovered race).2 ∧
    ((recovered race).1.flatMap fun x => x.2.calls) =
      [.rollback 0 1 ⟨0, true⟩, .rollback 1 1 ⟨0, true⟩,
       .getTickets 0 0, .getTickets 1 0] ∧
    (recovered race).1.head?.map (fun x => x.2.said) = some [.recover 0 none] ∧
    ((runOps a (shardA ++ [.commit 1, .rollback 1])).map fun r =>
      (r.1.value [1], r.2.map fun o => o.result)) =
        some ([7], [none, none, none, none]) ∧
    ((runOps b (shardB ++ [.rollback 1])).map fun r =>
      (r.1.value [2], r.2.map fun o => o.result)) =
        some ([], [none, none, none]) :=
  ⟨fresh, fresh, fresh_reach, fresh_reach, by decide, by decide,
   recovered_run rfl, by decide, rfl, by decide, by decide⟩

end Verif.Parsec.Broker
