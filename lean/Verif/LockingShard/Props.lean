import Verif.LockingShard.Lemmas
import Verif.Tx.Props

/-! Properties C11-C15: the two-phase-commit locking shard. -/
namespace Verif.LockingShard

open Verif.Tx Verif.Util

/-! #### Concrete data for the examples and counterexamples -/
section Examples

/-- A shard that owns every id, one sentinel attestation not required. -/
def exCfg : Cfg := ⟨(0, 255), toy, [], 0, 10⟩
/-- A coin. -/
def coinX : Hash := fill 32 1
/-- Another coin. -/
def coinY : Hash := fill 32 2
/-- The initial coins. -/
def exUhs : HSet := fun h => h = coinX || h = coinY
/-- A transaction that turns some coins into others. -/
def exT (id : UInt8) (ins outs : List Hash) : CompactTx := ⟨fill 32 id, ins, outs, []⟩

/-- Three transactions that all spend `coinX`. -/
def tA : CompactTx := exT 20 [coinX] [fill 32 10]
def tB : CompactTx := exT 21 [coinX] [fill 32 11]
def tC : CompactTx := exT 22 [coinX] [fill 32 12]
/-- Batch ids. -/
def dA : Hash := fill 32 30
def dB : Hash := fill 32 31
def dC : Hash := fill 32 32

/-- `tA` gets the lock. `tB` is refused and aborted, which releases the coin that `tA`
holds. `tC` then gets the lock and completes, and so does `tA`. -/
def doubleSpend : List Req :=
  [.lock [tA] dA, .lock [tB] dB, .apply [false] dB, .lock [tC] dC, .apply [true] dC,
    .apply [true] dA]

def doubleSpendAnswers : List Resp :=
  [.lock (some [true]), .lock (some [false]), .apply true, .lock (some [true]), .apply true,
    .apply true]

theorem doubleSpend_runs :
    ∃ s, run exCfg (State.init exCfg exUhs) doubleSpend = some (s, doubleSpendAnswers) := by
  have h : (run exCfg (State.init exCfg exUhs) doubleSpend).map (·.2) = some doubleSpendAnswers := by
    decide
  rw [Option.map_eq_some_iff] at h
  obtain ⟨⟨s, as⟩, h1, h2⟩ := h
  exact ⟨s, by rw [h1]; simp at h2; rw [h2]⟩

theorem exCfg_owns (h : Hash) : exCfg.owns h = true := by
  have h1 : firstByte h ≥ 0 := UInt8.zero_le
  have h2 : firstByte h ≤ 255 := by
    rw [UInt8.le_iff_toNat_le]
    have := (firstByte h).toNat_lt
    show _ ≤ 255
    omega
  simp [Cfg.owns, inRange, exCfg, h1, h2]

end Examples

/-! #### C11 -/

/-- C11 is violated: there is a history in which the sender completes only what the shard
granted, every created id is new, and yet one coin is spent by two transactions that both
complete. -/
theorem C11_double_spend_violated :
    ¬ ∀ (c : Cfg) (uhs : HSet) (rs : List Req) (as : List Resp) (s' : State),
      run c (State.init c uhs) rs = some (s', as) →
      Always c (fun l r _ => Obedient l r) (Ledger.init uhs) rs as →
      Always c (fun l r _ => NeverReborn c l r) (Ledger.init uhs) rs as →
      Always c (Legal c) (Ledger.init uhs) rs as := by
  intro H
  obtain ⟨s, hs⟩ := doubleSpend_runs
  have h := H exCfg exUhs doubleSpend doubleSpendAnswers s hs
  have neq : dA ≠ dB ∧ dA ≠ dC ∧ dB ≠ dC := by decide
  have neq' : dB ≠ dA ∧ dC ≠ dA ∧ dC ≠ dB := by decide
  have e1 : (fill 32 12 : Hash) ≠ coinX ∧ (fill 32 12 : Hash) ≠ coinY := by decide
  have e2 : (fill 32 10 : Hash) ≠ coinX ∧ (fill 32 10 : Hash) ≠ coinY ∧
    (fill 32 10 : Hash) ≠ fill 32 12 := by decide
  have e3 : coinX ≠ fill 32 12 := by decide
  simp [doubleSpend, doubleSpendAnswers, Always, Ledger.init, Ledger.next, Obedient, NeverReborn,
    Legal, neq, neq', NewBatch, LegalBatch, Creates, Spends, exCfg_owns, bear, settle, takeEffect,
    tA, tB, tC, exT, exUhs, e1, e2, e3, List.getElem?_cons] at h

/-- **C11, partial.** If the sender completes only what the shard granted, completed
transactions create coins that are not there, and a transaction that was refused is not
aborted while another transaction in flight holds one of its inputs, then every completed
transaction spends coins that are there: between two spends of an id lies a creation.
Missing: the last assumption should not be needed (`C11_double_spend_violated`). -/
theorem C11_spent_once_partial (c : Cfg) (uhs : HSet) (rs : List Req) (as : List Resp)
    (s' : State) (hrun : run c (State.init c uhs) rs = some (s', as))
    (hobey : Always c (fun l r _ => Obedient l r) (Ledger.init uhs) rs as)
    (hfresh : Always c (fun l r _ => Fresh c l r) (Ledger.init uhs) rs as)
    (hquiet : Always c (fun l r _ => QuietAborts c l r) (Ledger.init uhs) rs as) :
    Always c (Legal c) (Ledger.init uhs) rs as := by
  refine (refines_run c rs _ _ as s' (refines_init c uhs) hrun ?_).2
  generalize Ledger.init uhs = l at *
  clear hrun
  induction rs generalizing l as with
  | nil => trivial
  | cons r rs ih =>
    cases as with
    | nil => trivial
    | cons a as =>
      exact ⟨⟨hobey.1, hfresh.1, hquiet.1⟩, ih _ _ hobey.2 hfresh.2 hquiet.2⟩

/-- Two batches race for one coin; the loser is aborted after the winner is done. All the
assumptions of `C11_spent_once_partial` hold. -/
def raceThenAbort : List Req :=
  [.lock [tA, exT 23 [coinY] [fill 32 13]] dA, .lock [tB] dB, .apply [true, true] dA,
    .apply [false] dB, .discard dA, .discard dB]

def raceAnswers : List Resp :=
  [.lock (some [true, true]), .lock (some [false]), .apply true, .apply true, .discard true,
    .discard true]

theorem race_runs :
    ∃ s, run exCfg (State.init exCfg exUhs) raceThenAbort = some (s, raceAnswers) := by
  have h : (run exCfg (State.init exCfg exUhs) raceThenAbort).map (·.2) = some raceAnswers := by
    decide
  rw [Option.map_eq_some_iff] at h
  obtain ⟨⟨s, as⟩, h1, h2⟩ := h
  exact ⟨s, by rw [h1]; simp at h2; rw [h2]⟩

theorem race_obedient : Always exCfg (fun l r _ => Obedient l r) (Ledger.init exUhs)
    raceThenAbort raceAnswers := by
  have neq : dA ≠ dB := by decide
  have neq' : dB ≠ dA := by decide
  simp [raceThenAbort, raceAnswers, Always, Ledger.init, Ledger.next, Obedient, neq, neq',
    List.getElem?_cons]
  intro i t h1 _
  split at h1
  · simp at h1; simp [← h1]
  · split at h1
    · simp at h1; simp [← h1]
    · simp at h1

theorem race_fresh : Always exCfg (fun l r _ => Fresh exCfg l r) (Ledger.init exUhs)
    raceThenAbort raceAnswers := by
  have neq : dA ≠ dB := by decide
  have neq' : dB ≠ dA := by decide
  have e1 : (fill 32 13 : Hash) ≠ coinX ∧ (fill 32 13 : Hash) ≠ coinY ∧
    (fill 32 13 : Hash) ≠ fill 32 10 := by decide
  have e2 : (fill 32 10 : Hash) ≠ coinX ∧ (fill 32 10 : Hash) ≠ coinY := by decide
  simp [raceThenAbort, raceAnswers, Always, Ledger.init, Ledger.next, Fresh, neq, neq',
    FreshBatch, Creates, exCfg_owns, takeEffect, Spends, tA, tB, exT, e1, e2, exUhs]

theorem race_quiet : Always exCfg (fun l r _ => QuietAborts exCfg l r) (Ledger.init exUhs)
    raceThenAbort raceAnswers := by
  have neq : dA ≠ dB := by decide
  have neq' : dB ≠ dA := by decide
  simp [raceThenAbort, raceAnswers, Always, Ledger.init, Ledger.next, QuietAborts, neq, neq',
    HeldElsewhere, Spends, exCfg_owns, tA, tB, exT, List.getElem?_cons]
  constructor
  · intro i t h1 h2
    split at h2
    · simp at h2
    · split at h2 <;> simp at h2
  · intro x hx _ d' hd' b hne hb j t ht hg
    split at hb
    · simp at hb
      subst hb
      rcases j with _ | j
      · simp at ht; simp [← ht] at hg
      · simp at ht
    · simp at hb

example : Always exCfg (Legal exCfg) (Ledger.init exUhs) raceThenAbort raceAnswers := by
  obtain ⟨s, hs⟩ := race_runs
  exact C11_spent_once_partial exCfg exUhs _ _ s hs race_obedient race_fresh race_quiet

/-! #### C12 -/

/-- **C12.** If no id is created twice (C06), no id is ever both unspent and locked,
whatever else the sender does. -/
theorem C12_disjoint (c : Cfg) (uhs : HSet) (rs : List Req) (as : List Resp) (s' : State)
    (hrun : run c (State.init c uhs) rs = some (s', as))
    (hnew : Always c (fun l r _ => NeverReborn c l r) (Ledger.init uhs) rs as) (x : Hash) :
    ¬ (s'.uhs x = true ∧ s'.locked x = true) :=
  (known_run c rs _ _ as s'
    ⟨by simp [State.init, Ledger.init], by simp [State.init], by simp [State.init, Ledger.init],
      by simp [State.init]⟩ hrun hnew).disjoint x

/-- C12. Under the assumptions of `C11_spent_once_partial`, the locked ids are exactly the
inputs of granted transactions in flight, and each has one holder. -/
theorem C12_locked_iff_held (c : Cfg) (uhs : HSet) (rs : List Req) (as : List Resp) (s' : State)
    (hrun : run c (State.init c uhs) rs = some (s', as))
    (hD : Always c (fun l r _ => Disciplined c l r) (Ledger.init uhs) rs as) (x : Hash) :
    s'.locked x = true ↔ ∃ d b, ((Ledger.init uhs).after c rs as).pending d = some b ∧
      ∃ t ∈ b, t.granted = true ∧ Spends c t.tx x :=
  (refines_run c rs _ _ as s' (refines_init c uhs) hrun hD).1.held x

theorem apart_ne {c : Cfg} {b : List InFlight} (h : Apart c b) {i j : Nat} {t u : InFlight}
    (hij : i ≠ j) (hi : b[i]? = some t) (hj : b[j]? = some u) (ht : t.granted = true)
    (hu : u.granted = true) (x : Hash) (h1 : Spends c t.tx x) (h2 : Spends c u.tx x) : False := by
  obtain ⟨li, rfl⟩ := List.getElem?_eq_some_iff.mp hi
  obtain ⟨lj, rfl⟩ := List.getElem?_eq_some_iff.mp hj
  rcases Nat.lt_or_gt_of_ne hij with hlt | hlt
  · exact (List.pairwise_iff_getElem.mp h) i j li lj hlt ht hu x h1 h2
  · exact (List.pairwise_iff_getElem.mp h) j i lj li hlt hu ht x h2 h1

/-- **C12, partial.** Under the assumptions of `C11_spent_once_partial`, applying a batch
makes the inputs of every granted and aborted transaction unspent, and an id becomes unspent
only in that way or as an output of a completed transaction. Missing: as in C11. -/
theorem C12_abort_restores_partial (c : Cfg) (uhs : HSet) (rs : List Req) (as : List Resp)
    (s s' : State) (hrun : run c (State.init c uhs) rs = some (s, as))
    (hD : Always c (fun l r _ => Disciplined c l r) (Ledger.init uhs) rs as)
    (fs : List Bool) (d : Hash) (b : List InFlight)
    (hb : ((Ledger.init uhs).after c rs as).pending d = some b)
    (hDa : Disciplined c ((Ledger.init uhs).after c rs as) (.apply fs d))
    (happ : applyOutputs c s fs d = some (s', true)) :
    (∀ (i : Nat) (t : InFlight), b[i]? = some t → t.granted = true → fs[i]? = some false →
      ∀ x, Spends c t.tx x → s'.uhs x = true) ∧
    (∀ x, s'.uhs x = true → s.uhs x = false →
      ∃ (i : Nat) (t : InFlight), b[i]? = some t ∧
        ((t.granted = true ∧ fs[i]? = some false ∧ Spends c t.tx x) ∨
          (fs[i]? = some true ∧ Creates c t.tx x))) := by
  have hR := (refines_run c rs _ _ as s (refines_init c uhs) hrun hD).1
  generalize (Ledger.init uhs).after c rs as = l at *
  have hR' := (refines_apply c l s hR fs d hDa s' true happ).1
  have hnext : l.next c (.apply fs d) (.apply true) =
      ⟨settle c b fs l.coins, bear c b fs l.born, fun d' => if d' = d then none else l.pending d'⟩ := by
    simp only [Ledger.next, hb]
  rw [hnext] at hR'
  have hap := hR.apart d b hb
  constructor
  · intro i t hi hg hf x hx
    have hgs : GrantedSpend c b x := ⟨t, List.mem_of_getElem? hi, hg, hx⟩
    have hcoin : l.coins x := (hR.coins x).mpr (Or.inr ((hR.held x).mpr ⟨d, b, hb, hgs⟩))
    have hstay : settle c b fs l.coins x := by
      refine settle_of_coin c b x fs _ hcoin ?_
      intro j u hu hfu hxu
      have hug := hDa.1 b hb j u hu hfu
      have hij : i ≠ j := by rintro rfl; rw [hf] at hfu; cases hfu
      exact apart_ne hap hij hi hu hg hug x hx hxu
    rcases (hR'.coins x).mp hstay with h | h
    · exact h
    · obtain ⟨d', b', hb', hgs'⟩ := (hR'.held x).mp h
      simp only at hb'
      split at hb'
      · cases hb'
      · rename_i hne
        exact absurd hgs (hR.cross d' d b' b hne hb' hb x hgs')
  · intro x hx hnx
    have hc := (hR'.coins x).mpr (Or.inl hx)
    rcases settle_cases c b x fs l.coins hc with ⟨hcx, hns⟩ | ⟨i, t, hi, hf, hcr⟩
    · rcases (hR.coins x).mp hcx with h | h
      · rw [hnx] at h; cases h
      · obtain ⟨d', b', hb', hgs'⟩ := (hR.held x).mp h
        by_cases hne : d' = d
        · subst hne
          rw [hb] at hb'; cases hb'
          obtain ⟨t, ht, hg, hsx⟩ := hgs'
          obtain ⟨i, hi⟩ := List.getElem?_of_mem ht
          refine ⟨i, t, hi, Or.inl ⟨hg, ?_, hsx⟩⟩
          cases hf : fs[i]? with
          | none =>
            exfalso
            have hp := hR.pending d'
            rw [hb] at hp
            cases hpd : s.prepared d' with
            | none => rw [hpd] at hp; cases hp
            | some p =>
              rw [hpd] at hp
              simp only [Option.map_some, Option.some.injEq] at hp
              unfold applyOutputs at happ
              split at happ
              · cases happ
              · rw [hpd] at happ
                simp only at happ
                split at happ
                · cases happ
                · rename_i hlen
                  simp only [Decidable.not_not] at hlen
                  have hl : b.length = p.txs.length := by
                    rw [hp]; simp [view, hR.sizes d' p hpd]
                  have h1 := (List.getElem?_eq_some_iff.mp hi).1
                  have h2 := List.getElem?_eq_none_iff.mp hf
                  omega
          | some f =>
            cases f with
            | false => rfl
            | true => exact absurd hsx (hns i t hi hf)
        · exfalso
          refine hR'.disjoint x ⟨hx, (hR'.held x).mpr ⟨d', b', ?_, hgs'⟩⟩
          simp [hne, hb']
    · exact ⟨i, t, hi, Or.inr ⟨hf, hcr⟩⟩

/-- C12 is violated without that assumption: aborting a batch that was refused makes an id
unspent although the batch never held it. -/
theorem C12_abort_violated :
    ¬ ∀ (c : Cfg) (uhs : HSet) (rs : List Req) (as : List Resp) (s s' : State)
        (fs : List Bool) (d : Hash) (b : List InFlight),
      run c (State.init c uhs) rs = some (s, as) →
      Always c (fun l r _ => Obedient l r) (Ledger.init uhs) rs as →
      ((Ledger.init uhs).after c rs as).pending d = some b →
      Obedient ((Ledger.init uhs).after c rs as) (.apply fs d) →
      applyOutputs c s fs d = some (s', true) →
      ∀ x, s'.uhs x = true → s.uhs x = false →
        ∃ (i : Nat) (t : InFlight), b[i]? = some t ∧
          ((t.granted = true ∧ fs[i]? = some false ∧ Spends c t.tx x) ∨
            (fs[i]? = some true ∧ Creates c t.tx x)) := by
  intro H
  have hr : run exCfg (State.init exCfg exUhs) [.lock [tA] dA, .lock [tB] dB] =
      some ((lockOutputs exCfg (lockOutputs exCfg (State.init exCfg exUhs) [tA] dA).1 [tB] dB).1,
        [.lock (some [true]), .lock (some [false])]) := by
    have h1 : (lockOutputs exCfg (State.init exCfg exUhs) [tA] dA).2 = some [true] := by decide
    have h2 : (lockOutputs exCfg (lockOutputs exCfg (State.init exCfg exUhs) [tA] dA).1 [tB] dB).2 =
      some [false] := by decide
    simp [run, step, h1, h2]
  have neq : dA ≠ dB := by decide
  have neq' : dB ≠ dA := by decide
  have ha : ((applyOutputs exCfg
      (lockOutputs exCfg (lockOutputs exCfg (State.init exCfg exUhs) [tA] dA).1 [tB] dB).1
      [false] dB).map fun r => (r.1.uhs coinX, r.2)) = some (true, true) := by decide
  rw [Option.map_eq_some_iff] at ha
  obtain ⟨⟨s', ok⟩, ha1, ha2⟩ := ha
  simp only [Prod.mk.injEq] at ha2
  obtain ⟨ha2, rfl⟩ := ha2
  obtain ⟨i, t, hi, h⟩ := H exCfg exUhs _ _ _ s' [false] dB [⟨tB, false⟩] hr
    (by simp [Always, Obedient]) (by simp [Ledger.after, Ledger.next, Ledger.init, neq'])
    (by simp [Ledger.after, Ledger.next, Ledger.init, Obedient, neq', List.getElem?_cons])
    ha1 coinX ha2 (by decide)
  rcases i with _ | i
  · simp at hi h
    subst hi
    simp at h
  · simp at hi

/-! #### C13 -/

/-- **C13, partial.** A lock request re-delivered while its batch is in flight returns the
same answer and changes nothing, whatever happened in between. Missing: re-delivery after the
batch was applied (`C13_relock_violated`). -/
theorem C13_lock_again_partial (c : Cfg) (s s1 s2 : State) (txs txs' : List CompactTx) (d : Hash)
    (r : List Bool) (h : lockOutputs c s txs d = (s1, some r)) (rs : List Req) (as : List Resp)
    (hrun : run c s1 rs = some (s2, as)) (hrs : ∀ fs, .apply fs d ∉ rs) (hstop : .stop ∉ rs) :
    lockOutputs c s2 txs' d = (s2, some r) := by
  have hs1 : s1.running = true ∧ ∃ p, s1.prepared d = some p ∧ p.results = r := by
    unfold lockOutputs at h
    cases hr : s.running with
    | false => simp [hr] at h
    | true =>
      simp only [hr, Bool.not_true, Bool.false_eq_true, if_false] at h
      cases hd : s.prepared d with
      | some p =>
        rw [hd] at h
        simp only [Prod.mk.injEq, Option.some.injEq] at h
        obtain ⟨rfl, rfl⟩ := h
        exact ⟨hr, p, hd, rfl⟩
      | none =>
        rw [hd] at h
        simp only [Prod.mk.injEq, Option.some.injEq] at h
        obtain ⟨rfl, rfl⟩ := h
        exact ⟨by simp only; rw [(lockLoop_frame c s txs).1, hr], ⟨txs, _⟩, by simp, rfl⟩
  obtain ⟨hrn, p, hp, rfl⟩ := hs1
  have := run_keeps c (fun s => s.running = true ∧ s.prepared d = some p) rs
    (by
      rintro s r s' a hm ⟨h1, h2⟩ hst
      refine ⟨?_, step_prepared c s r s' a d p hst h2 ?_⟩
      · rw [step_running c s r s' a hst (by rintro rfl; exact hstop hm), h1]
      · rintro fs rfl; exact hrs fs hm)
    s1 s2 as ⟨hrn, hp⟩ hrun
  simp [lockOutputs, this.1, this.2]

/-- **C13, partial.** An apply request re-delivered before its batch is discarded succeeds
and changes nothing. Missing: re-delivery after the discard (`C13_reapply_violated`). -/
theorem C13_apply_again_partial (c : Cfg) (s s1 s2 : State) (fs fs' : List Bool) (d : Hash)
    (h : applyOutputs c s fs d = some (s1, true)) (rs : List Req) (as : List Resp)
    (hrun : run c s1 rs = some (s2, as)) (hlock : ∀ txs, .lock txs d ∉ rs)
    (hdis : .discard d ∉ rs) (hstop : .stop ∉ rs) :
    applyOutputs c s2 fs' d = some (s2, true) := by
  have hs1 : s1.running = true ∧ s1.prepared d = none ∧ s1.applied d = true := by
    unfold applyOutputs at h
    cases hr : s.running with
    | false => simp [hr] at h
    | true =>
      simp only [hr, Bool.not_true, Bool.false_eq_true, if_false] at h
      cases hd : s.prepared d with
      | none =>
        rw [hd] at h
        simp only at h
        split at h
        · rename_i hap; cases h; exact ⟨hr, hd, hap⟩
        · cases h
      | some p =>
        rw [hd] at h
        simp only at h
        split at h
        · cases h
        · cases h
          exact ⟨by simp only; rw [(applyLoop_frame c s p.txs fs).1, hr], by simp, by simp⟩
  have := run_keeps c (fun s => s.running = true ∧ s.prepared d = none ∧ s.applied d = true) rs
    (by
      rintro s r s' a hm ⟨h1, h2, h3⟩ hst
      refine ⟨?_, step_unprepared c s r s' a d hst h2 ?_, (step_applied c s r s' a d hst).1 h3 ?_⟩
      · rw [step_running c s r s' a hst (by rintro rfl; exact hstop hm), h1]
      · rintro txs rfl; exact hlock txs hm
      · rintro rfl; exact hdis hm)
    s1 s2 as hs1 hrun
  simp [applyOutputs, this.1, this.2.1, this.2.2]

/-- C13. A discard request re-delivered succeeds and changes nothing. -/
theorem C13_discard_again (c : Cfg) (s s1 s2 : State) (d : Hash)
    (h : discardDtx s d = (s1, true)) (rs : List Req) (as : List Resp)
    (hrun : run c s1 rs = some (s2, as)) (hrs : ∀ fs, .apply fs d ∉ rs) (hstop : .stop ∉ rs) :
    discardDtx s2 d = (s2, true) := by
  have hs1 : s1.running = true ∧ s1.applied d = false := by
    unfold discardDtx at h
    split at h
    · rename_i hr; cases h; exact ⟨hr, by simp [HSet.del]⟩
    · cases h
  have := run_keeps c (fun s => s.running = true ∧ s.applied d = false) rs
    (by
      rintro s r s' a hm ⟨h1, h2⟩ hst
      refine ⟨?_, (step_applied c s r s' a d hst).2 h2 ?_⟩
      · rw [step_running c s r s' a hst (by rintro rfl; exact hstop hm), h1]
      · rintro fs rfl; exact hrs fs hm)
    s1 s2 as hs1 hrun
  have e : s2.applied.del d = s2.applied := by
    funext x
    simp only [HSet.del]
    split
    · rename_i hx; rw [hx, this.2]
    · rfl
  unfold discardDtx
  rw [if_pos this.1, e]

/-- C13 is violated for lock requests delivered again after the batch was applied: the inputs
of the finished batch are locked once more, so they are no longer unspent. -/
theorem C13_relock_violated :
    ¬ ∀ (c : Cfg) (s s1 s2 s3 : State) (txs : List CompactTx) (fs : List Bool) (d : Hash)
        (r : List Bool), lockOutputs c s txs d = (s1, some r) →
      applyOutputs c s1 fs d = some (s2, true) → lockOutputs c s2 txs d = (s3, some r) →
      ∀ x, s3.uhs x = s2.uhs x := by
  intro H
  have h1 : (lockOutputs exCfg (State.init exCfg exUhs) [tA] dA).2 = some [true] := by decide
  have h2 : ((applyOutputs exCfg (lockOutputs exCfg (State.init exCfg exUhs) [tA] dA).1 [false]
      dA).map fun q => ((lockOutputs exCfg q.1 [tA] dA).2, q.1.uhs coinX,
        (lockOutputs exCfg q.1 [tA] dA).1.uhs coinX, q.2)) =
      some (some [true], true, false, true) := by decide
  rw [Option.map_eq_some_iff] at h2
  obtain ⟨⟨s2, ok⟩, h3, h4⟩ := h2
  simp only [Prod.mk.injEq] at h4
  obtain ⟨h5, h6, h7, rfl⟩ := h4
  have := H exCfg (State.init exCfg exUhs) _ s2 _ [tA] [false] dA [true]
    (Prod.ext rfl h1) h3 (Prod.ext rfl h5) coinX
  rw [h6, h7] at this
  cases this

/-- C13 is violated for apply requests delivered again after the batch was discarded: the
shard process exits. -/
theorem C13_reapply_violated :
    ∃ (c : Cfg) (uhs : HSet) (d : Hash) (txs : List CompactTx),
      (run c (State.init c uhs) [.lock txs d, .apply [true] d, .discard d]).isSome = true ∧
      run c (State.init c uhs) [.lock txs d, .apply [true] d, .discard d, .apply [true] d] = none := by
  refine ⟨exCfg, exUhs, dA, [tA], by decide, ?_⟩
  have h : (run exCfg (State.init exCfg exUhs)
    [.lock [tA] dA, .apply [true] dA, .discard dA, .apply [true] dA]).isNone = true := by decide
  exact Option.isNone_iff_eq_none.mp h

example : ∃ s1 r, lockOutputs exCfg (State.init exCfg exUhs) [tA] dA = (s1, some r) := ⟨_, _, rfl⟩

/-! #### C14 -/

/-- **C14.** For a new batch on a running shard: the shard answers for every transaction;
transaction `i` is granted exactly when its attestations suffice and each of its inputs owned
by this shard is unspent and not taken by an earlier granted transaction of the batch; exactly
the owned inputs of granted transactions move from unspent to locked. -/
theorem C14_lock_decision (c : Cfg) (s s' : State) (txs : List CompactTx) (d : Hash)
    (res : List Bool) (hnew : s.prepared d = none)
    (h : lockOutputs c s txs d = (s', some res)) :
    res.length = txs.length ∧
    (∀ (i : Nat) (t : CompactTx), txs[i]? = some t →
      (res[i]? = some true ↔ c.attested t = true ∧ ∀ x, c.owns x = true → x ∈ t.inputs →
        s.uhs x = true ∧ ∀ (j : Nat) (u : CompactTx), j < i → txs[j]? = some u →
          res[j]? = some true → x ∉ u.inputs)) ∧
    (∀ x, (s'.uhs x = true ↔ s.uhs x = true ∧ ¬ ∃ (j : Nat) (u : CompactTx), txs[j]? = some u ∧
        res[j]? = some true ∧ c.owns x = true ∧ x ∈ u.inputs) ∧
      (s'.locked x = true ↔ s.locked x = true ∨ ∃ (j : Nat) (u : CompactTx), txs[j]? = some u ∧
        res[j]? = some true ∧ c.owns x = true ∧ x ∈ u.inputs)) := by
  unfold lockOutputs at h
  split at h
  · cases h
  rename_i hrun
  clear hrun
  rw [hnew] at h
  simp only [Prod.mk.injEq, Option.some.injEq] at h
  obtain ⟨rfl, rfl⟩ := h
  have hidx : ∀ x, GrantedSpend c (view txs (lockLoop c s txs).2) x ↔
      ∃ (j : Nat) (u : CompactTx), txs[j]? = some u ∧ (lockLoop c s txs).2[j]? = some true ∧
        c.owns x = true ∧ x ∈ u.inputs := by
    intro x
    constructor
    · rintro ⟨t, ht, hg, h1, h2⟩
      obtain ⟨j, hj⟩ := List.getElem?_of_mem ht
      simp only [view, List.getElem?_map, Option.map_eq_some_iff, List.getElem?_zip_eq_some,
        Prod.exists] at hj
      obtain ⟨u, g, ⟨hu, hgj⟩, rfl⟩ := hj
      exact ⟨j, u, hu, by rw [hgj]; exact congrArg some hg, h1, h2⟩
    · rintro ⟨j, u, hu, hg, h1, h2⟩
      refine ⟨⟨u, true⟩, ?_, rfl, h1, h2⟩
      refine List.mem_of_getElem? (i := j) ?_
      simp only [view, List.getElem?_map, Option.map_eq_some_iff, List.getElem?_zip_eq_some,
        Prod.exists]
      exact ⟨u, true, ⟨hu, hg⟩, rfl⟩
  refine ⟨lockLoop_length c s txs, ?_, ?_⟩
  · clear hidx hnew
    induction txs generalizing s with
    | nil => intro i t h; simp at h
    | cons t0 ts ih =>
      intro i t hi
      cases i with
      | zero =>
        simp only [List.getElem?_cons_zero, Option.some.injEq] at hi
        subst hi
        simp only [lockLoop, List.getElem?_cons_zero, Option.some.injEq]
        rw [checkAndLockTx_granted]
        constructor
        · rintro ⟨a, b⟩
          exact ⟨a, fun x h1 h2 => ⟨b x ⟨h1, h2⟩, by simp⟩⟩
        · rintro ⟨a, b⟩
          exact ⟨a, fun x ⟨h1, h2⟩ => (b x h1 h2).1⟩
      | succ i =>
        simp only [List.getElem?_cons_succ] at hi
        simp only [lockLoop, List.getElem?_cons_succ]
        rw [ih (checkAndLockTx c s t0).1 i t hi]
        constructor
        · rintro ⟨a, b⟩
          refine ⟨a, fun x h1 h2 => ?_⟩
          obtain ⟨b1, b2⟩ := b x h1 h2
          obtain ⟨b3, b4⟩ := (checkAndLockTx_sets c s t0 x).1.mp b1
          refine ⟨b3, ?_⟩
          rintro (_ | j) u hj hu hg
          · simp only [List.getElem?_cons_zero, Option.some.injEq] at hu hg
            subst hu
            exact fun hm => b4 ⟨hg, h1, hm⟩
          · exact b2 j u (by omega) (by simpa using hu) (by simpa using hg)
        · rintro ⟨a, b⟩
          refine ⟨a, fun x h1 h2 => ?_⟩
          obtain ⟨b1, b2⟩ := b x h1 h2
          refine ⟨(checkAndLockTx_sets c s t0 x).1.mpr ⟨b1, ?_⟩, ?_⟩
          · rintro ⟨hg, _, hm⟩
            exact b2 0 t0 (by omega) rfl (by simpa using hg) hm
          · intro j u hj hu hg
            exact b2 (j + 1) u (by omega) (by simpa using hu) (by simpa using hg)
  · intro x
    rw [← hidx x]
    exact lockLoop_sets c s txs x

example : (lockOutputs exCfg (State.init exCfg exUhs)
    [tA, exT 23 [coinX, coinY] [], exT 24 [coinY] []] dA).2 = some [true, false, true] := by decide

/-! #### C15 -/

/-- **C15, partial.** Under the assumptions of `C11_spent_once_partial` the unspent query
answers yes exactly for the coins of the ledger: created (or preseeded) and not spent by a
completed transaction. Missing: as in C11 (`C15_unspent_violated`). -/
theorem C15_unspent_partial (c : Cfg) (uhs : HSet) (rs : List Req) (as : List Resp) (s' : State)
    (hrun : run c (State.init c uhs) rs = some (s', as))
    (hD : Always c (fun l r _ => Disciplined c l r) (Ledger.init uhs) rs as) (x : Hash) :
    checkUnspent s' x = true ↔ ((Ledger.init uhs).after c rs as).coins x := by
  rw [(refines_run c rs _ _ as s' (refines_init c uhs) hrun hD).1.coins x]
  simp [checkUnspent]

/-- C15 is violated: a refused transaction is aborted, then the transaction that holds the
coin completes; the shard still reports the spent coin as unspent. -/
theorem C15_unspent_violated :
    ¬ ∀ (c : Cfg) (uhs : HSet) (rs : List Req) (as : List Resp) (s' : State),
      run c (State.init c uhs) rs = some (s', as) →
      Always c (fun l r _ => Obedient l r) (Ledger.init uhs) rs as →
      Always c (fun l r _ => NeverReborn c l r) (Ledger.init uhs) rs as →
      ∀ x, checkUnspent s' x = true → ((Ledger.init uhs).after c rs as).coins x := by
  intro H
  have h0 : ((run exCfg (State.init exCfg exUhs)
      [.lock [tA] dA, .lock [tB] dB, .apply [false] dB, .apply [true] dA]).map
        fun q => (q.2, checkUnspent q.1 coinX)) =
      some ([.lock (some [true]), .lock (some [false]), .apply true, .apply true], true) := by decide
  rw [Option.map_eq_some_iff] at h0
  obtain ⟨⟨s', as⟩, h1, h2⟩ := h0
  simp only [Prod.mk.injEq] at h2
  obtain ⟨rfl, h2⟩ := h2
  have neq : dA ≠ dB := by decide
  have neq' : dB ≠ dA := by decide
  have e1 : (fill 32 10 : Hash) ≠ coinX ∧ (fill 32 10 : Hash) ≠ coinY := by decide
  have e2 : coinX ≠ fill 32 10 := by decide
  have := H exCfg exUhs _ _ s' h1
    (by simp [Always, Ledger.init, Ledger.next, Obedient, neq, neq', List.getElem?_cons])
    (by simp [Always, Ledger.init, Ledger.next, NeverReborn, neq, neq', NewBatch, Creates, tA, exT,
      exUhs, bear, e1, exCfg_owns])
    coinX h2
  simp [Ledger.after, Ledger.init, Ledger.next, neq, neq', settle, takeEffect, Spends, Creates, tA,
    exT, exCfg_owns, e2] at this

/-- C15. The transaction query is answered from a bounded set (C32) of the decided
transactions of this shard, in the order they were decided, for every history. -/
theorem C15_txid_cache (c : Cfg) (uhs : HSet) (rs : List Req) (as : List Resp) (s' : State)
    (hrun : run c (State.init c uhs) rs = some (s', as)) (id : Hash) :
    checkTxId s' id = ((CacheSet.new c.cacheSize).addAll
      (decidedIds c (Ledger.init uhs) rs as)).1.contains id := by
  have := tracks_run c rs (Ledger.init uhs) (State.init c uhs) as s'
    ⟨by simp [Ledger.init, State.init], by simp [State.init]⟩ hrun
  simp only [checkTxId, this, State.init]

/-- **C15, partial.** The transaction query answers yes only for transactions of an applied
batch. Missing: that the transaction was completed, not aborted (`C15_txid_violated`). -/
theorem C15_txid_partial (c : Cfg) (uhs : HSet) (rs : List Req) (as : List Resp) (s' : State)
    (hrun : run c (State.init c uhs) rs = some (s', as)) (id : Hash)
    (h : checkTxId s' id = true) : id ∈ decidedIds c (Ledger.init uhs) rs as := by
  rw [C15_txid_cache c uhs rs as s' hrun id, C32_contents_partial] at h
  have h := List.mem_of_mem_drop h
  simp only [reportedNew, List.mem_map, List.mem_filter, Prod.exists] at h
  obtain ⟨a, b, ⟨hm, _⟩, rfl⟩ := h
  exact (List.of_mem_zip hm).1

/-- C15 is violated: the transaction query answers yes for a transaction that was aborted
and never completed. -/
theorem C15_txid_violated :
    ¬ ∀ (c : Cfg) (uhs : HSet) (rs : List Req) (as : List Resp) (s' : State),
      run c (State.init c uhs) rs = some (s', as) →
      ∀ id, checkTxId s' id = true → Completed c (Ledger.init uhs) id rs as := by
  intro H
  have h0 : ((run exCfg (State.init exCfg exUhs) [.lock [tA] dA, .apply [false] dA]).map
        fun q => (q.2, checkTxId q.1 tA.id)) =
      some ([.lock (some [true]), .apply true], true) := by decide
  rw [Option.map_eq_some_iff] at h0
  obtain ⟨⟨s', as⟩, h1, h2⟩ := h0
  simp only [Prod.mk.injEq] at h2
  obtain ⟨rfl, h2⟩ := h2
  have := H exCfg exUhs _ _ s' h1 tA.id h2
  simp [Completed, Ledger.next, Ledger.init, List.getElem?_cons] at this

end Verif.LockingShard
