import Verif.Parsec.BrokerAnswers

/-!
# The PArSEC broker seen by one ticket

Without recovery an event concerns one ticket, and what happens to it depends on
nothing else (`step_next`).
-/
namespace Verif.Parsec.Broker

/-- Unchanged, no requests, no report of a rollback. -/
def stay (x : Option Ticket) : Option Ticket × List Call × Bool := (x, [], false)

/-- What an event does to its ticket: the ticket afterwards, the requests, and
whether the user is told that it is rolled back. -/
def next (e : Event) (x : Option Ticket) : Option Ticket × List Call × Bool :=
  match e, x with
  | .ticketNumber _ (some _), x => stay (some (x.getD {}))
  | .tryLock _ _ _, some tk => stay (some (if tk.state = .aborted then {} else tk))
  | .foundKey cb t k ty (some i) ok, some tk =>
    if tk.state = .begun then
      let l := touch tk.shards i
      let sh := (l.lookup i).getD {}
      if (cached sh k ty).isSome then stay (some { tk with shards := l })
      else (some { tk with shards := update l i fun sh => { sh with keys := locking sh.keys k ty } },
        if ok then [.tryLock i t k ty sh.keys.isEmpty cb] else [], false)
    else stay (some tk)
  | .locked _ _ k i (.value v), some tk =>
    let l := touch tk.shards i
    match ((l.lookup i).getD {}).keys.lookup k with
    | none => stay (some { tk with shards := l })
    | some q =>
      if q.locked then stay (some { tk with shards := l })
      else stay (some { tk with shards := update l i fun sh => { sh with keys := sh.keys.map fun q =>
          if q.1 = k then (k, { q.2 with locked := true, value := some v }) else q } })
  | .commit cb t u p, some tk =>
    let r := tk.commit t u ⟨cb, false⟩ p
    (some r.1, r.2.1, false)
  | .prepared c t i r p, some tk =>
    if tk.state = .begun then
      let r := tk.handlePrepare c t i r p
      (some r.1, r.2.1, false)
    else stay (some tk)
  | .committed _ _ i r _, some tk =>
    if tk.state = .prepared then
      let l := touch tk.shards i
      if stateOf l i ≠ .committing then stay (some { tk with shards := l })
      else if r.isSome then stay (some tk)
      else
        let l := setState l i .committed
        if l.all fun e => e.2.state = .committed then stay (some { state := .committed, shards := l })
        else stay (some { tk with shards := l })
    else stay (some tk)
  | .rollback cb t p, some tk =>
    if tk.state = .begun then
      if tk.shards.isEmpty then (some { tk with state := .aborted }, [], true)
      else
        let r := tk.rollback t ⟨cb, false⟩ p
        (some r.1, r.2.1, false)
    else stay (some tk)
  | .rolledBack _ _ i r _, some tk =>
    if tk.state = .begun then
      let l := touch tk.shards i
      if stateOf l i ≠ .rollingBack then stay (some { tk with shards := l })
      else if r.isSome then stay (some tk)
      else
        let l := update l i fun _ => { state := .rolledBack, keys := [] }
        if l.all fun e => e.2.state = .rolledBack then (some { state := .aborted, shards := l }, [], true)
        else stay (some { tk with shards := l })
    else stay (some tk)
  | .finish cb t p, some tk =>
    match tk.state with
    | .aborted => stay none
    | .committed =>
      let r := tk.finish t ⟨cb, false⟩ p
      (some r.1, r.2.1, false)
    | _ => stay (some tk)
  | .finished _ _ i r, some tk =>
    if tk.state = .committed then
      let l := touch tk.shards i
      if stateOf l i ≠ .finishing then stay (some { tk with shards := l })
      else if r.isSome then stay (some tk)
      else
        let l := setState l i .finished
        if l.all fun e => e.2.state = .finished then stay none
        else stay (some { tk with shards := l })
    else stay (some tk)
  | _, x => stay x

theorem set_self {s : State} {t : Tn} {tk : Ticket} (h : s.tickets.lookup t = some tk) (x : Tn) :
    (s.set t tk).tickets.lookup x = s.tickets.lookup x := by
  rw [lookup_set]
  split
  · rename_i hx
    rw [hx, h]
  · rfl

/-- What an event does: to its ticket what `next` says, to the others nothing. -/
structure Steps (s : State) (e : Event) (t : Tn) (r : State × Out) : Prop where
  own : r.1.tickets.lookup t = (next e (s.tickets.lookup t)).1
  other : ∀ x, x ≠ t → r.1.tickets.lookup x = s.tickets.lookup x
  calls : r.2.calls = (next e (s.tickets.lookup t)).2.1
  said : r.2.said.any (Said.aborts t) = (next e (s.tickets.lookup t)).2.2
  saidOther : ∀ x, x ≠ t → r.2.said.any (Said.aborts x) = false

theorem steps_same {s : State} {e : Event} {t : Tn} {o : Out} (hn : next e (s.tickets.lookup t) = stay (s.tickets.lookup t))
    (hc : o.calls = []) (hs : ∀ x, o.said.any (Said.aborts x) = false) : Steps s e t (s, o) where
  own := by rw [hn]; rfl
  other := fun _ _ => rfl
  calls := by rw [hn, hc]; rfl
  said := by rw [hn, hs]; rfl
  saidOther := fun x _ => hs x

theorem steps_set {s : State} {e : Event} {t : Tn} {o : Out} {tk : Ticket} {b : Bool}
    (hn : next e (s.tickets.lookup t) = (some tk, o.calls, b)) (hs : o.said.any (Said.aborts t) = b)
    (hs' : ∀ x, x ≠ t → o.said.any (Said.aborts x) = false) : Steps s e t (s.set t tk, o) where
  own := by rw [hn, lookup_set, if_pos rfl]
  other := fun x hx => by rw [lookup_set, if_neg hx]
  calls := by rw [hn]
  said := by rw [hn, hs]
  saidOther := hs'

theorem steps_erase {s : State} {e : Event} {t : Tn} {o : Out}
    (hn : next e (s.tickets.lookup t) = stay none) (hc : o.calls = [])
    (hs : ∀ x, o.said.any (Said.aborts x) = false) : Steps s e t (s.erase t, o) where
  own := by rw [hn, lookup_erase, if_pos rfl]; rfl
  other := fun x hx => by rw [lookup_erase, if_neg hx]
  calls := by rw [hn, hc]; rfl
  said := by rw [hn, hs]; rfl
  saidOther := fun x _ => hs x

theorem no_commit (cb : Nat) (t : Tn) (r : Option Fail) (x : Tn) :
    [Said.commit cb t r].any (Said.aborts x) = false := by simp [Said.aborts]
theorem no_lock (cb : Nat) (t : Tn) (r : Except Fail Value) (x : Tn) :
    [Said.lock cb t r].any (Said.aborts x) = false := by simp [Said.aborts]
theorem no_finish (cb : Nat) (t : Tn) (r : Option Fail) (x : Tn) :
    [Said.finish cb t r].any (Said.aborts x) = false := by simp [Said.aborts]
theorem no_rollback (cb : Nat) (t : Tn) (e : Fail) (x : Tn) :
    [Said.rollback cb t (some e)].any (Said.aborts x) = false := by simp [Said.aborts]
theorem yes_rollback (cb : Nat) (t : Tn) : [Said.rollback cb t none].any (Said.aborts t) = true := by
  simp [Said.aborts]
theorem no_rollback_other {cb : Nat} {t x : Tn} (h : x ≠ t) (r : Option Fail) :
    [Said.rollback cb t r].any (Said.aborts x) = false := by
  cases r <;> simp [Said.aborts, Ne.symm h]

/-- Whether a request belongs to recovery. -/
def Event.plain : Event → Bool
  | .prepared c _ _ _ _ => !c.recovery
  | .committed c _ _ _ _ => !c.recovery
  | .rolledBack c _ _ _ _ => !c.recovery
  | .finished c _ _ _ => !c.recovery
  | .recover _ => false
  | .gotTickets _ _ _ _ => false
  | _ => true

theorem Plain.plain {h : Hist} {e : Event} (hp : Plain h e) : e.plain = true := by
  cases e <;> simp [Plain, Event.plain] at hp ⊢ <;> exact hp.1

theorem step_next {s s' : State} {e : Event} {o : Out} {t : Tn} (hp : e.plain = true)
    (ht : e.ticket = some t) (hs : step s e = some (s', o)) : Steps s e t (s', o) := by
  cases e with
  | ticketNumber cb r =>
    cases r with
    | none => cases ht
    | some q =>
      obtain ⟨n, m⟩ := q
      cases ht
      simp only [step, Option.some.injEq] at hs
      rw [← hs]
      unfold handleTicketNumber
      dsimp only
      have hl : (if s.highest < m then { s with highest := m } else s).tickets = s.tickets := by split <;> rfl
      generalize (if s.highest < m then { s with highest := m } else s) = s1 at *
      rw [hl]
      cases hx : s.tickets.lookup t with
      | none =>
        refine ⟨?_, ?_, ?_, ?_, ?_⟩
        · simp only [next, lookup_set, if_true, stay, hx, Option.getD_none]
        · intro x hxn; simp only [lookup_set, if_neg hxn, hl]
        · simp [next, stay]
        · simp [next, stay, Said.aborts]
        · simp [Said.aborts]
      | some tk =>
        refine ⟨?_, ?_, ?_, ?_, ?_⟩
        · simp only [next, stay, hx, Option.getD_some, hl]
        · intro x _; simp only [hl]
        · simp [next, stay]
        · simp [next, stay, Said.aborts]
        · simp [Said.aborts]
  | tryLock cb t' ok =>
    cases ht
    simp only [step, Option.some.injEq] at hs
    rw [← hs]
    unfold tryLock
    cases hx : s.tickets.lookup t with
    | none => exact steps_same (by rw [hx]; rfl) rfl (no_lock _ _ _)
    | some tk =>
      dsimp only
      have hsaid : ∀ x, ((if ok = true then [] else
          [Said.lock cb t (.error (.broker .directoryUnreachable))]) : List Said).any (Said.aborts x) = false := by
        intro x; cases ok <;> simp [Said.aborts]
      cases hst : tk.state with
      | prepared => exact steps_same (by rw [hx]; simp [next, stay, hst]) rfl (no_lock _ _ _)
      | committed => exact steps_same (by rw [hx]; simp [next, stay, hst]) rfl (no_lock _ _ _)
      | begun => exact steps_same (by rw [hx]; simp [next, stay, hst]) rfl hsaid
      | aborted => exact steps_set (b := false) (by rw [hx]; simp [next, stay, hst]) (hsaid _) (fun x _ => hsaid x)
  | foundKey cb t' k ty r ok =>
    cases ht
    simp only [step, Option.some.injEq] at hs
    rw [← hs]
    unfold handleFindKey
    cases hx : s.tickets.lookup t with
    | none => exact steps_same (by rw [hx]; cases r <;> rfl) rfl (no_lock _ _ _)
    | some tk =>
      dsimp only
      cases hst : tk.state with
      | prepared => exact steps_same (by rw [hx]; cases r <;> simp [next, stay, hst]) rfl (no_lock _ _ _)
      | committed => exact steps_same (by rw [hx]; cases r <;> simp [next, stay, hst]) rfl (no_lock _ _ _)
      | aborted => exact steps_same (by rw [hx]; cases r <;> simp [next, stay, hst]) rfl (no_lock _ _ _)
      | begun =>
        cases r with
        | none => exact steps_same (by rw [hx]; simp [next, stay]) rfl (no_lock _ _ _)
        | some i =>
          dsimp only
          cases hc : cached ((touch tk.shards i).lookup i |>.getD {}) k ty with
          | some v => exact steps_set (b := false) (by rw [hx]; simp [next, stay, hst, hc]) (no_lock _ _ _ _) (fun x _ => no_lock _ _ _ x)
          | none =>
            cases ok with
            | true => exact steps_set (b := false) (by rw [hx]; simp [next, hst, hc]) (by simp) (by simp)
            | false => exact steps_set (b := false) (by rw [hx]; simp [next, hst, hc]) (no_lock _ _ _ _) (fun x _ => no_lock _ _ _ x)
  | locked cb t' k i r =>
    cases ht
    simp only [step, Option.some.injEq] at hs
    rw [← hs]
    cases r with
    | error e => exact steps_same (by cases s.tickets.lookup t <;> rfl) rfl (no_lock _ _ _)
    | value v =>
      unfold handleLock
      cases hx : s.tickets.lookup t with
      | none => exact steps_same (by rw [hx]; rfl) rfl (no_lock _ _ _)
      | some tk =>
        dsimp only
        cases hk : ((touch tk.shards i).lookup i |>.getD {}).keys.lookup k with
        | none => exact steps_set (b := false) (by rw [hx]; simp [next, stay, hk]) (no_lock _ _ _ _) (fun x _ => no_lock _ _ _ x)
        | some q =>
          dsimp only
          cases hq : q.locked with
          | true =>
            simp only [if_true]
            exact steps_set (b := false) (by rw [hx]; simp [next, stay, hk, hq]) (no_lock _ _ _ _) (fun x _ => no_lock _ _ _ x)
          | false =>
            simp only [Bool.false_eq_true, if_false]
            exact steps_set (b := false) (by rw [hx]; simp [next, stay, hk, hq]) (no_lock _ _ _ _) (fun x _ => no_lock _ _ _ x)
  | commit cb t' u p =>
    cases ht
    simp only [step, Option.some.injEq] at hs
    rw [← hs]
    unfold commit
    cases hx : s.tickets.lookup t with
    | none =>
      dsimp only
      rw [commitDone_plain rfl]
      exact steps_same (by rw [hx]; rfl) rfl (no_commit _ _ _)
    | some tk =>
      dsimp only
      rw [commit_result rfl]
      refine steps_set (b := false) (by rw [hx]; rfl) ?_ (fun x _ => ?_) <;> (dsimp only; split <;> simp [Said.aborts])
  | prepared c t' i r p =>
    cases ht
    have hc : c.recovery = false := by simpa [Event.plain] using hp
    simp only [step, Option.some.injEq] at hs
    rw [← hs]
    unfold handlePrepare
    cases hx : s.tickets.lookup t with
    | none =>
      dsimp only
      rw [commitDone_plain hc]
      exact steps_same (by rw [hx]; rfl) rfl (no_commit _ _ _)
    | some tk =>
      dsimp only
      cases hst : tk.state with
      | prepared => dsimp only; rw [commitDone_plain hc]; exact steps_same (by rw [hx]; simp [next, stay, hst]) rfl (no_commit _ _ _)
      | committed => dsimp only; rw [commitDone_plain hc]; exact steps_same (by rw [hx]; simp [next, stay, hst]) rfl (no_commit _ _ _)
      | aborted => dsimp only; rw [commitDone_plain hc]; exact steps_same (by rw [hx]; simp [next, stay, hst]) rfl (no_commit _ _ _)
      | begun =>
        dsimp only
        rw [commit_result hc]
        refine steps_set (b := false) (by rw [hx]; simp [next, hst]) ?_ (fun x _ => ?_) <;> (dsimp only; split <;> simp [Said.aborts])
  | committed c t' i r p =>
    cases ht
    have hc : c.recovery = false := by simpa [Event.plain] using hp
    simp only [step, Option.some.injEq] at hs
    rw [← hs]
    unfold handleCommit
    cases hx : s.tickets.lookup t with
    | none =>
      dsimp only
      rw [commitDone_plain hc]
      exact steps_same (by rw [hx]; rfl) rfl (no_commit _ _ _)
    | some tk =>
      dsimp only
      cases hst : tk.state with
      | begun => dsimp only; rw [commitDone_plain hc]; exact steps_same (by rw [hx]; simp [next, stay, hst]) rfl (no_commit _ _ _)
      | committed => dsimp only; rw [commitDone_plain hc]; exact steps_same (by rw [hx]; simp [next, stay, hst]) rfl (no_commit _ _ _)
      | aborted => dsimp only; rw [commitDone_plain hc]; exact steps_same (by rw [hx]; simp [next, stay, hst]) rfl (no_commit _ _ _)
      | prepared =>
        dsimp only
        by_cases h1 : stateOf (touch tk.shards i) i ≠ .committing
        · rw [if_pos h1, commitDone_plain hc]
          exact steps_set (b := false) (by rw [hx]; simp [next, stay, hst, h1]) (no_commit _ _ _ _) (fun x _ => no_commit _ _ _ x)
        · rw [if_neg h1]
          by_cases h2 : r.isSome = true
          · rw [if_pos h2, commitDone_plain hc]
            exact steps_same (by rw [hx]; simp only [next, hst, if_true, h1, if_false, h2]) rfl (no_commit _ _ _)
          · rw [if_neg h2]
            split
            · rename_i h3
              rw [commitDone_plain hc]
              exact steps_set (b := false) (by rw [hx]; simp only [next, hst, if_true, h1, if_false, h2, h3]; rfl) (no_commit _ _ _ _) (fun x _ => no_commit _ _ _ x)
            · rename_i h3
              exact steps_set (b := false) (by rw [hx]; simp only [next, hst, if_true, h1, if_false, h2, h3]; simp [stay]) (by simp) (by simp)
  | rollback cb t' p =>
    cases ht
    simp only [step, Option.some.injEq] at hs
    rw [← hs]
    unfold rollback
    cases hx : s.tickets.lookup t with
    | none =>
      dsimp only
      rw [rollbackDone_plain rfl]
      exact steps_same (by rw [hx]; rfl) rfl (no_rollback _ _ _)
    | some tk =>
      dsimp only
      cases hst : tk.state with
      | prepared => dsimp only; rw [rollbackDone_plain rfl]; exact steps_same (by rw [hx]; simp [next, stay, hst]) rfl (no_rollback _ _ _)
      | committed => dsimp only; rw [rollbackDone_plain rfl]; exact steps_same (by rw [hx]; simp [next, stay, hst]) rfl (no_rollback _ _ _)
      | aborted => dsimp only; rw [rollbackDone_plain rfl]; exact steps_same (by rw [hx]; simp [next, stay, hst]) rfl (no_rollback _ _ _)
      | begun =>
        dsimp only
        by_cases h1 : tk.shards.isEmpty = true
        · rw [if_pos h1, rollbackDone_plain rfl]
          exact steps_set (b := true) (by rw [hx]; simp only [next, hst, if_true, h1]) (yes_rollback _ _) (fun x hx => no_rollback_other hx _)
        · rw [if_neg h1, rollback_result rfl]
          refine steps_set (b := false) (by rw [hx]; simp only [next, hst, if_true, h1]; rfl) ?_ (fun x hxt => ?_) <;>
            (dsimp only; split)
          · rename_i h2
            obtain ⟨f, hf⟩ := Option.isSome_iff_exists.mp h2
            rw [hf]; exact no_rollback _ _ _ _
          · rfl
          · exact no_rollback_other hxt _
          · rfl
  | rolledBack c t' i r p =>
    cases ht
    have hc : c.recovery = false := by simpa [Event.plain] using hp
    simp only [step, Option.some.injEq] at hs
    rw [← hs]
    unfold handleRollback
    cases hx : s.tickets.lookup t with
    | none =>
      dsimp only
      rw [rollbackDone_plain hc]
      exact steps_same (by rw [hx]; rfl) rfl (no_rollback _ _ _)
    | some tk =>
      dsimp only
      cases hst : tk.state with
      | prepared => dsimp only; rw [rollbackDone_plain hc]; exact steps_same (by rw [hx]; simp [next, stay, hst]) rfl (no_rollback _ _ _)
      | committed => dsimp only; rw [rollbackDone_plain hc]; exact steps_same (by rw [hx]; simp [next, stay, hst]) rfl (no_rollback _ _ _)
      | aborted => dsimp only; rw [rollbackDone_plain hc]; exact steps_same (by rw [hx]; simp [next, stay, hst]) rfl (no_rollback _ _ _)
      | begun =>
        dsimp only
        by_cases h1 : stateOf (touch tk.shards i) i ≠ .rollingBack
        · rw [if_pos h1, rollbackDone_plain hc]
          exact steps_set (b := false) (by rw [hx]; simp [next, stay, hst, h1]) (no_rollback _ _ _ _) (fun x _ => no_rollback _ _ _ x)
        · rw [if_neg h1]
          by_cases h2 : r.isSome = true
          · rw [if_pos h2, rollbackDone_plain hc]
            exact steps_same (by rw [hx]; simp only [next, hst, if_true, h1, if_false, h2]) rfl (no_rollback _ _ _)
          · rw [if_neg h2]
            split
            · rename_i h3
              rw [rollbackDone_plain hc]
              exact steps_set (b := true) (by rw [hx]; simp only [next, hst, if_true, h1, if_false, h2, h3]; rfl) (yes_rollback _ _) (fun x hx => no_rollback_other hx _)
            · rename_i h3
              exact steps_set (b := false) (by rw [hx]; simp only [next, hst, if_true, h1, if_false, h2, h3]; simp [stay]) (by simp) (by simp)
  | finish cb t' p =>
    cases ht
    simp only [step, Option.some.injEq] at hs
    rw [← hs]
    unfold finish
    cases hx : s.tickets.lookup t with
    | none =>
      dsimp only
      rw [finishDone_plain rfl]
      exact steps_same (by rw [hx]; rfl) rfl (no_finish _ _ _)
    | some tk =>
      dsimp only
      cases hst : tk.state with
      | begun => dsimp only; rw [finishDone_plain rfl]; exact steps_same (by rw [hx]; simp [next, stay, hst]) rfl (no_finish _ _ _)
      | prepared => dsimp only; rw [finishDone_plain rfl]; exact steps_same (by rw [hx]; simp [next, stay, hst]) rfl (no_finish _ _ _)
      | aborted => dsimp only; rw [finishDone_plain rfl]; exact steps_erase (by rw [hx]; simp [next, stay, hst]) rfl (no_finish _ _ _)
      | committed =>
        dsimp only
        refine steps_set (b := false) (by rw [hx]; simp only [next, hst]) ?_ (fun x _ => ?_) <;>
          (dsimp only; split <;> simp [finishDone, Said.aborts])
  | finished c t' i r =>
    cases ht
    have hc : c.recovery = false := by simpa [Event.plain] using hp
    simp only [step, Option.some.injEq] at hs
    rw [← hs]
    unfold handleFinish
    cases hx : s.tickets.lookup t with
    | none =>
      dsimp only
      rw [finishDone_plain hc]
      exact steps_same (by rw [hx]; rfl) rfl (no_finish _ _ _)
    | some tk =>
      dsimp only
      cases hst : tk.state with
      | begun => dsimp only; rw [finishDone_plain hc]; exact steps_same (by rw [hx]; simp [next, stay, hst]) rfl (no_finish _ _ _)
      | prepared => dsimp only; rw [finishDone_plain hc]; exact steps_same (by rw [hx]; simp [next, stay, hst]) rfl (no_finish _ _ _)
      | aborted => dsimp only; rw [finishDone_plain hc]; exact steps_same (by rw [hx]; simp [next, stay, hst]) rfl (no_finish _ _ _)
      | committed =>
        dsimp only
        by_cases h1 : stateOf (touch tk.shards i) i ≠ .finishing
        · rw [if_pos h1, finishDone_plain hc]
          exact steps_set (b := false) (by rw [hx]; simp [next, stay, hst, h1]) (no_finish _ _ _ _) (fun x _ => no_finish _ _ _ x)
        · rw [if_neg h1]
          by_cases h2 : r.isSome = true
          · rw [if_pos h2, finishDone_plain hc]
            exact steps_same (by rw [hx]; simp only [next, hst, if_true, h1, if_false, h2]) rfl (no_finish _ _ _)
          · rw [if_neg h2]
            split
            · rename_i h3
              rw [finishDone_plain hc]
              exact steps_erase (by rw [hx]; simp only [next, hst, if_true, h1, if_false, h2, h3]; rfl) rfl (no_finish _ _ _)
            · rename_i h3
              exact steps_set (b := false) (by rw [hx]; simp only [next, hst, if_true, h1, if_false, h2, h3]; simp [stay]) (by simp) (by simp)
  | recover cb => cases hp
  | gotTickets cb i r p => cases hp

end Verif.Parsec.Broker
