import Verif.Parsec.ReplInv

/-!
# Executing commands and changing the leader keep the states in step
-/
namespace Verif.Parsec

theorem Sync.popped {s : Sys} (h : Sync s) {p : Pend} {log : List Pend}
    (hl : s.log = p :: log) (t : Tn) : log.count (.commit t) ≤ 1 := by
  have := h.once t
  rw [hl] at this
  exact Nat.le_trans (List.count_le_count_cons ..) this

theorem lookup_commit {s : RState} {t : Tn} {r : RTicket}
    (h : s.tickets.lookup t = some r) (x : Tn) :
    (s.apply (.commit t)).1.tickets.lookup x =
      if x = t then some r.moved else s.tickets.lookup x := by
  simp only [RState.apply, h, lookup_map_set, Option.map_some]

theorem apply_commit_none {s : RState} {t : Tn}
    (h : s.tickets.lookup t = none) :
    s.apply (.commit t) = (s, some .unknownTicket) := by
  simp only [RState.apply, h]

theorem apply_sync {s : Sys} (h : Sync s) : Sync s.apply.1 := by
  have inv := h.reach.inv
  cases hl : s.log with
  | nil =>
    unfold Sys.apply
    rw [hl]
    exact h
  | cons p log =>
    have hmem : ∀ q, q ∈ log → q ∈ s.log := by
      intro q hq
      rw [hl]
      exact List.mem_cons_of_mem _ hq
    cases p with
    | prepare t b u =>
      have ht := h.ticket t
      have hrec : s.repl.tickets.lookup t = none ∧
          markOf s.shard t = .prepared b u ∧ ∀ q ∈ log, ¬ q.isPrepare t := by
        have hhead : ∀ q ∈ s.log, ¬ q.isPrepare t → False ∨ True :=
          fun _ _ _ => Or.inr trivial
        have hp : Pend.prepare t b u ∈ s.log := by
          rw [hl]
          exact List.mem_cons_self
        cases hm : markOf s.shard t with
        | idle =>
          rw [hm] at ht
          exact absurd rfl (ht.2 _ hp)
        | committed b' =>
          rw [hm] at ht
          exact absurd rfl (ht.2.1 _ hp)
        | prepared b' u' =>
          rw [hm] at ht
          rcases ht with ⟨_, h2⟩ | ⟨h1, pre, post, h2, h3, h4⟩
          · exact absurd rfl (h2 _ hp)
          · rw [hl] at h2
            cases pre with
            | nil =>
              simp only [List.nil_append, List.cons.injEq, Pend.prepare.injEq,
                true_and] at h2
              obtain ⟨⟨e1, e2⟩, e3⟩ := h2
              subst e1 e2 e3
              exact ⟨h1, rfl, h4⟩
            | cons q pre =>
              exfalso
              simp only [List.cons_append, List.cons.injEq] at h2
              have := (h3 q List.mem_cons_self).1
              rw [← h2.1] at this
              exact this rfl
      obtain ⟨h1, h2, h3⟩ := hrec
      have happ : s.apply.1 = { s with
          repl := { s.repl with
            tickets := (t, ⟨b, u, false⟩) :: s.repl.tickets }
          log := log } := by
        unfold Sys.apply
        rw [hl]
        simp only [Pend.cmd, RState.apply, h1, afterCmd]
      rw [happ]
      constructor
      · exact h.reach
      · have := RState.apply_distinct h.distinct (.prepare t b u)
        simpa only [RState.apply, h1] using this
      · exact h.values
      · intro x
        simp only [List.lookup_cons]
        by_cases hx : x = t
        · subst hx
          rw [h2]
          left
          exact ⟨by simp, h3⟩
        · have hb : (x == t) = false := by simpa using hx
          simp only [hb]
          have := h.ticket x
          rw [hl] at this
          exact this.tail (fun he => hx he.symm)
      · exact fun x => h.popped hl x
      · exact fun x hx => h.fin x (hmem _ hx)
    | commit t =>
      cases hr : s.repl.tickets.lookup t with
      | none =>
        have happ : s.apply.1 = { s with log := log } := by
          unfold Sys.apply
          rw [hl]
          simp only [Pend.cmd, apply_commit_none hr, afterCmd]
        rw [happ]
        constructor
        · exact h.reach
        · exact h.distinct
        · exact h.values
        · intro x
          have := h.ticket x
          rw [hl] at this
          exact this.tail (by simp [Pend.isPrepare])
        · exact fun x => h.popped hl x
        · exact fun x hx => h.fin x (hmem _ hx)
      | some r =>
        have ht := h.ticket t
        have hin : Pend.commit t ∈ s.log := by
          rw [hl]
          exact List.mem_cons_self
        have hrec : ∃ b u, markOf s.shard t = .prepared b u ∧
            r = ⟨b, u, false⟩ ∧ ∀ q ∈ s.log, ¬ q.isPrepare t := by
          cases hm : markOf s.shard t with
          | idle =>
            rw [hm, hr] at ht
            exact absurd ht.1 (by simp)
          | committed b' =>
            rw [hm] at ht
            exact absurd hin ht.2.2
          | prepared b u =>
            rw [hm, hr] at ht
            rcases ht with ⟨h1, h2⟩ | ⟨h1, _⟩
            · exact ⟨b, u, rfl, Option.some.inj h1, h2⟩
            · simp at h1
        obtain ⟨b, u, hm, rfl, hnp⟩ := hrec
        obtain ⟨tk, k1, k2, k3, k4⟩ := markOf_prepared.mp hm
        have hres : (commit s.shard t).2.result = none := by
          unfold commit
          rw [k1]
          simp only
          rw [if_neg (fun hc => hc k2)]
        have he : exec s.shard (.commit t) =
            some ((commit s.shard t).1, (commit s.shard t).2) := rfl
        have happ : s.apply.1 = Sys.mk (commit s.shard t).1
            (s.repl.apply (.commit t)).1 log := by
          unfold Sys.apply
          rw [hl]
          simp only [Pend.cmd, RState.apply, hr, afterCmd]
        rw [happ]
        have hmt : markOf (commit s.shard t).1 t = .committed b := by
          rw [exec_mark inv he t]
          simp only [markStep, Op.ticket, ne_eq, not_true_eq_false, if_false,
            hres, if_true, brokerOf, k1, k3]
        constructor
        · exact .step h.reach he
        · exact RState.apply_distinct h.distinct (.commit t)
        · simp only [RState.apply, hr]
          rw [h.values]
          rcases commit_cases s.shard t with hc | ⟨tk', g1, g2, g3⟩
          · exact absurd hres hc.2.1
          · rw [g3]
            rw [k1] at g1
            rw [← Option.some.inj g1]
            simp only [acquire_value, released, applied, k4]
        · intro x
          simp only [lookup_commit hr]
          by_cases hx : x = t
          · subst hx
            rw [hmt, if_pos rfl]
            refine ⟨⟨_, rfl, rfl, rfl⟩,
              fun q hq => hnp q (hmem q hq), ?_⟩
            intro hc
            have := h.once x
            rw [hl, List.count_cons_self] at this
            have h0 := List.count_pos_iff.mpr hc
            omega
          · rw [if_neg hx, exec_mark_other inv he hx]
            have := h.ticket x
            rw [hl] at this
            exact this.tail (by simp [Pend.isPrepare])
        · exact fun x => h.popped hl x
        · intro x hx
          by_cases hxt : x = t
          · subst hxt
            simp only [hmt]
            simp
          · simp only
            rw [exec_mark_other inv he hxt]
            exact h.fin x (hmem _ hx)
    | rollback t =>
      have he : exec s.shard (.rollback t) =
          some ((rollback s.shard t).1, (rollback s.shard t).2) := rfl
      have happ : s.apply.1 = Sys.mk (rollback s.shard t).1
          (s.repl.apply (.finish t)).1 log := by
        unfold Sys.apply
        rw [hl]
        simp only [Pend.cmd, RState.apply, afterCmd]
      rw [happ]
      have hmt : markOf (rollback s.shard t).1 t = .idle := by
        rw [exec_mark inv he t]
        simp only [markStep, Op.ticket, ne_eq, not_true_eq_false, if_false]
        split
        · rfl
        · rename_i hne
          rcases rollback_cases s.shard t with g | ⟨tk, g1, g2⟩
          · simp [markOf, g.1]
          · rw [g2] at hne
            exact absurd rfl hne
      have hnp : ∀ q ∈ log, ¬ q.isPrepare t := by
        have ht := h.ticket t
        cases hm : markOf s.shard t with
        | idle =>
          rw [hm] at ht
          exact fun q hq => ht.2 q (hmem q hq)
        | committed b' =>
          rw [hm] at ht
          exact fun q hq => ht.2.1 q (hmem q hq)
        | prepared b u =>
          rw [hm] at ht
          rcases ht with ⟨h1, h2⟩ | ⟨h1, pre, post, h2, h3, h4⟩
          · exact fun q hq => h2 q (hmem q hq)
          · exfalso
            rw [hl] at h2
            cases pre with
            | nil => simp at h2
            | cons q pre =>
              simp only [List.cons_append, List.cons.injEq] at h2
              exact (h3 q List.mem_cons_self).2.1 h2.1.symm
      constructor
      · exact .step h.reach he
      · exact RState.apply_distinct h.distinct (.finish t)
      · exact h.values.trans (exec_value_eq inv he (by simp)).symm
      · intro x
        simp only [RState.apply, lookup_filter_ne]
        by_cases hx : x = t
        · subst hx
          rw [hmt, if_pos rfl]
          exact ⟨rfl, hnp⟩
        · rw [if_neg hx, exec_mark_other inv he hx]
          have := h.ticket x
          rw [hl] at this
          exact this.tail (by simp [Pend.isPrepare])
      · exact fun x => h.popped hl x
      · intro x hx
        by_cases hxt : x = t
        · subst hxt
          simp only [hmt]
          simp
        · simp only
          rw [exec_mark_other inv he hxt]
          exact h.fin x (hmem _ hx)
    | finish t =>
      have he : exec s.shard (.finish t) =
          some ((finish s.shard t).1, (finish s.shard t).2) := rfl
      have happ : s.apply.1 = Sys.mk (finish s.shard t).1
          (s.repl.apply (.finish t)).1 log := by
        unfold Sys.apply
        rw [hl]
        simp only [Pend.cmd, RState.apply, afterCmd]
      rw [happ]
      have hfin : ∀ b u, markOf s.shard t ≠ .prepared b u :=
        h.fin t (by rw [hl]; exact List.mem_cons_self)
      have hmt : markOf (finish s.shard t).1 t = .idle := by
        rw [exec_mark inv he t]
        simp only [markStep, Op.ticket, ne_eq, not_true_eq_false, if_false]
        split
        · rfl
        · rename_i hne
          cases hm : markOf s.shard t with
          | idle => rfl
          | prepared b u => exact absurd hm (hfin b u)
          | committed b =>
            obtain ⟨tk, k1, k2, k3⟩ := markOf_committed.mp hm
            exfalso
            apply hne
            unfold finish
            rw [k1]
            simp [k2]
      have hnp : ∀ q ∈ log, ¬ q.isPrepare t := by
        have ht := h.ticket t
        cases hm : markOf s.shard t with
        | idle =>
          rw [hm] at ht
          exact fun q hq => ht.2 q (hmem q hq)
        | committed b' =>
          rw [hm] at ht
          exact fun q hq => ht.2.1 q (hmem q hq)
        | prepared b u => exact absurd hm (hfin b u)
      constructor
      · exact .step h.reach he
      · exact RState.apply_distinct h.distinct (.finish t)
      · exact h.values.trans (exec_value_eq inv he (by simp)).symm
      · intro x
        simp only [RState.apply, lookup_filter_ne]
        by_cases hx : x = t
        · subst hx
          rw [hmt, if_pos rfl]
          exact ⟨rfl, hnp⟩
        · rw [if_neg hx, exec_mark_other inv he hx]
          have := h.ticket x
          rw [hl] at this
          exact this.tail (by simp [Pend.isPrepare])
      · exact fun x => h.popped hl x
      · intro x hx
        by_cases hxt : x = t
        · subst hxt
          simp only [hmt]
          simp
        · simp only
          rw [exec_mark_other inv he hxt]
          exact h.fin x (hmem _ hx)

/-! ### Change of leader -/

/-- The replicated tickets can be recovered. -/
theorem Sync.wellFormed {s : Sys} (h : Sync s) : WellFormed s.repl.tickets where
  distinct := h.distinct
  disjoint := by
    intro a ha b hb hac hbc p hp q hq hpq
    have key : ∀ c ∈ s.repl.tickets, c.2.committed = false →
        ∃ tk, s.shard.ticket c.1 = some tk ∧ tk.state = .prepared ∧
          tk.update = c.2.update := by
      intro c hc hcc
      have hlk := lookup_of_mem h.distinct (t := c.1) (r := c.2) hc
      have ht := h.ticket c.1
      rw [hlk] at ht
      cases hm : markOf s.shard c.1 with
      | idle =>
        rw [hm] at ht
        exact absurd ht.1 (by simp)
      | committed b' =>
        rw [hm] at ht
        obtain ⟨x, hx, hx2, _⟩ := ht.1
        rw [← Option.some.inj hx, hcc] at hx2
        simp at hx2
      | prepared b' u' =>
        rw [hm] at ht
        rcases ht with ⟨h1, _⟩ | ⟨h1, _⟩
        · obtain ⟨tk, k1, k2, k3, k4⟩ := markOf_prepared.mp hm
          refine ⟨tk, k1, k2, ?_⟩
          rw [k4, Option.some.inj h1]
        · simp at h1
    obtain ⟨tka, a1, a2, a3⟩ := key a ha hac
    obtain ⟨tkb, b1, b2, b3⟩ := key b hb hbc
    have ga := (h.reach.inv.prep a.1 tka a1 a2).2 p (by rw [a3]; exact hp)
    have gb := (h.reach.inv.prep b.1 tkb b1 b2).2 q (by rw [b3]; exact hq)
    rw [← hpq] at gb
    exact C39_exclusion h.reach (k := p.1) ⟨tka, a1, ga⟩ ⟨tkb, b1, gb⟩

/-- A new shard recovered from the replicated state is in step with it. -/
theorem recovered_sync {r : RState} (wf : WellFormed r.tickets) :
    Sync { shard := recover r.value r.tickets, repl := r, log := [] } where
  reach := .start _ _ wf
  distinct := wf.distinct
  values := rfl
  ticket := by
    intro t
    simp only [markOf, recover]
    cases hl : r.tickets.lookup t with
    | none => exact ⟨rfl, by simp⟩
    | some x =>
      simp only [Option.map_some, recoverTicket, Ticket.mark]
      cases hc : x.committed with
      | true =>
        simp only [if_true]
        exact ⟨⟨x, rfl, hc, rfl⟩, by simp, by simp⟩
      | false =>
        simp only [Bool.false_eq_true, if_false]
        left
        refine ⟨?_, by simp⟩
        rw [← hc]
  once := by simp
  fin := by simp

/-- Executing a command twice: with and without its callback the replicated
state is the same. -/
theorem apply_repl {s : Sys} {p : Pend} {log : List Pend}
    (hl : s.log = p :: log) :
    s.apply.1.repl = (s.repl.apply p.cmd).1 ∧ s.apply.1.log = log := by
  unfold Sys.apply
  rw [hl]
  exact ⟨rfl, rfl⟩

/-- `n` commands executed with their callbacks. -/
def Sys.applyN (s : Sys) : Nat → Sys
  | 0 => s
  | n + 1 => s.apply.1.applyN n

theorem applyN_sync {s : Sys} (h : Sync s) (n : Nat) : Sync (s.applyN n) := by
  induction n generalizing s with
  | zero => exact h
  | succ n ih => exact ih (apply_sync h)

theorem applyN_repl (s : Sys) (n : Nat) :
    (s.applyN n).repl = s.repl.applyAll (s.log.take n) := by
  induction n generalizing s with
  | zero => simp [Sys.applyN, RState.applyAll]
  | succ n ih =>
    unfold Sys.applyN
    rw [ih]
    cases hl : s.log with
    | nil => simp [Sys.apply, hl, RState.applyAll]
    | cons p log =>
      obtain ⟨h1, h2⟩ := apply_repl hl
      rw [h1, h2]
      simp [RState.applyAll]

theorem failover_eq (s : Sys) (n : Nat) :
    s.failover n = { shard := recover (s.applyN n).repl.value
                       (s.applyN n).repl.tickets
                     repl := (s.applyN n).repl
                     log := [] } := by
  rw [applyN_repl]
  rfl

theorem failover_sync {s : Sys} (h : Sync s) (n : Nat) :
    Sync (s.failover n) := by
  rw [failover_eq]
  exact recovered_sync (applyN_sync h n).wellFormed

theorem step_sync {s : Sys} (h : Sync s) {e : Event} (hc : Careful s e)
    {s' : Sys} {o : SOut} (hs : s.step e = some (s', o)) : Sync s' := by
  cases e with
  | request r => exact request_sync h hc hs
  | apply =>
    simp only [Sys.step, Option.some.injEq] at hs
    rw [show s' = s.apply.1 by rw [hs]]
    exact apply_sync h
  | failover n =>
    simp only [Sys.step, Option.some.injEq, Prod.mk.injEq] at hs
    rw [← hs.1]
    exact failover_sync h n

end Verif.Parsec
