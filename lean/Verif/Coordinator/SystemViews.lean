import Verif.Coordinator.System
import Verif.Coordinator.Props

/-! Every batch of the whole system sees a run of the single-batch model. -/
namespace Verif.Coordinator

open Verif.Tx Verif.LockingShard

/-- What a batch can do alone it can do among others. -/
theorem step_among {shards : List Cfg} {d : Hash} {txs : List CompactTx} {w w' : World}
    (h : Step ⟨shards, d, txs, true⟩ w w') : Step ⟨shards, d, txs, false⟩ w w' := by
  cases h with
  | prepareCb k e r lost a b c => exact .prepareCb _ k e r lost a b c
  | sendLock k e got i ts a b c d' => exact .sendLock (p := ⟨shards, d, txs, false⟩) _ k e got i ts a b c d'
  | recvVote k e got i v a b c => exact .recvVote _ k e got i v a b c
  | decide k e got D a b c d' => exact .decide _ k e got D a b c d'
  | commitCb k e r lost a b c => exact .commitCb _ k e r lost a b c
  | sendApply k e acked i is fs a b c d' e' => exact .sendApply (p := ⟨shards, d, txs, false⟩) _ k e acked i is fs a b c d' e'
  | recvApply k e acked i a b c => exact .recvApply _ k e acked i a b c
  | allApplied k e acked a b c => exact .allApplied _ k e acked a b c
  | discardCb k e r lost a b c => exact .discardCb _ k e r lost a b c
  | sendDiscard k e acked i a b c => exact .sendDiscard (p := ⟨shards, d, txs, false⟩) _ k e acked i a b c
  | recvDiscard k e acked i a b c => exact .recvDiscard _ k e acked i a b c
  | allDiscarded k e acked a b c => exact .allDiscarded _ k e acked a b c
  | doneCb k e r lost a b c => exact .doneCb _ k e r lost a b c
  | crash k e a => exact .crash _ k e a
  | recoverPrepare ts a => exact .recoverPrepare (p := ⟨shards, d, txs, false⟩) _ ts a
  | recoverCommit co is a => exact .recoverCommit (p := ⟨shards, d, txs, false⟩) _ co is a
  | recoverDiscard a => exact .recoverDiscard (p := ⟨shards, d, txs, false⟩) _ a
  | deliver i c q s' a h1 h2 h3 => exact .deliver (p := ⟨shards, d, txs, false⟩) _ i c q s' a h1 h2 h3
  | otherShard i c q s' a h1 => cases h1
  | otherCmd cmd r h1 => cases h1

theorem answered_shard (w : World) (d : Hash) (i : Nat) (q : Req) (a : Resp) :
    (w.answered d i q a).shard = w.shard ∧ (w.answered d i q a).rep = w.rep ∧
    (w.answered d i q a).decision = w.decision := by
  unfold World.answered
  split <;> exact ⟨rfl, rfl, rfl⟩

/-- What a step of a batch does to the rest of the world. -/
inductive Effect (p : Params) (w w' : World) : Prop where
  /-- nothing but, perhaps, a command of the replicated state -/
  | silent (hs : w'.shard = w.shard) (hh : w'.history = w.history)
      (hd : w'.decision = w.decision)
      (hr : w'.rep = w.rep ∨ ∃ cmd, cmd.dtx = p.d ∧ w.rep.exec cmd = some w'.rep)
  /-- the outcome is recorded -/
  | decided (D : List Bool) (hs : w'.shard = w.shard) (hh : w'.history = w.history)
      (hn : w.decision = none) (hd : w'.decision = some D) (hD : Decision p w D)
      (hr : ∃ cmd, cmd.dtx = p.d ∧ w.rep.exec cmd = some w'.rep)
  /-- a shard serves a request -/
  | served (i : Nat) (c : Cfg) (q : Req) (s' : State) (a : Resp) (hc : p.shards[i]? = some c)
      (hq : w.sent i q) (hs : step c (w.shard i) q = some (s', a))
      (he : w' = (w.answered p.d i q a).setShard i s')

theorem step_effect {p : Params} (hal : p.alone = true) {w w' : World} (hi : Inv p w)
    (h : Step p w w') : Effect p w w' := by
  cases h with
  | prepareCb k e r lost a b c => exact .silent rfl rfl rfl (.inr ⟨_, rfl, c⟩)
  | sendLock k e got i ts a b c d' => exact .silent rfl rfl rfl (.inl rfl)
  | recvVote k e got i v a b c => exact .silent rfl rfl rfl (.inl rfl)
  | decide k e got D a b c d' => exact .silent rfl rfl rfl (.inl rfl)
  | commitCb k e r lost a b c =>
    cases hd : w.decision with
    | none =>
      have he := hi.execs k e a
      simp only [ExecInv, b] at he
      exact .decided e.dtx.complete rfl rfl hd (by simp [World.setExec]) (he.2.2 hd) ⟨_, rfl, c⟩
    | some D => exact .silent rfl rfl (by simp [World.setExec, hd]) (.inr ⟨_, rfl, c⟩)
  | sendApply k e acked i is fs a b c d' e' => exact .silent rfl rfl rfl (.inl rfl)
  | recvApply k e acked i a b c => exact .silent rfl rfl rfl (.inl rfl)
  | allApplied k e acked a b c => exact .silent rfl rfl rfl (.inl rfl)
  | discardCb k e r lost a b c => exact .silent rfl rfl rfl (.inr ⟨_, rfl, c⟩)
  | sendDiscard k e acked i a b c => exact .silent rfl rfl rfl (.inl rfl)
  | recvDiscard k e acked i a b c => exact .silent rfl rfl rfl (.inl rfl)
  | allDiscarded k e acked a b c => exact .silent rfl rfl rfl (.inl rfl)
  | doneCb k e r lost a b c => exact .silent rfl rfl rfl (.inr ⟨_, rfl, c⟩)
  | crash k e a => exact .silent rfl rfl rfl (.inl rfl)
  | recoverPrepare ts a => exact .silent rfl rfl rfl (.inl rfl)
  | recoverCommit co is a => exact .silent rfl rfl rfl (.inl rfl)
  | recoverDiscard a => exact .silent rfl rfl rfl (.inl rfl)
  | deliver i c q s' a h1 h2 h3 => exact .served i c q s' a h1 h2 h3 rfl
  | otherShard i c q s' a h1 => rw [hal] at h1; cases h1
  | otherCmd cmd r h1 => rw [hal] at h1; cases h1

/-- A request of one batch is foreign to the others. -/
theorem sent_foreign {p : Params} {w : World} {i : Nat} {q : Req} (h : SentInv p w i q)
    {d : Hash} (hne : p.d ≠ d) : foreign d q := by
  cases q with
  | lock ts d' => exact fun e => hne (h.1.symm.trans e)
  | apply fs d' => exact fun e => hne (h.1.symm.trans e)
  | discard d' => exact fun e => hne ((show d' = p.d from h).symm.trans e)
  | stop => trivial

theorem inv_alone {shards : List Cfg} {d : Hash} {txs : List CompactTx} {w : World}
    (h : Inv ⟨shards, d, txs, false⟩ w) : Inv ⟨shards, d, txs, true⟩ w where
  recP := h.recP
  recC := h.recC
  recX := h.recX
  dec D hD := ⟨(h.dec D hD).length, (h.dec D hD).heard, (h.dec D hD).exact⟩
  execs k e he := by
    have := h.execs k e he
    obtain ⟨b, st⟩ := e
    cases st with
    | decided =>
      exact ⟨this.1, this.2.1, fun hd =>
        ⟨(this.2.2 hd).length, (this.2.2 hd).heard, (this.2.2 hd).exact⟩⟩
    | _ => exact this
  start := h.start
  sent i q hq := by
    refine ⟨?_, (h.sent i q hq).2⟩
    have := (h.sent i q hq).1
    cases q <;> exact this
  votes := h.votes
  first := h.first
  prep := h.prep
  hist := h.hist
  app := h.app
  ack := h.ack

/-- In a step of the system every batch makes a step of the single-batch model, or none. -/
theorem view_step {p : Whole} {S S' : Sys} (hi : ∀ d, Inv (p.among d) (S.view d))
    (h : p.Step S S') (d : Hash) :
    S'.view d = S.view d ∨ Step (p.among d) (S.view d) (S'.view d) := by
  cases h with
  | of d0 w hs =>
  by_cases hd : d = d0
  · subst hd
    right
    have : (S.put d w).view d = w := by simp [Sys.view, Sys.put]
    rw [this]
    exact step_among hs
  · have hview : (S.put d0 w).view d = { S.view d with shard := w.shard, rep := w.rep } := by
      simp [Sys.view, Sys.put, hd]
    rw [hview]
    have he := step_effect rfl (inv_alone (hi d0)) hs
    have hcmd : w.shard = S.shard → (∃ cmd, cmd.dtx = d0 ∧ S.rep.exec cmd = some w.rep) →
        Step (p.among d) (S.view d) { S.view d with shard := w.shard, rep := w.rep } := by
      rintro h1 ⟨cmd, h2, h3⟩
      rw [h1]
      exact Step.otherCmd (S.view d) cmd w.rep rfl (by rw [h2]; exact fun e => hd e.symm) h3
    cases he with
    | silent h1 _ _ hr =>
      rcases hr with hr | hr
      · left
        rw [h1, hr]
        rfl
      · exact .inr (hcmd h1 hr)
    | decided D h1 _ _ _ _ hr => exact .inr (hcmd h1 hr)
    | served i c q s' a hc hq hst hw =>
      right
      have hf := sent_foreign ((hi d0).sent i q hq).1 (d := d) (fun e => hd e.symm)
      have hsh : w.shard = fun j => if j = i then s' else S.shard j := by
        rw [hw]; simp only [World.setShard, (answered_shard _ _ _ _ _).1]; rfl
      have hrep : w.rep = S.rep := by
        rw [hw]; simp only [World.setShard, (answered_shard _ _ _ _ _).2.1]; rfl
      rw [hsh, hrep]
      exact Step.otherShard (S.view d) i c q s' a rfl hc hf hst

theorem batch_reach {p : Whole} {S : Sys} (h : p.Reach S) :
    ∀ d, Reach (p.among d) (S.view d) := by
  induction h with
  | init S h => exact fun d => .init _ (h.batches d)
  | step S S' _ hs ih =>
    intro d
    rcases view_step (fun d => reach_inv _ _ (ih d)) hs d with e | e
    · rw [e]; exact ih d
    · exact (ih d).step _ _ e

/-- The first answer of a shard is what it has prepared, until it applies the batch. -/
theorem first_prepared (p : Params) (w : World) (h : Reach p w) (i : Nat) :
    w.history i = [] → w.firstVote i = ((w.shard i).prepared p.d).map (·.results) := by
  induction h with
  | init w h => intro _; simp [h.records.1 i, (h.shards i).1]
  | step w w' hw hs ih =>
    have hi := reach_inv p w hw
    cases hs with
    | deliver j c q s' a hc hq hst =>
      by_cases e : i = j
      · subst e
        intro hnil
        have hold : w.history i = [] := by
          cases hh : w.history i with
          | nil => rfl
          | cons x xs =>
            have := C17_history_grows p w _ (Step.deliver w i c q s' a hc hq hst) i
            rw [hnil, hh] at this
            simp at this
        have ih := ih hold
        cases q with
        | lock ts d =>
          obtain ⟨rfl, -⟩ := (hi.sent i _ hq).1
          simp only [step, Option.some.injEq, Prod.mk.injEq] at hst
          obtain ⟨rfl, rfl⟩ := hst
          unfold lockOutputs
          split
          · simpa [World.answered, World.setShard] using ih
          · cases hp : (w.shard i).prepared p.d with
            | some b =>
              rw [hp] at ih
              simp only [Option.map_some] at ih
              simp [World.answered, World.setShard, ih, hp]
            | none =>
              rw [hp] at ih
              simp only [Option.map_none] at ih
              simp [World.answered, World.setShard, ih]
        | apply fs d =>
          obtain ⟨rfl, -⟩ := (hi.sent i _ hq).1
          simp only [step, Option.map_eq_some_iff] at hst
          obtain ⟨⟨s1, b⟩, hst, e⟩ := hst
          simp only [Prod.mk.injEq] at e
          obtain ⟨rfl, rfl⟩ := e
          unfold applyOutputs at hst
          split at hst
          · simp only [Option.some.injEq, Prod.mk.injEq] at hst
            obtain ⟨rfl, rfl⟩ := hst
            simpa [World.answered, World.setShard] using ih
          · split at hst
            · rename_i hn
              split at hst
              · simp only [Option.some.injEq, Prod.mk.injEq] at hst
                obtain ⟨rfl, rfl⟩ := hst
                simpa [World.answered, World.setShard, hn] using ih
              · simp at hst
            · rename_i b hb
              split at hst
              · simp at hst
              · simp only [Option.some.injEq, Prod.mk.injEq] at hst
                obtain ⟨rfl, rfl⟩ := hst
                simp [World.answered, World.setShard, hb] at hnil
        | discard d =>
          have hd : d = p.d := (hi.sent i _ hq).1
          subst hd
          simp only [step, Option.some.injEq, Prod.mk.injEq] at hst
          obtain ⟨rfl, rfl⟩ := hst
          have h1 : (w.answered p.d i (.discard p.d)
              (.discard (discardDtx (w.shard i) p.d).2)).firstVote i = w.firstVote i := by
            unfold World.answered
            split <;> simp_all
          have h2 : (discardDtx (w.shard i) p.d).1.prepared p.d = (w.shard i).prepared p.d := by
            unfold discardDtx; split <;> rfl
          simp only [World.setShard, h1, if_true, h2]
          exact ih
        | stop => exact (hi.sent i _ hq).1.elim
      · have h1 : ((w.answered p.d j q a).setShard j s').history i = w.history i := by
          simp only [World.setShard]
          unfold World.answered
          split
          · rfl
          · simp only
            split <;> simp [e]
          · rfl
          · rfl
        have h2 : ((w.answered p.d j q a).setShard j s').shard i = w.shard i := by
          simp only [World.setShard, if_neg e]
          unfold World.answered
          split <;> rfl
        have h3 : ((w.answered p.d j q a).setShard j s').firstVote i = w.firstVote i := by
          simp only [World.setShard]
          unfold World.answered
          split <;> simp [e]
        rw [h1, h2, h3]
        exact ih
    | otherShard j c q s' a _ hc hf hst =>
      intro g
      have := ih g
      simp only [World.setShard]
      split
      · rename_i e; subst e
        rw [(foreign_keeps c _ _ q a p.d hf hst).1]; exact this
      · exact this
    | _ => exact ih

/-- In calm runs every batch is punctual. -/
theorem run_punctual {p : Whole} {S S' : Sys} (h0 : ∀ d, Punctual (p.among d) (S.view d))
    (h : p.Run S S') : ∀ d, Punctual (p.among d) (S'.view d) := by
  induction h with
  | refl => exact h0
  | step S' S'' _ hs hc ih =>
    intro d
    rcases view_step (fun d => reach_inv _ _ (punctual_reach _ _ (ih d))) hs d with e | e
    · rw [e]; exact ih d
    · exact (ih d).step _ _ e (hc.1 d)

end Verif.Coordinator
