import Verif.Coordinator.Lemmas
import Verif.LockingShard.Props

/-! C16 and C17. -/
namespace Verif.Coordinator

open Verif.Tx Verif.LockingShard

/-! ### Example: two shards, a transaction across them, a crash after the outcome was recorded -/

/-- Ids starting with a byte below 128 / from 128. -/
def exS0 : Cfg := { exCfg with range := (0, 127) }
def exS1 : Cfg := { exCfg with range := (128, 255) }
/-- Spends a coin of the first shard, creates one on the second. -/
def exMove : CompactTx := exT 20 [coinX] [fill 32 200]
/-- Spends a coin nobody has. -/
def exBad : CompactTx := exT 21 [fill 32 201] [fill 32 9]
def exP : Params := ⟨[exS0, exS1], dA, [exMove, exBad], false⟩

def exW0 : World where
  shard i := if i = 0 then State.init exS0 exUhs else State.init exS1 fun _ => false
  rep := ⟨fun _ => none, fun _ => none, fun _ => false⟩
  execs := [⟨(Dtx.new exP.shards).addAll exP.shards exP.txs, .start⟩]
  sent _ _ := False
  voted _ _ := False
  ackApply _ := False
  ackDiscard _ := False
  firstVote _ := none
  decision := none
  history _ := []

theorem exW0_init : Init exP exW0 where
  execs := rfl
  rep := ⟨rfl, rfl, rfl⟩
  shards i := by simp only [exW0]; split <;> exact ⟨rfl, rfl⟩
  sent _ _ := id
  voted _ _ := id
  acks _ := ⟨id, id⟩
  records := ⟨fun _ => rfl, rfl, fun _ => rfl⟩

theorem exRun : ∃ w, Reach exP w ∧ ∃ e ∈ w.execs, e.stage = .done ∧
    e.dtx.complete = [true, false] := by
  have r := Reach.init (p := exP) _ exW0_init
  have r := r.step _ _ (Step.prepareCb _ 0 _ _ false rfl rfl rfl)
  have r := r.step _ _ (Step.sendLock _ 0 _ _ 0 _ rfl rfl ⟨_, rfl, by decide⟩ rfl)
  have r := r.step _ _ (Step.sendLock _ 0 _ _ 1 _ rfl rfl ⟨_, rfl, by decide⟩ rfl)
  have r := r.step _ _ (Step.deliver _ 0 _ _ _ _ rfl (Or.inr (Or.inl ⟨rfl, rfl⟩)) rfl)
  have r := r.step _ _ (Step.deliver _ 1 _ _ _ _ rfl (Or.inl ⟨rfl, rfl⟩) rfl)
  have r := r.step _ _ (Step.recvVote _ 0 _ _ 0 [true, true] rfl rfl (Or.inr (Or.inl ⟨rfl, rfl⟩)))
  have r := r.step _ _ (Step.recvVote _ 0 _ _ 1 [true, false] rfl rfl (Or.inl ⟨rfl, rfl⟩))
  have r := r.step _ _ (Step.decide _ 0 _ _ [true, false] rfl rfl
    (by rintro i ⟨is, hi, -⟩
        match i with
        | 0 => rfl
        | 1 => rfl
        | i + 2 => cases hi) rfl)
  have r := r.step _ _ (Step.commitCb _ 0 _ _ true rfl rfl rfl)
  have r := r.step _ _ (Step.recoverCommit _ _ _ rfl)
  have r := r.step _ _ (Step.sendApply _ 1 _ _ 0 _ _ rfl rfl rfl (by decide) rfl)
  have r := r.step _ _ (Step.sendApply _ 1 _ _ 1 _ _ rfl rfl rfl (by decide) rfl)
  have r := r.step _ _ (Step.deliver _ 0 _ _ _ _ rfl (Or.inr (Or.inl ⟨rfl, rfl⟩)) rfl)
  have r := r.step _ _ (Step.deliver _ 1 _ _ _ _ rfl (Or.inl ⟨rfl, rfl⟩) rfl)
  have r := r.step _ _ (Step.recvApply _ 1 _ _ 0 rfl rfl (Or.inr (Or.inl rfl)))
  have r := r.step _ _ (Step.recvApply _ 1 _ _ 1 rfl rfl (Or.inl rfl))
  have r := r.step _ _ (Step.allApplied _ 1 _ _ rfl rfl
    (by rintro i ⟨is, hi, -⟩
        match i with
        | 0 => rfl
        | 1 => rfl
        | i + 2 => cases hi))
  have r := r.step _ _ (Step.discardCb _ 1 _ _ false rfl rfl rfl)
  have r := r.step _ _ (Step.sendDiscard _ 1 _ _ 0 rfl rfl ⟨_, rfl, by decide⟩)
  have r := r.step _ _ (Step.sendDiscard _ 1 _ _ 1 rfl rfl ⟨_, rfl, by decide⟩)
  have r := r.step _ _ (Step.deliver _ 0 _ _ _ _ rfl (Or.inr (Or.inl ⟨rfl, rfl⟩)) rfl)
  have r := r.step _ _ (Step.deliver _ 1 _ _ _ _ rfl (Or.inl ⟨rfl, rfl⟩) rfl)
  have r := r.step _ _ (Step.recvDiscard _ 1 _ _ 0 rfl rfl (Or.inr (Or.inl rfl)))
  have r := r.step _ _ (Step.recvDiscard _ 1 _ _ 1 rfl rfl (Or.inl rfl))
  have r := r.step _ _ (Step.allDiscarded _ 1 _ _ rfl rfl
    (by rintro i ⟨is, hi, -⟩
        match i with
        | 0 => rfl
        | 1 => rfl
        | i + 2 => cases hi))
  have r := r.step _ _ (Step.doneCb _ 1 _ _ false rfl rfl rfl)
  exact ⟨_, r, _, List.mem_of_getElem? (i := 1) rfl, rfl, rfl⟩

/-! ### C16 -/

/-- The flags in a shard's history are the recorded outcome. -/
theorem did_of_hist {p : Params} {w : World} (h : Inv p w) (i : Nat) (c : Cfg) (k : Nat)
    (t : CompactTx) (x : List CompactTx × List Bool) (D : List Bool) (f : Bool)
    (hD : w.decision = some D) (hf : D[k]? = some f) (hx : x ∈ w.history i)
    (hc : p.shards[i]? = some c) (hk : p.txs[k]? = some t) (ht : Concerns c t) :
    Did c p.txs k t f x := by
  obtain ⟨c', D', hc', hD', h1, h2⟩ := h.hist i x hx
  rw [hc, Option.some.injEq] at hc'
  subst hc'
  rw [hD, Option.some.injEq] at hD'
  subst hD'
  refine ⟨by rw [h1]; exact filter_place c p.txs k t hk ht, ?_⟩
  rw [(shardFlags_spec _ _ _ h2).2 _ k (idxs_place c p.txs k t hk ht), hf]

theorem done_decision {p : Params} {w : World} (h : Inv p w) (e : Exec) (he : e ∈ w.execs)
    (hs : e.stage = .done) (k : Nat) (f : Bool) (hf : e.dtx.complete[k]? = some f) :
    w.decision = some e.dtx.complete ∧ AppliedEverywhere p w := by
  obtain ⟨j, hj⟩ := List.mem_iff_getElem?.1 he
  have := h.execs j e hj
  simp only [ExecInv, hs] at this
  refine ⟨this.1.resolve_left ?_, this.2⟩
  intro hn
  rw [hn] at hf
  simp at hf

/-- C16. When a node has run the batch to completion and reports `f` for transaction `k`, every
shard that holds the transaction's id, an input or an output has applied the batch, and each time
it executed the transaction if `f = true` and undid it if `f = false`. -/
theorem C16_all_or_nothing (p : Params) (w : World) (h : Reach p w) (e : Exec)
    (he : e ∈ w.execs) (hdone : e.stage = .done) (k : Nat) (t : CompactTx) (f : Bool)
    (hk : p.txs[k]? = some t) (hf : e.dtx.complete[k]? = some f) (i : Nat) (c : Cfg)
    (hc : p.shards[i]? = some c) (ht : Concerns c t) :
    w.history i ≠ [] ∧ ∀ x ∈ w.history i, Did c p.txs k t f x := by
  have hi := reach_inv p w h
  obtain ⟨h1, h2⟩ := done_decision hi e he hdone k f hf
  exact ⟨h2 i c hc ⟨t, List.mem_of_getElem? hk, ht⟩,
    fun x hx => did_of_hist hi i c k t x _ f h1 hf hx hc hk ht⟩

/-- C16. The reported outcome is `true` exactly when every shard concerned granted the
transaction. -/
theorem C16_executed_iff_granted (p : Params) (w : World) (h : Reach p w) (e : Exec)
    (he : e ∈ w.execs) (hdone : e.stage = .done) (k : Nat) (t : CompactTx) (f : Bool)
    (hk : p.txs[k]? = some t) (hf : e.dtx.complete[k]? = some f) :
    f = true ↔ ∀ i c, p.shards[i]? = some c → Concerns c t → Granted p w i c k := by
  have hi := reach_inv p w h
  obtain ⟨h1, -⟩ := done_decision hi e he hdone k f hf
  rw [← (hi.dec _ h1).exact k t hk, hf, Option.some.injEq]

/-- C16. What it means that a shard granted the transaction: at the shard's first answer, the
transaction's attestations sufficed and its inputs on this shard were unspent and not taken by an
earlier granted transaction of the batch. -/
theorem C16_granted_means (p : Params) (w w' : World) (h : Reach p w) (hs : Step p w w') (i : Nat)
    (c : Cfg) (v : List Bool) (hc : p.shards[i]? = some c) (h0 : w.firstVote i = none)
    (h1 : w'.firstVote i = some v) (k : Nat) (t : CompactTx) (hk : p.txs[k]? = some t)
    (ht : Concerns c t) :
    v[place c p.txs k]? = some true ↔
      c.attested t = true ∧ ∀ x, c.owns x = true → x ∈ t.inputs →
        (w.shard i).uhs x = true ∧ ∀ (j : Nat) (u : CompactTx), j < k → p.txs[j]? = some u →
          Concerns c u → v[place c p.txs j]? = some true → x ∉ u.inputs := by
  have hi := reach_inv p w h
  have hund : w.decision = none := by
    cases hD : w.decision with
    | none => rfl
    | some D =>
      have := (hi.dec D hD).heard i c hc ⟨t, List.mem_of_getElem? hk, ht⟩
      rw [h0] at this; simp at this
  have hprep : (w.shard i).prepared p.d = none := by
    have := hi.first hund i
    rw [h0] at this
    exact Option.map_eq_none_iff.1 this.symm
  -- only the delivery of a lock request to this shard records a first answer
  have key : lockOutputs c (w.shard i) (p.txs.filter (relevant c)) p.d =
      ((lockOutputs c (w.shard i) (p.txs.filter (relevant c)) p.d).1, some v) := by
    cases hs with
    | deliver j c' q s' a hc' hq hst =>
      cases q with
      | lock ts d =>
        obtain ⟨rfl, c'', hc'', rfl⟩ := (hi.sent j _ hq).1
        rw [hc', Option.some.injEq] at hc''
        subst hc''
        simp only [step, Option.some.injEq, Prod.mk.injEq] at hst
        obtain ⟨rfl, rfl⟩ := hst
        cases hr : (lockOutputs c' (w.shard j) (p.txs.filter (relevant c')) p.d).2 with
        | none => simp [World.answered, World.setShard, hr, h0] at h1
        | some u =>
          simp only [World.answered, World.setShard, hr] at h1
          split at h1
          · rename_i e
            subst e
            rw [hc, Option.some.injEq] at hc'
            subst hc'
            rw [h0, Option.getD_none, Option.some.injEq] at h1
            subst h1
            rw [← hr]
          · rw [h0] at h1; simp at h1
      | apply fs d =>
        have : (w.answered p.d j (.apply fs d) a).firstVote i = w.firstVote i := by
          unfold World.answered; split <;> simp_all
        simp only [World.setShard, this, h0] at h1
        simp at h1
      | discard d =>
        have : (w.answered p.d j (.discard d) a).firstVote i = w.firstVote i := by
          unfold World.answered; split <;> simp_all
        simp only [World.setShard, this, h0] at h1
        simp at h1
      | stop => exact ((hi.sent j _ hq).1).elim
    | _ => simp_all [World.setExec, World.setShard, World.send]
  obtain ⟨-, h2, -⟩ := C14_lock_decision c _ _ _ _ v hprep key
  rw [h2 _ t (filter_place c p.txs k t hk ht)]
  refine and_congr_right fun _ => forall_congr' fun x => forall_congr' fun _ =>
    forall_congr' fun _ => and_congr_right fun _ => ?_
  constructor
  · intro g j u hjk hj hu hv
    refine g _ u ?_ (filter_place c p.txs j u hj hu) hv
    rw [place_eq, place_eq]
    have hsub : (p.txs.take k).countP (relevant c) =
        (p.txs.take j).countP (relevant c) + ((p.txs.drop j).take (k - j)).countP (relevant c) := by
      rw [← List.countP_append, ← List.take_add]
      congr 2
      omega
    have hhead : 0 < ((p.txs.drop j).take (k - j)).countP (relevant c) := by
      rw [List.countP_pos_iff]
      refine ⟨u, ?_, (relevant_iff c u).2 hu⟩
      apply List.mem_of_getElem? (i := 0)
      rw [List.getElem?_take]
      simp [hj, Nat.sub_pos_of_lt hjk]
    omega
  · intro g j u hjk hj hv
    have hlen : (idxsOf c p.txs).length = (p.txs.filter (relevant c)).length := idxs_length c p.txs
    have hlt := (List.getElem?_eq_some_iff.1 hj).1
    obtain ⟨m, hm⟩ : ∃ m, (idxsOf c p.txs)[j]? = some m :=
      ⟨_, List.getElem?_eq_getElem (by omega)⟩
    obtain ⟨u', hu', hcu, rfl⟩ := idxs_of c p.txs m j hm
    have : u = u' := by
      have := filter_place c p.txs m u' hu' hcu
      rw [hj, Option.some.injEq] at this
      exact this
    subst this
    refine g m u ?_ hu' hcu hv
    rcases Nat.lt_or_ge m k with h | h
    · exact h
    · exfalso
      rw [place_eq, place_eq] at hjk
      have := List.Sublist.countP_le (p := relevant c)
        (List.take_sublist_take_left (l := p.txs) h)
      omega

/-- The hypotheses of the theorems above are met by a run with two shards and a crash. -/
example : ∃ w, Reach exP w ∧ ∃ e ∈ w.execs, e.stage = .done ∧
    e.dtx.complete[0]? = some true ∧ e.dtx.complete[1]? = some false := by
  obtain ⟨w, h, e, he, hs, hc⟩ := exRun
  exact ⟨w, h, e, he, hs, by rw [hc]; rfl, by rw [hc]; rfl⟩

/-! ### C17 -/

/-- C17. Whatever crashes and recoveries happened, any two applications of the batch, on the same
shard or on different ones, agree about every transaction that concerns both shards. -/
theorem C17_one_decision (p : Params) (w : World) (h : Reach p w) (k : Nat) (t : CompactTx)
    (hk : p.txs[k]? = some t) :
    ∃ f, ∀ i c x, p.shards[i]? = some c → Concerns c t → x ∈ w.history i →
      Did c p.txs k t f x := by
  have hi := reach_inv p w h
  cases hD : w.decision with
  | none =>
    refine ⟨true, fun i c x hc ht hx => ?_⟩
    obtain ⟨_, D', -, hD', -⟩ := hi.hist i x hx
    rw [hD] at hD'; simp at hD'
  | some D =>
    have hl := (hi.dec D hD).length
    have hlt := (List.getElem?_eq_some_iff.1 hk).1
    exact ⟨D[k]'(by omega), fun i c x hc ht hx =>
      did_of_hist hi i c k t x D _ hD (List.getElem?_eq_getElem _) hx hc hk ht⟩

/-- C17. A node that completes the batch, having started it or recovered it at any point, reports
the outcome that any shard has applied; one that recovered it while it was being discarded reports
no outcomes. Two nodes that complete it report the same. -/
theorem C17_same_outcome (p : Params) (w : World) (h : Reach p w) (e e' : Exec)
    (he : e ∈ w.execs) (hdone : e.stage = .done) (he' : e' ∈ w.execs) (hdone' : e'.stage = .done) :
    e.dtx.complete = [] ∨ e'.dtx.complete = [] ∨ e.dtx.complete = e'.dtx.complete := by
  have hi := reach_inv p w h
  obtain ⟨j, hj⟩ := List.mem_iff_getElem?.1 he
  obtain ⟨j', hj'⟩ := List.mem_iff_getElem?.1 he'
  have h1 := hi.execs j e hj
  have h2 := hi.execs j' e' hj'
  simp only [ExecInv, hdone, hdone'] at h1 h2
  rcases h1.1 with h1 | h1
  · exact Or.inl h1
  · rcases h2.1 with h2 | h2
    · exact Or.inr (Or.inl h2)
    · rw [h1, Option.some.injEq] at h2
      exact Or.inr (Or.inr h2)

/-- C17. What a shard has applied stays as it is: later applications are added. -/
theorem C17_history_grows (p : Params) (w w' : World) (hs : Step p w w') (i : Nat) :
    w.history i <+: w'.history i := by
  cases hs with
  | deliver j c q s' a hc hq hst =>
    simp only [World.setShard]
    unfold World.answered
    split
    · exact List.prefix_refl _
    · simp only
      split
      · split
        · exact List.prefix_append _ _
        · exact List.prefix_refl _
      · exact List.prefix_refl _
    · exact List.prefix_refl _
    · exact List.prefix_refl _
  | _ => exact List.prefix_refl _

/-- C17. A batch about which a shard may have heard is never lost: it is recorded in the
replicated state, ready to be resumed, or every shard concerned has applied it. -/
theorem C17_never_lost (p : Params) (w : World) (h : Reach p w) (i : Nat) (q : Req)
    (hq : w.sent i q) : Recorded p w ∨ AppliedEverywhere p w := by
  rcases ((reach_inv p w h).sent i q hq).2 with g | g | g
  · exact Or.inl (Or.inl g)
  · exact Or.inl (Or.inr (Or.inl g))
  · exact Or.inr g

/-- C17, finding. A node that recovers a batch in the discard phase has lost the list of shards
(`recover_discard` does not restore it): it contacts no shard, so shards that had not yet forgotten
the batch keep its id for ever. -/
theorem C17_recovered_discard_silent_violated (shards : List Cfg) (i : Nat) :
    ¬ (Exec.mk (Dtx.recoverDiscard shards) (.discarding fun _ => false)).involves i := by
  rintro ⟨is, hi, hne⟩
  simp only [Dtx.recoverDiscard, Dtx.new, List.getElem?_map, Option.map_eq_some_iff] at hi
  obtain ⟨_, -, rfl⟩ := hi
  exact hne rfl

/-! ### C59 -/

theorem punctual_reach (p : Params) (w : World) (h : Punctual p w) : Reach p w := by
  induction h with
  | init w h => exact .init w h
  | step w w' _ hs _ ih => exact ih.step _ _ hs

theorem punctual_once (p : Params) (w : World) (h : Punctual p w) (i : Nat) :
    (w.history i).length ≤ 1 ∧ (w.history i ≠ [] → (w.shard i).prepared p.d = none) := by
  induction h with
  | init w h => simp [h.records.2.2 i]
  | step w w' hw hs hl ih =>
    have hi := reach_inv p w (punctual_reach p w hw)
    cases hs with
    | deliver j c q s' a hc hq hst =>
      by_cases e : i = j
      · subst e
        cases q with
        | lock ts d =>
          obtain ⟨rfl, -⟩ := (hi.sent i _ hq).1
          have hsame : ((w.answered p.d i (.lock ts p.d) a).setShard i s').history i =
              w.history i := by
            simp only [World.setShard]
            unfold World.answered
            split <;> simp_all
          rw [hsame]
          refine ⟨ih.1, fun hne => Classical.byContradiction fun hp => hl ⟨i, hne, ih.2 hne, hp⟩⟩
        | apply fs d =>
          obtain ⟨rfl, -⟩ := (hi.sent i _ hq).1
          simp only [step, Option.map_eq_some_iff] at hst
          obtain ⟨⟨s1, b⟩, hst, e⟩ := hst
          simp only [Prod.mk.injEq] at e
          obtain ⟨rfl, rfl⟩ := e
          unfold applyOutputs at hst
          split at hst
          · simp only [Option.some.injEq, Prod.mk.injEq] at hst
            obtain ⟨rfl, rfl⟩ := hst
            simpa [World.answered, World.setShard] using ih
          · split at hst
            · rename_i hn
              split at hst
              · simp only [Option.some.injEq, Prod.mk.injEq] at hst
                obtain ⟨rfl, rfl⟩ := hst
                simpa [World.answered, World.setShard, hn] using ih.1
              · simp at hst
            · rename_i b hb
              split at hst
              · simp at hst
              · simp only [Option.some.injEq, Prod.mk.injEq] at hst
                obtain ⟨rfl, rfl⟩ := hst
                have hnil : w.history i = [] := by
                  cases hh : w.history i with
                  | nil => rfl
                  | cons x xs => have := ih.2 (by simp [hh]); rw [hb] at this; simp at this
                simp [World.answered, World.setShard, hb, hnil]
        | discard d =>
          have hd : d = p.d := (hi.sent i _ hq).1
          subst hd
          simp only [step, Option.some.injEq, Prod.mk.injEq] at hst
          obtain ⟨rfl, rfl⟩ := hst
          have h1 : ((w.answered p.d i (.discard p.d)
              (.discard (discardDtx (w.shard i) p.d).2)).setShard i
              (discardDtx (w.shard i) p.d).1).history i = w.history i := by
            simp only [World.setShard]
            unfold World.answered
            split <;> simp_all
          have h2 : (discardDtx (w.shard i) p.d).1.prepared p.d = (w.shard i).prepared p.d := by
            unfold discardDtx; split <;> rfl
          rw [h1]
          simp only [World.setShard, if_true, h2]
          exact ih
        | stop => exact (hi.sent i _ hq).1.elim
      · have h1 : ((w.answered p.d j q a).setShard j s').history i = w.history i := by
          simp only [World.setShard]
          unfold World.answered
          split
          · rfl
          · simp only
            split <;> simp [e]
          · rfl
          · rfl
        rw [h1]
        have h2 : ((w.answered p.d j q a).setShard j s').shard i = w.shard i := by
          simp only [World.setShard, if_neg e]
          unfold World.answered
          split <;> rfl
        rw [h2]
        exact ih
    | otherShard j c q s' a _ hc hf hst =>
      refine ⟨ih.1, fun g => ?_⟩
      have := ih.2 g
      simp only [World.setShard]
      split
      · rename_i e; subst e
        rw [(foreign_keeps c _ _ q a p.d hf hst).1]; exact this
      · exact this
    | _ => exact ih

/-- C59. If no lock request of the batch is accepted after the shard has applied the batch, the shard
applies it at most once, whatever is repeated, crashes and is recovered. Missing: late lock
requests, see `C59_twice_violated`. -/
theorem C59_once_partial (p : Params) (w : World) (h : Punctual p w) (i : Nat) :
    (w.history i).length ≤ 1 := (punctual_once p w h i).1

theorem notLate (p : Params) (w w' : World) (h : ∀ i, w.history i = []) : ¬ LateLock p w w' := by
  rintro ⟨i, hne, -⟩
  exact hne (h i)

/-- A run without late lock requests in which a shard applies the batch. -/
example : ∃ w, Punctual exP w ∧ (w.history 1).length = 1 := by
  have r := Punctual.init (p := exP) _ exW0_init
  have r := r.step _ _ (Step.prepareCb _ 0 _ _ false rfl rfl rfl) (notLate _ _ _ fun _ => rfl)
  have r := r.step _ _ (Step.sendLock _ 0 _ _ 0 _ rfl rfl ⟨_, rfl, by decide⟩ rfl)
    (notLate _ _ _ fun _ => rfl)
  have r := r.step _ _ (Step.sendLock _ 0 _ _ 1 _ rfl rfl ⟨_, rfl, by decide⟩ rfl)
    (notLate _ _ _ fun _ => rfl)
  have r := r.step _ _ (Step.deliver _ 0 _ _ _ _ rfl (Or.inr (Or.inl ⟨rfl, rfl⟩)) rfl)
    (notLate _ _ _ fun _ => rfl)
  have r := r.step _ _ (Step.deliver _ 1 _ _ _ _ rfl (Or.inl ⟨rfl, rfl⟩) rfl)
    (notLate _ _ _ fun _ => rfl)
  have r := r.step _ _ (Step.recvVote _ 0 _ _ 0 [true, true] rfl rfl (Or.inr (Or.inl ⟨rfl, rfl⟩)))
    (notLate _ _ _ fun _ => rfl)
  have r := r.step _ _ (Step.recvVote _ 0 _ _ 1 [true, false] rfl rfl (Or.inl ⟨rfl, rfl⟩))
    (notLate _ _ _ fun _ => rfl)
  have r := r.step _ _ (Step.decide _ 0 _ _ [true, false] rfl rfl
    (by rintro i ⟨is, hi, -⟩
        match i with
        | 0 => rfl
        | 1 => rfl
        | i + 2 => cases hi) rfl) (notLate _ _ _ fun _ => rfl)
  have r := r.step _ _ (Step.commitCb _ 0 _ _ false rfl rfl rfl) (notLate _ _ _ fun _ => rfl)
  have r := r.step _ _ (Step.sendApply _ 0 _ _ 1 _ _ rfl rfl rfl (by decide) rfl)
    (notLate _ _ _ fun _ => rfl)
  have r := r.step _ _ (Step.deliver _ 1 _ _ _ _ rfl (Or.inl ⟨rfl, rfl⟩) rfl)
    (notLate _ _ _ fun _ => rfl)
  exact ⟨_, r, rfl⟩

/-- The coin `exMove` creates on the second shard. -/
def exNew : Hash := fill 32 200
/-- Someone else spends it. -/
def exSpend : CompactTx := exT 160 [exNew] [fill 32 210]

/-- C59 fails in general. A repeated lock request that arrives after the batch was applied is
accepted as a new batch; a repeated apply request then creates the outputs again. Here the coin
had been created, spent by another transaction and was gone; after the two late copies it is
unspent again. -/
theorem C59_twice_violated : ∃ w w', Reach exP w ∧ Reach exP w' ∧
    checkUnspent (w.shard 1) exNew = false ∧ (w.history 1).length = 1 ∧
    checkUnspent (w'.shard 1) exNew = true ∧ (w'.history 1).length = 2 := by
  have r := Reach.init (p := exP) _ exW0_init
  have r := r.step _ _ (Step.prepareCb _ 0 _ _ false rfl rfl rfl)
  have r := r.step _ _ (Step.sendLock _ 0 _ _ 0 _ rfl rfl ⟨_, rfl, by decide⟩ rfl)
  have r := r.step _ _ (Step.sendLock _ 0 _ _ 1 _ rfl rfl ⟨_, rfl, by decide⟩ rfl)
  have r := r.step _ _ (Step.deliver _ 0 _ _ _ _ rfl (Or.inr (Or.inl ⟨rfl, rfl⟩)) rfl)
  have r := r.step _ _ (Step.deliver _ 1 _ _ _ _ rfl (Or.inl ⟨rfl, rfl⟩) rfl)
  have r := r.step _ _ (Step.recvVote _ 0 _ _ 0 [true, true] rfl rfl (Or.inr (Or.inl ⟨rfl, rfl⟩)))
  have r := r.step _ _ (Step.recvVote _ 0 _ _ 1 [true, false] rfl rfl (Or.inl ⟨rfl, rfl⟩))
  have r := r.step _ _ (Step.decide _ 0 _ _ [true, false] rfl rfl
    (by rintro i ⟨is, hi, -⟩
        match i with
        | 0 => rfl
        | 1 => rfl
        | i + 2 => cases hi) rfl)
  have r := r.step _ _ (Step.commitCb _ 0 _ _ false rfl rfl rfl)
  have r := r.step _ _ (Step.sendApply _ 0 _ _ 1 _ _ rfl rfl rfl (by decide) rfl)
  have r := r.step _ _ (Step.deliver _ 1 _ _ _ _ rfl (Or.inl ⟨rfl, rfl⟩) rfl)
  have r := r.step _ _ (Step.otherShard _ 1 _ (.lock [exSpend] dB) _ _ rfl rfl
    (show dB ≠ dA by decide) rfl)
  have r := r.step _ _ (Step.otherShard _ 1 _ (.apply [true] dB) _ _ rfl rfl
    (show dB ≠ dA by decide) rfl)
  have q := r.step _ _ (Step.deliver _ 1 _ _ _ _ rfl (Or.inr (Or.inl ⟨rfl, rfl⟩)) rfl)
  have q := q.step _ _ (Step.deliver _ 1 _ _ _ _ rfl (Or.inl ⟨rfl, rfl⟩) rfl)
  exact ⟨_, _, r, q, rfl, rfl, rfl, rfl⟩

end Verif.Coordinator
