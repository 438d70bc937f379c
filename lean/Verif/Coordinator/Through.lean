import Verif.Coordinator.Finish

/-!
# A payment of unspent coins goes through the coordinators and shards (C135)

No code of its own: the world of C16 and C17, and the runs of C134.
-/
namespace Verif.Coordinator.Through

open Verif.Tx Verif.LockingShard Verif.Coordinator Verif.Coordinator.Finish

/-! ### Specification -/

/-- Every shard that holds the transaction's identifier, an input or an output of it finds it attested, and has the inputs it is to have,
unspent and not locked. -/
def Payable (p : Params) (w : World) (t : CompactTx) : Prop :=
  ∀ i c, p.shards[i]? = some c → Concerns c t → c.attested t = true ∧ ∀ x, c.owns x = true → x ∈ t.inputs → (w.shard i).uhs x = true

/-- No transaction before number `k` of the batch spends an input of `t`. -/
def Before (p : Params) (k : Nat) (t : CompactTx) : Prop := ∀ (j : Nat) (u : CompactTx), j < k → p.txs[j]? = some u → ∀ x ∈ t.inputs, x ∉ u.inputs

/-! ### The first answer of a shard is about the coins it had -/

/-- What is left of a shard that has not answered yet. -/
def Untouched (p : Params) (w0 w : World) (i : Nat) : Prop :=
  w.firstVote i = none → (w.shard i).uhs = (w0.shard i).uhs ∧ (w.shard i).prepared p.d = none ∧ (w.shard i).applied p.d = false

theorem untouched_step {p : Params} {w0 w w' : World} (hal : p.alone = true) (h : Reach p w) (hs : Step p w w') (i : Nat)
    (ih : Untouched p w0 w i) : Untouched p w0 w' i := by
  have hi := reach_inv p w h
  cases hs with
  | deliver j c q s' a hc hq hst =>
    unfold Untouched
    simp only [World.setShard, (answered_shard w p.d j q a).1]
    cases q with
    | lock ts d =>
      obtain ⟨rfl, -⟩ := (hi.sent j _ hq).1
      simp only [step, Option.some.injEq, Prod.mk.injEq] at hst
      obtain ⟨rfl, rfl⟩ := hst
      by_cases e : i = j
      · subst e
        unfold lockOutputs
        split
        · simpa [World.answered, Untouched] using ih
        · split <;> simp [World.answered]
      · rw [if_neg e]
        intro hn
        refine ih ?_
        unfold World.answered at hn
        split at hn
        · simpa only [if_neg e] using hn
        · rename_i he _; exact nomatch he
        · rename_i he _; exact nomatch he
        · exact hn
    | apply fs d =>
      obtain ⟨rfl, -⟩ := (hi.sent j _ hq).1
      have hf : (w.answered p.d j (.apply fs p.d) a).firstVote = w.firstVote := by unfold World.answered; split <;> simp_all
      rw [hf]
      intro hn
      obtain ⟨h1, h2, h3⟩ := ih hn
      by_cases e : i = j
      · subst e
        simp only [step, applyOutputs, h2, h3] at hst
        split at hst
        · simp only [Option.map_some, Option.some.injEq, Prod.mk.injEq] at hst
          rw [if_pos rfl, ← hst.1]; exact ⟨h1, h2, h3⟩
        · exact nomatch hst
      · rw [if_neg e]; exact ⟨h1, h2, h3⟩
    | discard d =>
      have hd : d = p.d := (hi.sent j _ hq).1
      subst hd
      have hf : (w.answered p.d j (.discard p.d) a).firstVote = w.firstVote := by unfold World.answered; split <;> simp_all
      rw [hf]
      intro hn
      obtain ⟨h1, h2, h3⟩ := ih hn
      by_cases e : i = j
      · subst e
        simp only [step, Option.some.injEq, Prod.mk.injEq] at hst
        rw [if_pos rfl, ← hst.1]
        unfold discardDtx
        split
        · exact ⟨h1, h2, by simp [HSet.del]⟩
        · exact ⟨h1, h2, h3⟩
      · rw [if_neg e]; exact ⟨h1, h2, h3⟩
    | stop => exact ((hi.sent j _ hq).1).elim
  | otherShard j c q s' a hf => rw [hal] at hf; exact nomatch hf
  | _ => exact ih

theorem first_stays {p : Params} {w w' : World} (hs : Step p w w') (i : Nat) {v : List Bool} (h : w.firstVote i = some v) :
    w'.firstVote i = some v := by
  cases hs with
  | deliver j c q s' a hc hq hst =>
    simp only [World.setShard]
    unfold World.answered
    split
    · by_cases e : i = j
      · subst e; simp [h]
      · simp only [if_neg e]; exact h
    · exact h
    · exact h
    · exact h
  | _ => exact h

theorem untouched {p : Params} {w0 w : World} (h0 : Init p w0) (hal : p.alone = true) (h : Steps p w0 w) (i : Nat) : Untouched p w0 w i := by
  induction h with
  | refl => exact fun _ => ⟨rfl, h0.shards i⟩
  | tail v w hv hs ih => exact untouched_step hal (hv.reach (.init _ h0)) hs i ih

/-- The first answer of a shard, in terms of the coins it had when the batch was new. -/
theorem first_answer {p : Params} {w0 w : World} (h0 : Init p w0) (hal : p.alone = true) (h : Steps p w0 w) (i : Nat) (c : Cfg)
    (hc : p.shards[i]? = some c) (v : List Bool) (hv : w.firstVote i = some v) (k : Nat) (t : CompactTx) (hk : p.txs[k]? = some t)
    (ht : Concerns c t) :
    v[place c p.txs k]? = some true ↔ c.attested t = true ∧ ∀ x, c.owns x = true → x ∈ t.inputs →
      (w0.shard i).uhs x = true ∧ ∀ (j : Nat) (u : CompactTx), j < k → p.txs[j]? = some u → Concerns c u →
        v[place c p.txs j]? = some true → x ∉ u.inputs := by
  induction h with
  | refl => rw [h0.records.1 i] at hv; exact nomatch hv
  | tail u w hu hs ih =>
    cases hf : u.firstVote i with
    | some v' =>
      have := first_stays hs i hf
      rw [hv, Option.some.injEq] at this
      subst this
      exact ih hf
    | none =>
      have hr : Reach p u := hu.reach (.init _ h0)
      rw [C16_granted_means p u w hr hs i c v hc hf hv k t hk ht, ((untouched h0 hal hu i) hf).1]

/-- **C135.** With no other work on the shards between, the answer to a payment is decided by the coins they had when the batch was new,
whatever happens to the nodes and the messages: when no transaction before it in the batch spends a coin of it, a node that has seen the batch
through reports it executed exactly when every shard concerned found it attested and had its inputs. -/
theorem C135_outcome {p : Params} {w0 w : World} (h0 : Init p w0) (hal : p.alone = true) (h : Steps p w0 w) (e : Exec) (he : e ∈ w.execs)
    (hdone : e.stage = .done) (k : Nat) (t : CompactTx) (f : Bool) (hk : p.txs[k]? = some t) (hf : e.dtx.complete[k]? = some f)
    (hb : Before p k t) : f = true ↔ Payable p w0 t := by
  have hr : Reach p w := h.reach (.init _ h0)
  rw [C16_executed_iff_granted p w hr e he hdone k t f hk hf]
  refine forall_congr' fun i => forall_congr' fun c => forall_congr' fun hc => forall_congr' fun ht => ?_
  constructor
  · rintro ⟨v, hv, hg⟩
    obtain ⟨h1, h2⟩ := (first_answer h0 hal h i c hc v hv k t hk ht).mp hg
    exact ⟨h1, fun x ho hx => (h2 x ho hx).1⟩
  · rintro ⟨h1, h2⟩
    have hi := reach_inv p w hr
    obtain ⟨hD, -⟩ := done_decision hi e he hdone k f hf
    obtain ⟨v, hv⟩ := Option.isSome_iff_exists.mp ((hi.dec _ hD).heard i c hc ⟨t, List.mem_of_getElem? hk, ht⟩)
    exact ⟨v, hv, (first_answer h0 hal h i c hc v hv k t hk ht).mpr
      ⟨h1, fun x ho hx => ⟨h2 x ho hx, fun j u hj hu _ _ => hb j u hj hu x hx⟩⟩⟩

/-! ### The coins that were paid are there -/

theorem settleInputs_up (c : Cfg) (f : Bool) (xs : List Hash) : ∀ (s : State) (y : Hash), s.uhs y = true → (settleInputs c s f xs).uhs y = true := by
  induction xs with
  | nil => exact fun _ _ h => h
  | cons x xs ih =>
    intro s y h
    refine ih _ y ?_
    split
    · show (if (!f && s.locked x) = true then s.uhs.add x else s.uhs) y = true
      split
      · simp [HSet.add, h]
      · exact h
    · exact h

theorem applyTx_up (c : Cfg) (s : State) (t : CompactTx) (f : Bool) (y : Hash)
    (h : s.uhs y = true ∨ f = true ∧ c.owns y = true ∧ y ∈ t.uhsOutputs) : (applyTx c s t f).uhs y = true := by
  refine settleInputs_up c f _ _ y ((createOutputs_uhs c _ f _ y).mpr ?_)
  rcases h with h | h
  · left; split <;> exact h
  · exact .inr h

theorem applyLoop_up (c : Cfg) (y : Hash) (ts : List CompactTx) : ∀ (s : State) (fs : List Bool),
    (s.uhs y = true ∨ ∃ (m : Nat) (t : CompactTx), ts[m]? = some t ∧ fs[m]? = some true ∧ c.owns y = true ∧ y ∈ t.uhsOutputs) →
    (applyLoop c s ts fs).uhs y = true := by
  induction ts with
  | nil => rintro s fs (h | ⟨m, t, h, _⟩)
           · cases fs <;> exact h
           · exact nomatch h
  | cons t ts ih =>
    intro s fs h
    cases fs with
    | nil =>
      rcases h with h | ⟨m, _, _, h, _⟩
      · exact h
      · exact nomatch h
    | cons f fs =>
      refine ih _ fs ?_
      rcases h with h | ⟨m, u, hu, hf, ho, hy⟩
      · exact .inl (applyTx_up c s t f y (.inl h))
      · cases m with
        | zero =>
          simp only [List.getElem?_cons_zero, Option.some.injEq] at hu hf
          subst hu hf
          exact .inl (applyTx_up c s t true y (.inr ⟨rfl, ho, hy⟩))
        | succ m => exact .inr ⟨m, u, hu, hf, ho, hy⟩

/-- After the batch was applied the shard does not hold it, and has the outputs of what was executed. -/
def Received (p : Params) (w : World) : Prop :=
  ∀ i c, p.shards[i]? = some c → w.history i ≠ [] → (w.shard i).prepared p.d = none ∧
    ∀ x ∈ w.history i, ∀ (m : Nat) (t : CompactTx), x.1[m]? = some t → x.2[m]? = some true → ∀ y ∈ t.uhsOutputs, c.owns y = true →
      (w.shard i).uhs y = true

theorem received_step {p : Params} {w w' : World} (hal : p.alone = true) (h : Reach p w) (hs : Step p w w') (hl : ¬ LateLock p w w')
    (ih : Received p w) : Received p w' := by
  have hi := reach_inv p w h
  cases hs with
  | deliver j c q s' a hc hq hst =>
    intro i ci hci
    simp only [World.setShard, (answered_shard w p.d j q a).1]
    cases q with
    | lock ts d =>
      obtain ⟨rfl, -⟩ := (hi.sent j _ hq).1
      have hh : (w.answered p.d j (.lock ts p.d) a).history = w.history := by
        unfold World.answered
        split <;> first | rfl | (rename_i he _; exact nomatch he)
      rw [hh]
      by_cases e : i = j
      · subst e
        rw [hc, Option.some.injEq] at hci
        subst hci
        rw [if_pos rfl]
        intro hne
        obtain ⟨h1, h2⟩ := ih i c hc hne
        have hn : s'.prepared p.d = none := by
          refine Classical.byContradiction fun hx => hl ⟨i, hne, h1, ?_⟩
          simp only [World.setShard, if_true]
          exact hx
        simp only [step, Option.some.injEq, Prod.mk.injEq] at hst
        obtain ⟨rfl, -⟩ := hst
        unfold lockOutputs at hn ⊢
        split at hn
        · rename_i hr; rw [if_pos hr]; exact ⟨h1, h2⟩
        · rw [h1] at hn; simp at hn
      · rw [if_neg e]; exact ih i ci hci
    | apply fs d =>
      obtain ⟨rfl, -⟩ := (hi.sent j _ hq).1
      by_cases e : i = j
      · subst e
        rw [hc, Option.some.injEq] at hci
        subst hci
        rw [if_pos rfl]
        simp only [step, Option.map_eq_some_iff] at hst
        obtain ⟨⟨s1, b⟩, hst, e⟩ := hst
        simp only [Prod.mk.injEq] at e
        obtain ⟨rfl, rfl⟩ := e
        unfold applyOutputs at hst
        split at hst
        · simp only [Option.some.injEq, Prod.mk.injEq] at hst
          obtain ⟨rfl, rfl⟩ := hst
          exact ih i c hc
        · split at hst
          · rename_i hp
            split at hst
            · simp only [Option.some.injEq, Prod.mk.injEq] at hst
              obtain ⟨rfl, rfl⟩ := hst
              simp only [World.answered, hp]
              exact fun hne => ⟨trivial, (ih i c hc hne).2⟩
            · exact nomatch hst
          · rename_i b hp
            split at hst
            · exact nomatch hst
            · simp only [Option.some.injEq, Prod.mk.injEq] at hst
              obtain ⟨rfl, rfl⟩ := hst
              simp only [World.answered, hp, if_true]
              intro _
              refine ⟨trivial, fun x hx m t hm hf y hy ho => ?_⟩
              rcases List.mem_append.mp hx with hx | hx
              · exact applyLoop_up c y _ _ _ (.inl ((ih i c hc (List.ne_nil_of_mem hx)).2 x hx m t hm hf y hy ho))
              · cases List.mem_singleton.mp hx
                exact applyLoop_up c y _ _ _ (.inr ⟨m, t, hm, hf, ho, hy⟩)
      · rw [if_neg e]
        have hh : (w.answered p.d j (.apply fs p.d) a).history i = w.history i := by
          unfold World.answered
          split
          · rfl
          · simp only [if_neg e]; split <;> rfl
          · rfl
          · rfl
        rw [hh]
        exact ih i ci hci
    | discard d =>
      have hh : (w.answered p.d j (.discard d) a).history = w.history := by
        unfold World.answered
        split <;> first | rfl | (rename_i he _; exact nomatch he)
      rw [hh]
      by_cases e : i = j
      · subst e
        rw [hc, Option.some.injEq] at hci
        subst hci
        simp only [step, Option.some.injEq, Prod.mk.injEq] at hst
        rw [if_pos rfl, ← hst.1]
        unfold discardDtx
        split <;> exact ih i c hc
      · rw [if_neg e]; exact ih i ci hci
    | stop => exact ((hi.sent j _ hq).1).elim
  | otherShard j c q s' a hf => rw [hal] at hf; exact nomatch hf
  | _ => exact ih

theorem received {p : Params} {w0 w : World} (h0 : Init p w0) (hal : p.alone = true) (h : Runs p w0 w) : Received p w := by
  induction h with
  | refl => exact fun i c _ hn => absurd (h0.records.2.2 i) hn
  | tail v w hv hs hl ih => exact received_step hal (hv.reach (.init _ h0)) hs hl ih

/-- The batch, done alone. -/
theorem through_alone {p : Params} {w0 : World} (h0 : Init p w0) (hal : p.alone = true) (hup : Up p w0) :
    ∃ w e, Steps p w0 w ∧ Finished p w ∧ e ∈ w.execs ∧ e.stage = .done ∧ ∀ k t, p.txs[k]? = some t → Before p k t →
      ∃ f, e.dtx.complete[k]? = some f ∧ (f = true ↔ Payable p w0 t) ∧
        ∀ i c, p.shards[i]? = some c → Concerns c t → w.history i ≠ [] ∧ (∀ x ∈ w.history i, Did c p.txs k t f x) ∧
          (f = true → ∀ y ∈ t.uhsOutputs, c.owns y = true → (w.shard i).uhs y = true) := by
  have hr : Reach p w0 := .init _ h0
  obtain ⟨w, D, h1, h2, h3, h4⟩ := end_fresh hr hup ⟨_, by rw [h0.execs]; exact List.mem_singleton.mpr rfl, rfl⟩
  refine ⟨w, _, h1.steps, h2, h4, rfl, fun k t hk hb => ?_⟩
  have hlt : k < D.length := by rw [h3]; exact (List.getElem?_eq_some_iff.mp hk).1
  have hf : D[k]? = some D[k] := List.getElem?_eq_getElem hlt
  refine ⟨D[k], hf, C135_outcome h0 hal h1.steps _ h4 rfl k t _ hk hf hb, fun i c hc ht => ?_⟩
  obtain ⟨g1, g2⟩ := C16_all_or_nothing p w (h1.reach hr) _ h4 rfl k t _ hk hf i c hc ht
  refine ⟨g1, g2, fun ht y hy ho => ?_⟩
  obtain ⟨x, hx⟩ := List.exists_mem_of_ne_nil _ g1
  obtain ⟨d1, d2⟩ := g2 x hx
  rw [ht] at d2
  exact (received h0 hal h1 i c hc g1).2 x hx _ t d1 d2 y hy ho

theorem steps_among {shards : List Cfg} {d : Hash} {txs : List CompactTx} {w w' : World}
    (h : Steps ⟨shards, d, txs, true⟩ w w') : Steps ⟨shards, d, txs, false⟩ w w' := by
  induction h with
  | refl => exact .refl _
  | tail u v _ hs ih => exact ih.tail _ _ _ (step_among hs)

/-- **C135.** From every state of the shards, provided they are up, there is a run in which a new batch is seen through, with an answer to each
of its payments. A payment whose coins no earlier one of the batch spends is executed, by every shard concerned, when the shards concerned
find it attested and have its inputs, and its outputs are then there to be spent. Else it is undone by every one of them. -/
theorem C135_through {p : Params} {w0 : World} (h0 : Init p w0) (hup : Up p w0) :
    ∃ w e, Steps p w0 w ∧ Finished p w ∧ e ∈ w.execs ∧ e.stage = .done ∧ ∀ k t, p.txs[k]? = some t → Before p k t →
      ∃ f, e.dtx.complete[k]? = some f ∧ (f = true ↔ Payable p w0 t) ∧
        ∀ i c, p.shards[i]? = some c → Concerns c t → w.history i ≠ [] ∧ (∀ x ∈ w.history i, Did c p.txs k t f x) ∧
          (f = true → ∀ y ∈ t.uhsOutputs, c.owns y = true → (w.shard i).uhs y = true) := by
  obtain ⟨shards, d, txs, al⟩ := p
  cases al with
  | true => exact through_alone h0 rfl hup
  | false =>
    obtain ⟨w, e, h1, h2⟩ := through_alone (p := ⟨shards, d, txs, true⟩) (w0 := w0)
      ⟨h0.execs, h0.rep, h0.shards, h0.sent, h0.voted, h0.acks, h0.records⟩ rfl hup
    exact ⟨w, e, steps_among h1, h2⟩

/-- Of two payments of a batch, the one of a coin that is there is executed, and the one of a coin that nobody has is not. -/
example : ∃ w e, Steps exP exW0 w ∧ e ∈ w.execs ∧ e.stage = .done ∧ e.dtx.complete[0]? = some true ∧ e.dtx.complete[1]? = some false := by
  have hb : Before exP 1 exBad := by
    intro j u hj hu
    match j, hj with
    | 0, _ => cases hu; decide +kernel
  have h0 : Payable exP exW0 exMove := by
    intro i c hc ht
    match i with
    | 0 =>
      cases hc
      refine ⟨by decide +kernel, fun x ho hx => ?_⟩
      have : x = coinX := by simpa [exMove, exT] using hx
      subst this
      revert ho; decide +kernel
    | 1 =>
      cases hc
      refine ⟨by decide +kernel, fun x ho hx => ?_⟩
      have : x = coinX := by simpa [exMove, exT] using hx
      subst this
      revert ho; decide +kernel
    | i + 2 => exact nomatch hc
  have h1 : ¬ Payable exP exW0 exBad := by
    intro h
    have := (h 1 exS1 rfl (by decide +kernel)).2 (fill 32 201) (by decide +kernel) (by decide +kernel)
    revert this; decide +kernel
  obtain ⟨w, e, hs, _, he, hd, hx⟩ := C135_through exW0_init exFresh.1
  obtain ⟨f, hf, hp, _⟩ := hx 0 exMove rfl (fun j u hj => absurd hj (Nat.not_lt_zero j))
  obtain ⟨g, hg, hq, _⟩ := hx 1 exBad rfl hb
  refine ⟨w, e, hs, he, hd, by rw [hf, hp.mpr h0], ?_⟩
  rw [hg]
  cases g with
  | false => rfl
  | true => exact absurd (hq.mp rfl) h1

end Verif.Coordinator.Through
