import Verif.Coordinator.SystemViews

/-!
# A batch that was taken up can be finished (C134)

No code of its own: the coordinators, their replicated state and the shards of C16 and C17. Whatever has happened to a batch, crashes and
messages that came late or twice included, there is a way on to its end.
-/
namespace Verif.Coordinator.Finish

open Verif.Tx Verif.LockingShard Verif.Coordinator

/-! ### Specification -/

/-- Some steps of the world. -/
inductive Steps (p : Params) : World → World → Prop where
  | refl (w : World) : Steps p w w
  | tail (u v w : World) : Steps p u v → Step p v w → Steps p u w

theorem Steps.trans {p : Params} {u v w : World} (h : Steps p u v) (h' : Steps p v w) : Steps p u w := by
  induction h' with
  | refl => exact h
  | tail v w _ hs ih => exact ih.tail _ _ _ hs

theorem Steps.reach {p : Params} {u v : World} (hu : Reach p u) (h : Steps p u v) : Reach p v := by
  induction h with
  | refl => exact hu
  | tail v w _ hs ih => exact .step _ _ ih hs

/-- The shards are up. -/
def Up (p : Params) (w : World) : Prop := ∀ i c, p.shards[i]? = some c → (w.shard i).running = true

/-- A node holds the batch and has not recorded it yet. -/
def Fresh (w : World) : Prop := ∃ e ∈ w.execs, e.stage = .start

/-- The batch is finished: a node has seen it through, after which the callers it still knows have their answer, and the replicated state of
the coordinators is rid of it. -/
def Finished (p : Params) (w : World) : Prop := (∃ e ∈ w.execs, e.stage = .done) ∧ ¬ Recorded p w

/-! ### Runs without late lock requests -/

/-- Some steps of the world, none of which has a shard take up the batch again after it applied it. -/
inductive Runs (p : Params) : World → World → Prop where
  | refl (w : World) : Runs p w w
  | tail (u v w : World) : Runs p u v → Step p v w → ¬ LateLock p v w → Runs p u w

theorem Runs.trans {p : Params} {u v w : World} (h : Runs p u v) (h' : Runs p v w) : Runs p u w := by
  induction h' with
  | refl => exact h
  | tail v w _ hs hl ih => exact ih.tail _ _ _ hs hl

theorem Runs.steps {p : Params} {u v : World} (h : Runs p u v) : Steps p u v := by
  induction h with
  | refl => exact .refl _
  | tail v w _ hs _ ih => exact ih.tail _ _ _ hs

theorem Runs.reach {p : Params} {u v : World} (hu : Reach p u) (h : Runs p u v) : Reach p v := h.steps.reach hu

/-- A step that leaves the shards alone. -/
theorem Runs.quiet {p : Params} {u v w : World} (h : Runs p u v) (hs : Step p v w) (e : w.shard = v.shard) : Runs p u w :=
  h.tail _ _ _ hs (by rintro ⟨i, _, h1, h2⟩; rw [e] at h2; exact h2 h1)

/-- A step after which a shard at most holds the batch no longer. -/
theorem Runs.fall {p : Params} {u v w : World} (h : Runs p u v) (hs : Step p v w)
    (e : ∀ i, (v.shard i).prepared p.d = none → (w.shard i).prepared p.d = none) : Runs p u w :=
  h.tail _ _ _ hs (by rintro ⟨i, _, h1, h2⟩; exact h2 (e i h1))

/-! ### More invariants -/

/-- A prepared batch has a result for each transaction. -/
theorem step_results {c : Cfg} {s s' : State} {q : Req} {a : Resp} {d : Hash} (h : step c s q = some (s', a))
    (hs : ∀ b, s.prepared d = some b → b.results.length = b.txs.length) :
    ∀ b, s'.prepared d = some b → b.results.length = b.txs.length := by
  cases q with
  | lock ts d' =>
    simp only [step, Option.some.injEq, Prod.mk.injEq] at h
    obtain ⟨rfl, -⟩ := h
    unfold lockOutputs
    split
    · exact hs
    · split
      · exact hs
      · obtain ⟨-, f2, -, -⟩ := lockLoop_frame c s ts
        intro b hb
        simp only at hb
        split at hb
        · cases hb; exact lockLoop_length c s ts
        · rw [f2] at hb; exact hs b hb
  | apply fs d' =>
    simp only [step, Option.map_eq_some_iff] at h
    obtain ⟨⟨s1, b⟩, h, e⟩ := h
    simp only [Prod.mk.injEq] at e
    obtain ⟨rfl, -⟩ := e
    unfold applyOutputs at h
    split at h
    · simp at h; obtain ⟨rfl, -⟩ := h; exact hs
    · split at h
      · split at h
        · simp at h; obtain ⟨rfl, -⟩ := h; exact hs
        · simp at h
      · rename_i pr _
        split at h
        · simp at h
        · simp only [Option.some.injEq, Prod.mk.injEq] at h
          obtain ⟨rfl, -⟩ := h
          obtain ⟨-, f2, -⟩ := applyLoop_frame c s pr.txs fs
          intro b hb
          simp only at hb
          split at hb
          · exact nomatch hb
          · rw [f2] at hb; exact hs b hb
  | discard d' =>
    simp only [step, Option.some.injEq, Prod.mk.injEq] at h
    obtain ⟨rfl, -⟩ := h
    unfold discardDtx
    split
    · exact hs
    · exact hs
  | stop =>
    simp only [step, Option.some.injEq, Prod.mk.injEq] at h
    obtain ⟨rfl, -⟩ := h
    exact hs

theorem results_length {p : Params} {w : World} (h : Reach p w) (i : Nat) :
    ∀ b, (w.shard i).prepared p.d = some b → b.results.length = b.txs.length := by
  induction h with
  | init w h => intro b hb; rw [(h.shards i).1] at hb; exact nomatch hb
  | step w w' hw hs ih =>
    cases hs with
    | deliver j c q s' a hc hq hst =>
      simp only [World.setShard, (answered_shard w p.d j q a).1]
      split
      · rename_i e; subst e; exact step_results hst ih
      · exact ih
    | otherShard j c q s' a _ hc hf hst =>
      simp only [World.setShard]
      split
      · rename_i e; subst e; exact step_results hst ih
      · exact ih
    | _ => exact ih

theorem answered_rest (w : World) (d : Hash) (i : Nat) (q : Req) (a : Resp) :
    (w.answered d i q a).sent = w.sent ∧ (w.answered d i q a).execs = w.execs := by
  unfold World.answered
  split <;> exact ⟨rfl, rfl⟩

/-- Until it is told to forget the batch, a shard that has applied it remembers that. -/
theorem applied_kept {p : Params} {w : World} (h : Reach p w) (i : Nat) :
    (∀ j, ¬ w.sent j (.discard p.d)) → w.history i ≠ [] → (w.shard i).applied p.d = true := by
  induction h with
  | init w h => intro _ hh; exact absurd (h.records.2.2 i) hh
  | step w w' hw hs ih =>
    have hi := reach_inv p w hw
    cases hs with
    | deliver j c q s' a hc hq hst =>
      simp only [World.setShard, (answered_rest w p.d j q a).1, (answered_shard w p.d j q a).1]
      intro hno
      by_cases e : i = j
      · subst e
        simp only [if_true]
        have ih := ih hno
        cases q with
        | lock ts d =>
          simp only [step, Option.some.injEq, Prod.mk.injEq] at hst
          obtain ⟨rfl, rfl⟩ := hst
          have h1 : (lockOutputs c (w.shard i) ts d).1.applied = (w.shard i).applied := by
            unfold lockOutputs
            split
            · rfl
            · split
              · rfl
              · exact (lockLoop_frame c (w.shard i) ts).2.2.1
          have h2 : (w.answered p.d i (.lock ts d) (.lock (lockOutputs c (w.shard i) ts d).2)).history = w.history := by
            unfold World.answered
            split <;> first | rfl | (rename_i he _; exact nomatch he)
          rw [h1, h2]
          exact ih
        | apply fs d =>
          obtain ⟨rfl, -⟩ := (hi.sent i _ hq).1
          simp only [step, Option.map_eq_some_iff] at hst
          obtain ⟨⟨s1, b⟩, hst, e⟩ := hst
          simp only [Prod.mk.injEq] at e
          obtain ⟨rfl, rfl⟩ := e
          unfold applyOutputs at hst
          split at hst
          · simp only [Option.some.injEq, Prod.mk.injEq] at hst
            obtain ⟨rfl, rfl⟩ := hst
            exact ih
          · split at hst
            · split at hst
              · rename_i ha
                simp only [Option.some.injEq, Prod.mk.injEq] at hst
                obtain ⟨rfl, rfl⟩ := hst
                exact fun _ => ha
              · exact nomatch hst
            · split at hst
              · exact nomatch hst
              · simp only [Option.some.injEq, Prod.mk.injEq] at hst
                obtain ⟨rfl, rfl⟩ := hst
                intro _
                simp [HSet.add]
        | discard d =>
          have hd : d = p.d := (hi.sent i _ hq).1
          subst hd
          exact absurd hq (hno i)
        | stop => exact (hi.sent i _ hq).1.elim
      · rw [if_neg e]
        have h1 : (w.answered p.d j q a).history i = w.history i := by
          unfold World.answered
          split
          · rfl
          · simp only
            split <;> simp [e]
          · rfl
          · rfl
        rw [h1]
        exact ih hno
    | otherShard j c q s' a _ hc hf hst =>
      intro hno hh
      have := ih hno hh
      simp only [World.setShard]
      split
      · rename_i e; subst e
        rw [(foreign_keeps c _ _ q a p.d hf hst).2]; exact this
      · exact this
    | sendLock k e got j ts a b c d' => exact fun hno => ih fun j hj => hno j (.inr hj)
    | sendApply k e acked j is fs a b c d' f => exact fun hno => ih fun j hj => hno j (.inr hj)
    | sendDiscard k e acked j a b c => exact fun hno => absurd (.inl ⟨rfl, rfl⟩) (hno j)
    | _ => exact ih

/-- A node is past the outcome. -/
def Late : Stage → Prop
  | .discarding _ | .discarded | .done => True
  | _ => False

/-- The shards are being told to forget the batch. -/
def Forgetting (p : Params) (w : World) : Prop :=
  w.rep.discard p.d = true ∨ (∃ i, w.sent i (.discard p.d)) ∨ ∃ e ∈ w.execs, Late e.stage

theorem forgetting_set {p : Params} {w : World} {r : Rep} {dec : Option (List Bool)} {k : Nat} {e' : Exec} (hl : ¬ Late e'.stage)
    (hr : r.discard p.d = w.rep.discard p.d)
    (h : Forgetting p ({ w with rep := r, decision := dec }.setExec k e')) : Forgetting p w := by
  rcases h with h | h | ⟨e, he, h⟩
  · exact .inl (hr ▸ h)
  · exact .inr (.inl h)
  · rcases List.mem_or_eq_of_mem_set he with he | rfl
    · exact .inr (.inr ⟨e, he, h⟩)
    · exact absurd h hl

/-- Then nothing of it is recorded any more but that. -/
theorem forgetting_last {p : Params} {w : World} (h : Reach p w) : Forgetting p w → w.rep.prepare p.d = none ∧ w.rep.commit p.d = none := by
  induction h with
  | init w h => intro _; exact ⟨h.rep.1, h.rep.2.1⟩
  | step w w' hw hs ih =>
    have hi := reach_inv p w hw
    cases hs with
    | prepareCb k e r lost hk hst hr =>
      intro hf
      exfalso
      obtain ⟨h1, _, _, h4, _, h6⟩ := hi.start k e hk hst
      simp only [Rep.exec] at hr
      split at hr
      · exact nomatch hr
      · cases hr
        have := forgetting_set (dec := w.decision) (by cases lost <;> exact id) rfl hf
        rcases this with h | ⟨i, h⟩ | ⟨e', he', h⟩
        · rw [h4] at h; exact nomatch h
        · exact h6 i _ h
        · obtain ⟨j, hj, rfl⟩ := List.mem_iff_getElem.mp he'
          have hk' := (List.getElem?_eq_some_iff.mp hk).1
          have hjk : j = k := by omega
          subst hjk
          rw [List.getElem?_eq_getElem hj, Option.some.injEq] at hk
          rw [hk, hst] at h
          exact h
    | commitCb k e r lost hk hst hr =>
      intro hf
      exfalso
      simp only [Rep.exec] at hr
      split at hr
      · exact nomatch hr
      · rename_i hp
        cases hr
        have := ih (forgetting_set (dec := some (w.decision.getD e.dtx.complete)) (by cases lost <;> exact id) rfl hf)
        rw [hp] at this
        exact nomatch this.1
    | discardCb k e r lost hk hst hr =>
      intro _
      simp only [Rep.exec] at hr
      split at hr
      · exact nomatch hr
      · rename_i q hc
        cases hr
        refine ⟨?_, by simp [World.setExec]⟩
        show w.rep.prepare p.d = none
        cases hp : w.rep.prepare p.d with
        | none => rfl
        | some ts =>
          have h1 := (hi.recP ts hp).2
          have h2 := (hi.recC q.1 q.2 hc).1
          rw [h1] at h2
          exact nomatch h2
    | doneCb k e r lost hk hst hr =>
      intro _
      have := ih (.inr (.inr ⟨e, List.mem_of_getElem? hk, by rw [hst]; trivial⟩))
      simp only [Rep.exec] at hr
      split at hr
      · cases hr; exact this
      · exact nomatch hr
    | otherCmd cmd r _ hd hr =>
      intro hf
      obtain ⟨h1, h2, h3⟩ := exec_other w.rep r cmd p.d hd hr
      have := ih (by
        rcases hf with h | h
        · exact .inl (by rw [← h3]; exact h)
        · exact .inr h)
      exact ⟨h1.trans this.1, h2.trans this.2⟩
    | deliver j c q s' a hc hq hst =>
      intro hf
      have h1 := answered_rest w p.d j q a
      have h2 := answered_shard w p.d j q a
      unfold Forgetting at hf
      simp only [World.setShard, h1.1, h1.2, h2.2.1] at hf ⊢
      exact ih hf
    | otherShard j c q s' a _ hc hf hst => exact ih
    | sendLock k e got j ts a b c d' =>
      rintro (h | ⟨i, ⟨_, h⟩ | h⟩ | h)
      · exact ih (.inl h)
      · exact nomatch h
      · exact ih (.inr (.inl ⟨i, h⟩))
      · exact ih (.inr (.inr h))
    | sendApply k e acked j is fs a b c d' f =>
      rintro (h | ⟨i, ⟨_, h⟩ | h⟩ | h)
      · exact ih (.inl h)
      · exact nomatch h
      · exact ih (.inr (.inl ⟨i, h⟩))
      · exact ih (.inr (.inr h))
    | sendDiscard k e acked j hk hst c => exact fun _ => ih (.inr (.inr ⟨e, List.mem_of_getElem? hk, by rw [hst]; trivial⟩))
    | recvDiscard k e acked j hk hst c => exact fun _ => ih (.inr (.inr ⟨e, List.mem_of_getElem? hk, by rw [hst]; trivial⟩))
    | allDiscarded k e acked hk hst c => exact fun _ => ih (.inr (.inr ⟨e, List.mem_of_getElem? hk, by rw [hst]; trivial⟩))
    | recvVote k e got i v hk hst hv => exact fun hf => ih (forgetting_set (r := w.rep) (dec := w.decision) (k := k) id rfl hf)
    | decide k e got D hk hst h1 h2 => exact fun hf => ih (forgetting_set (r := w.rep) (dec := w.decision) (k := k) id rfl hf)
    | recvApply k e acked i hk hst hv => exact fun hf => ih (forgetting_set (r := w.rep) (dec := w.decision) (k := k) id rfl hf)
    | allApplied k e acked hk hst hv => exact fun hf => ih (forgetting_set (r := w.rep) (dec := w.decision) (k := k) id rfl hf)
    | crash k e hk => exact fun hf => ih (forgetting_set (r := w.rep) (dec := w.decision) (k := k) id rfl hf)
    | recoverDiscard hr => exact fun _ => ih (.inl hr)
    | recoverPrepare ts hr =>
      rintro (h | h | ⟨e, he, h⟩)
      · exact ih (.inl h)
      · exact ih (.inr (.inl h))
      · rcases List.mem_append.mp he with he | he
        · exact ih (.inr (.inr ⟨e, he, h⟩))
        · rw [List.mem_singleton.mp he] at h; exact h.elim
    | recoverCommit D is hr =>
      rintro (h | h | ⟨e, he, h⟩)
      · exact ih (.inl h)
      · exact ih (.inr (.inl h))
      · rcases List.mem_append.mp he with he | he
        · exact ih (.inr (.inr ⟨e, he, h⟩))
        · rw [List.mem_singleton.mp he] at h; exact h.elim

/-! ### The way on -/

theorem setExec_get {w : World} {k : Nat} {e e' : Exec} (hk : w.execs[k]? = some e) : (w.setExec k e').execs[k]? = some e' := by
  simp only [World.setExec, List.getElem?_set_self (List.getElem?_eq_some_iff.mp hk).1]

/-- The flags of a shard exist. -/
theorem flags_exist {D : List Bool} (is : List Nat) (h : ∀ k ∈ is, k < D.length) : ∃ fs, shardFlags D is = some fs := by
  induction is with
  | nil => exact ⟨[], rfl⟩
  | cons k is ih =>
    obtain ⟨fs, hfs⟩ := ih fun k hk => h k (List.mem_cons_of_mem _ hk)
    refine ⟨D[k]'(h k (by simp)) :: fs, ?_⟩
    unfold shardFlags at hfs ⊢
    rw [List.mapM_cons, hfs, List.getElem?_eq_getElem (h k (by simp))]
    rfl

theorem idxs_lt {c : Cfg} {ts : List CompactTx} {k : Nat} (h : k ∈ idxsOf c ts) : k < ts.length := by
  obtain ⟨j, hj⟩ := List.mem_iff_getElem?.mp h
  obtain ⟨t, ht, _⟩ := idxs_of c ts k j hj
  exact (List.getElem?_eq_some_iff.mp ht).1

/-- A shard that is up takes the outcome. -/
theorem apply_taken {c : Cfg} {s : State} {fs : List Bool} {d : Hash} (hr : s.running = true)
    (hp : (∃ b, s.prepared d = some b ∧ fs.length = b.txs.length) ∨ (s.prepared d = none ∧ s.applied d = true)) :
    ∃ s', step c s (.apply fs d) = some (s', .apply true) := by
  simp only [step, applyOutputs, hr, Bool.not_true, Bool.false_eq_true, if_false]
  rcases hp with ⟨b, hb, hl⟩ | ⟨hn, ha⟩
  · rw [hb]
    simp only [hl, ne_eq, not_true, if_false, Option.map_some]
    exact ⟨_, rfl⟩
  · rw [hn]
    simp only [ha, if_true, Option.map_some]
    exact ⟨_, rfl⟩

theorem up_set {p : Params} {w w' : World} (hup : Up p w) (i : Nat) (c : Cfg) (q : Req) (s' : State) (a : Resp)
    (hs : step c (w.shard i) q = some (s', a)) (hq : q ≠ .stop)
    (he : ∀ j, w'.shard j = if j = i then s' else w.shard j) : Up p w' := by
  intro j c' hc'
  rw [he]
  split
  · rename_i e
    subst e
    rw [step_running c _ _ _ _ hs hq]
    exact hup j c' hc'
  · exact hup j c' hc'

/-- A shard that does not hold the batch does not come to hold it by being told to apply it. -/
theorem apply_falls {c : Cfg} {s s' : State} {fs : List Bool} {d : Hash} {a : Resp} (h : step c s (.apply fs d) = some (s', a))
    (hn : s.prepared d = none) : s'.prepared d = none := by
  simp only [step, applyOutputs, hn] at h
  split at h
  · simp only [Option.map_some, Option.some.injEq, Prod.mk.injEq] at h
    rw [← h.1]; exact hn
  · split at h
    · simp only [Option.map_some, Option.some.injEq, Prod.mk.injEq] at h
      rw [← h.1]; exact hn
    · exact nomatch h

/-- One shard applies the outcome. -/
theorem apply_round {p : Params} {w : World} (h : Reach p w) (hup : Up p w) (hrep : (w.rep.commit p.d).isSome) {k : Nat} {dtx : Dtx}
    {acked : Nat → Bool} (hk : w.execs[k]? = some ⟨dtx, .applying acked⟩) (i : Nat) (hin : (Exec.mk dtx (.applying acked)).involves i) :
    ∃ w', Runs p w w' ∧ Up p w' ∧ w'.rep = w.rep ∧ w'.execs[k]? = some ⟨dtx, .applying fun j => if j = i then true else acked j⟩ := by
  have hi := reach_inv p w h
  obtain ⟨hx, _, hdec, _⟩ := hi.execs k _ hk
  dsimp only at hx hdec
  obtain ⟨is, his, hne⟩ := hin
  dsimp only at his
  obtain ⟨c, hc, rfl⟩ := built_idxs p i is (hx ▸ his)
  have hD := hi.dec _ hdec
  obtain ⟨fs, hfs⟩ := flags_exist (D := dtx.complete) (idxsOf c p.txs) fun k hk => by rw [hD.length]; exact idxs_lt hk
  have hlen : fs.length = (p.txs.filter (relevant c)).length := by rw [(shardFlags_spec _ _ _ hfs).1, idxs_length]
  have hno : ∀ j, ¬ w.sent j (.discard p.d) := by
    intro j hj
    rw [(forgetting_last h (.inr (.inl ⟨j, hj⟩))).2] at hrep
    exact nomatch hrep
  obtain ⟨s', hst⟩ := apply_taken (c := c) (fs := fs) (d := p.d) (hup i c hc) (by
    by_cases hh : w.history i = []
    · have h1 := first_prepared p w h i hh
      have h2 := hD.heard i c hc ((idxs_ne_nil c p.txs).mp hne)
      rw [h1] at h2
      cases hp : (w.shard i).prepared p.d with
      | none => rw [hp] at h2; exact nomatch h2
      | some b => exact .inl ⟨b, rfl, by rw [hi.prep i c b hc hp, hlen]⟩
    · cases hp : (w.shard i).prepared p.d with
      | none => exact .inr ⟨rfl, applied_kept h i hno hh⟩
      | some b => exact .inl ⟨b, rfl, by rw [hi.prep i c b hc hp, hlen]⟩)
  have s1 := Step.sendApply (p := p) w k _ acked i _ fs hk rfl his hne hfs
  have s2 := Step.deliver (p := p) (w.send i (.apply fs p.d)) i c (.apply fs p.d) s' (.apply true) hc (.inl ⟨rfl, rfl⟩) hst
  have s3 := Step.recvApply (p := p) (((w.send i (.apply fs p.d)).answered p.d i (.apply fs p.d) (.apply true)).setShard i s') k _ acked i hk rfl (Or.inl rfl)
  refine ⟨_, (((Runs.refl w).quiet s1 rfl).fall s2 ?_).quiet s3 rfl, ?_, rfl, 
    setExec_get (w := (((w.send i (.apply fs p.d)).answered p.d i (.apply fs p.d) (.apply true)).setShard i s')) hk⟩
  · intro j hj
    show (if j = i then s' else (w.shard j)).prepared p.d = none
    split
    · rename_i e; subst e; exact apply_falls hst hj
    · exact hj
  · exact up_set hup i c _ s' _ hst (by simp) fun j => rfl

/-- All shards apply the outcome. -/
theorem apply_all {p : Params} {w : World} (h : Reach p w) (hup : Up p w) (hrep : (w.rep.commit p.d).isSome) {k : Nat} {dtx : Dtx}
    (hk : w.execs[k]? = some ⟨dtx, .applying fun _ => false⟩) :
    ∃ w', Runs p w w' ∧ Up p w' ∧ w'.rep = w.rep ∧ w'.execs[k]? = some ⟨dtx, .applied⟩ := by
  have key : ∀ n, ∃ w' acked, Runs p w w' ∧ Up p w' ∧ w'.rep = w.rep ∧ w'.execs[k]? = some ⟨dtx, .applying acked⟩ ∧
      ∀ i < n, (Exec.mk dtx (.applying acked)).involves i → acked i = true := by
    intro n
    induction n with
    | zero => exact ⟨w, _, .refl w, hup, rfl, hk, fun i hi => absurd hi (Nat.not_lt_zero i)⟩
    | succ n ih =>
      obtain ⟨w1, acked, h1, h2, h3, h4, h5⟩ := ih
      by_cases hin : (Exec.mk dtx (.applying acked)).involves n
      · obtain ⟨w2, g1, g2, g3, g4⟩ := apply_round (h1.reach h) h2 (h3 ▸ hrep) h4 n hin
        refine ⟨w2, _, h1.trans g1, g2, g3.trans h3, g4, fun i hi hv => ?_⟩
        by_cases he : i = n
        · rw [if_pos he]
        · rw [if_neg he]; exact h5 i (by omega) hv
      · refine ⟨w1, acked, h1, h2, h3, h4, fun i hi hv => ?_⟩
        by_cases he : i = n
        · exact absurd (he ▸ hv) hin
        · exact h5 i (by omega) hv
  obtain ⟨w1, acked, h1, h2, h3, h4, h5⟩ := key dtx.idxs.length
  have s := Step.allApplied (p := p) w1 k _ acked h4 rfl (by
    rintro i ⟨is, his, hne⟩
    exact h5 i (List.getElem?_eq_some_iff.mp his).1 ⟨is, his, hne⟩)
  exact ⟨_, h1.quiet s rfl, h2, h3, setExec_get h4⟩

/-- One shard forgets the batch. -/
theorem discard_round {p : Params} {w : World} (hup : Up p w) {k : Nat} {dtx : Dtx} (hx : dtx.idxs = (built p.shards p.txs).idxs)
    {acked : Nat → Bool} (hk : w.execs[k]? = some ⟨dtx, .discarding acked⟩) (i : Nat) (hin : (Exec.mk dtx (.discarding acked)).involves i) :
    ∃ w', Runs p w w' ∧ Up p w' ∧ w'.rep = w.rep ∧ w'.execs[k]? = some ⟨dtx, .discarding fun j => if j = i then true else acked j⟩ := by
  have hin' := hin
  obtain ⟨is, his, hne⟩ := hin
  dsimp only at his
  obtain ⟨c, hc, rfl⟩ := built_idxs p i is (hx ▸ his)
  have hst : step c (w.shard i) (.discard p.d) = some ((discardDtx (w.shard i) p.d).1, .discard true) := by
    simp only [step, discardDtx, hup i c hc, if_true]
  have s1 := Step.sendDiscard (p := p) w k _ acked i hk rfl hin'
  have s2 := Step.deliver (p := p) (w.send i (.discard p.d)) i c (.discard p.d) _ (.discard true) hc (.inl ⟨rfl, rfl⟩) hst
  have s3 := Step.recvDiscard (p := p) (((w.send i (.discard p.d)).answered p.d i (.discard p.d) (.discard true)).setShard i (discardDtx (w.shard i) p.d).1) k _ acked i hk rfl (Or.inl rfl)
  refine ⟨_, (((Runs.refl w).quiet s1 rfl).fall s2 ?_).quiet s3 rfl, ?_, rfl, 
    setExec_get (w := (((w.send i (.discard p.d)).answered p.d i (.discard p.d) (.discard true)).setShard i (discardDtx (w.shard i) p.d).1)) hk⟩
  · intro j hj
    show (if j = i then (discardDtx (w.shard i) p.d).1 else w.shard j).prepared p.d = none
    split
    · rename_i e; subst e; unfold discardDtx; split <;> exact hj
    · exact hj
  · exact up_set hup i c _ _ _ hst (by simp) fun j => rfl

/-- A batch of which the coordinators only know that it is to be forgotten. -/
theorem end_done {p : Params} {w : World} (h : Reach p w) {k : Nat} {dtx : Dtx} (hd : w.rep.discard p.d = true)
    (hk : w.execs[k]? = some ⟨dtx, .discarded⟩) :
    ∃ w', Runs p w w' ∧ Finished p w' ∧ Exec.mk dtx .done ∈ w'.execs := by
  obtain ⟨h1, h2⟩ := forgetting_last h (.inl hd)
  have s := Step.doneCb (p := p) w k _ { w.rep with discard := w.rep.discard.del p.d } false hk rfl (by simp only [Rep.exec, hd, if_true])
  refine ⟨_, (Runs.refl w).quiet s rfl, ⟨⟨_, List.mem_of_getElem? (setExec_get hk), rfl⟩, ?_⟩, List.mem_of_getElem? (setExec_get hk)⟩
  rintro (hr | hr | hr)
  · simp only [World.setExec, h1] at hr; exact nomatch hr
  · simp only [World.setExec, h2] at hr; exact nomatch hr
  · simp [World.setExec, HSet.del] at hr

/-- From an outcome that every shard has applied to the end. -/
theorem end_applied {p : Params} {w : World} (h : Reach p w) (hup : Up p w) (hrep : (w.rep.commit p.d).isSome) {k : Nat} {dtx : Dtx}
    (hx : dtx.idxs = (built p.shards p.txs).idxs) (hk : w.execs[k]? = some ⟨dtx, .applied⟩) :
    ∃ w', Runs p w w' ∧ Finished p w' ∧ Exec.mk dtx .done ∈ w'.execs := by
  obtain ⟨q, hq⟩ := Option.isSome_iff_exists.mp hrep
  have s0 := Step.discardCb (p := p) w k _ { w.rep with
      commit := fun d' => if d' = p.d then none else w.rep.commit d'
      discard := w.rep.discard.add p.d } false hk rfl (by simp only [Rep.exec, hq])
  generalize hw0 : (({ w with rep := { w.rep with
      commit := fun d' => if d' = p.d then none else w.rep.commit d'
      discard := w.rep.discard.add p.d } } : World).setExec k
      { (Exec.mk dtx .applied) with stage := if false = true then .failed else .discarding fun _ => false }) = w0 at s0
  have hup0 : Up p w0 := by rw [← hw0]; exact hup
  have hk0 : w0.execs[k]? = some ⟨dtx, .discarding fun _ => false⟩ := by rw [← hw0]; exact setExec_get hk
  have hd0 : w0.rep.discard p.d = true := by rw [← hw0]; simp [World.setExec, HSet.add]
  have key : ∀ n, ∃ w' acked, Runs p w0 w' ∧ Up p w' ∧ w'.rep = w0.rep ∧ w'.execs[k]? = some ⟨dtx, .discarding acked⟩ ∧
      ∀ i < n, (Exec.mk dtx (.discarding acked)).involves i → acked i = true := by
    intro n
    induction n with
    | zero => exact ⟨w0, _, .refl w0, hup0, rfl, hk0, fun i hi => absurd hi (Nat.not_lt_zero i)⟩
    | succ n ih =>
      obtain ⟨w1, acked, h1, h2, h3, h4, h5⟩ := ih
      by_cases hin : (Exec.mk dtx (.discarding acked)).involves n
      · obtain ⟨w2, g1, g2, g3, g4⟩ := discard_round h2 hx h4 n hin
        refine ⟨w2, _, h1.trans g1, g2, g3.trans h3, g4, fun i hi hv => ?_⟩
        by_cases he : i = n
        · rw [if_pos he]
        · rw [if_neg he]; exact h5 i (by omega) hv
      · refine ⟨w1, acked, h1, h2, h3, h4, fun i hi hv => ?_⟩
        by_cases he : i = n
        · exact absurd (he ▸ hv) hin
        · exact h5 i (by omega) hv
  obtain ⟨w1, acked, h1, h2, h3, h4, h5⟩ := key dtx.idxs.length
  have s := Step.allDiscarded (p := p) w1 k _ acked h4 rfl (by
    rintro i ⟨is, his, hne⟩
    exact h5 i (List.getElem?_eq_some_iff.mp his).1 ⟨is, his, hne⟩)
  have hs := (((Runs.refl w).quiet s0 (by rw [← hw0]; rfl)).trans h1).quiet s rfl
  obtain ⟨w', g1, g2⟩ := end_done (hs.reach h) (by show w1.rep.discard p.d = true; rw [h3]; exact hd0) (setExec_get h4)
  exact ⟨w', hs.trans g1, g2⟩

/-- From a recorded outcome to the end. -/
theorem end_commit {p : Params} {w : World} (h : Reach p w) (hup : Up p w) (hrep : (w.rep.commit p.d).isSome) {k : Nat} {dtx : Dtx}
    (hk : w.execs[k]? = some ⟨dtx, .applying fun _ => false⟩) :
    ∃ w', Runs p w w' ∧ Finished p w' ∧ Exec.mk dtx .done ∈ w'.execs := by
  have hx := ((reach_inv p w h).execs k _ hk).1
  obtain ⟨w1, h1, h2, h3, h4⟩ := apply_all h hup hrep hk
  obtain ⟨w', g1, g2⟩ := end_applied (h1.reach h) h2 (h3 ▸ hrep) hx h4
  exact ⟨w', h1.trans g1, g2⟩

/-- One shard locks. -/
theorem lock_round {p : Params} {w : World} (h : Reach p w) (hup : Up p w) (hrp : (w.rep.prepare p.d).isSome) {k : Nat} {got : Nat → Option (List Bool)}
    (hk : w.execs[k]? = some ⟨built p.shards p.txs, .locking got⟩) (i : Nat) (c : Cfg) (hc : p.shards[i]? = some c)
    (hne : idxsOf c p.txs ≠ []) :
    ∃ w' v, Runs p w w' ∧ Up p w' ∧ w'.rep = w.rep ∧ v.length = (idxsOf c p.txs).length ∧
      w'.execs[k]? = some ⟨built p.shards p.txs, .locking fun j => if j = i then some v else got j⟩ := by
  have hi := reach_inv p w h
  have hin : (Exec.mk (built p.shards p.txs) (.locking got)).involves i := ⟨idxsOf c p.txs, by simp [built, hc], hne⟩
  have hst : ∃ s' v, step c (w.shard i) (.lock (p.txs.filter (relevant c)) p.d) = some (s', .lock (some v)) ∧
      v.length = (p.txs.filter (relevant c)).length := by
    simp only [step, lockOutputs, hup i c hc, Bool.not_true, Bool.false_eq_true, if_false]
    cases hp : (w.shard i).prepared p.d with
    | some b => exact ⟨_, _, rfl, by rw [results_length h i b hp, hi.prep i c b hc hp]⟩
    | none => exact ⟨_, _, rfl, lockLoop_length c _ _⟩
  obtain ⟨s', v, hst, hl⟩ := hst
  have s1 := Step.sendLock (p := p) w k _ got i (p.txs.filter (relevant c)) hk rfl hin (by simp [built, hc])
  have s2 := Step.deliver (p := p) (w.send i (.lock (p.txs.filter (relevant c)) p.d)) i c _ s' _ hc (.inl ⟨rfl, rfl⟩) hst
  have s3 := Step.recvVote (p := p) (((w.send i (.lock (p.txs.filter (relevant c)) p.d)).answered p.d i (.lock (p.txs.filter (relevant c)) p.d) (.lock (some v))).setShard i s') k _ got i v hk rfl (Or.inl ⟨rfl, rfl⟩)
  refine ⟨_, v, (((Runs.refl w).quiet s1 rfl).tail _ _ _ s2 ?_).quiet s3 rfl, ?_, rfl, by rw [hl, idxs_length], 
    setExec_get (w := (((w.send i (.lock (p.txs.filter (relevant c)) p.d)).answered p.d i (.lock (p.txs.filter (relevant c)) p.d) (.lock (some v))).setShard i s')) hk⟩
  · rintro ⟨j, hj, _⟩
    obtain ⟨x, hx⟩ := List.exists_mem_of_ne_nil _ hj
    obtain ⟨_, D, _, hD, _⟩ := hi.hist j x hx
    obtain ⟨ts, hts⟩ := Option.isSome_iff_exists.mp hrp
    rw [(hi.recP ts hts).2] at hD
    exact nomatch hD
  · exact up_set hup i c _ s' _ hst (by simp) fun j => rfl

/-- Replies of the right size have an outcome. -/
theorem collect_some (iss : List (List Nat)) : ∀ (vs : List (List Bool)) (ret : List Bool),
    (∀ (i : Nat) (is : List Nat) (v : List Bool), iss[i]? = some is → vs[i]? = some v → is ≠ [] → v.length = is.length) →
    ∃ D, collect ret iss vs = some D := by
  induction iss with
  | nil => intro vs ret _; exact ⟨ret, rfl⟩
  | cons is iss ih =>
    intro vs ret h
    cases vs with
    | nil => exact ⟨ret, rfl⟩
    | cons v vs =>
      simp only [collect]
      split
      · exact ih vs ret fun i is v hi hv => h (i + 1) is v hi hv
      · rename_i hn
        rw [if_neg (by simp [h 0 is v rfl rfl (by simpa using hn)])]
        exact ih vs _ fun i is v hi hv => h (i + 1) is v hi hv

/-- From a recorded batch to the end. -/
theorem end_prepare {p : Params} {w : World} (h : Reach p w) (hup : Up p w) {ts : List CompactTx} (hrep : w.rep.prepare p.d = some ts) {k : Nat}
    (hk : w.execs[k]? = some ⟨built p.shards p.txs, .locking fun _ => none⟩) :
    ∃ w' D, Runs p w w' ∧ Finished p w' ∧ D.length = p.txs.length ∧ Exec.mk { built p.shards p.txs with complete := D } .done ∈ w'.execs := by
  have key : ∀ n ≤ p.shards.length, ∃ w' got, Runs p w w' ∧ Up p w' ∧ w'.rep = w.rep ∧
      w'.execs[k]? = some ⟨built p.shards p.txs, .locking got⟩ ∧
      ∀ i c, i < n → p.shards[i]? = some c → idxsOf c p.txs ≠ [] → ∃ v, got i = some v ∧ v.length = (idxsOf c p.txs).length := by
    intro n
    induction n with
    | zero => exact fun _ => ⟨w, _, .refl w, hup, rfl, hk, fun i c hi => absurd hi (Nat.not_lt_zero i)⟩
    | succ n ih =>
      intro hn
      obtain ⟨w1, got, h1, h2, h3, h4, h5⟩ := ih (by omega)
      have hc : p.shards[n]? = some p.shards[n] := List.getElem?_eq_getElem (by omega)
      by_cases hne : idxsOf p.shards[n] p.txs = []
      · refine ⟨w1, got, h1, h2, h3, h4, fun i c hi hc' hv => ?_⟩
        by_cases he : i = n
        · subst he
          rw [hc, Option.some.injEq] at hc'
          exact absurd (hc' ▸ hne) hv
        · exact h5 i c (by omega) hc' hv
      · obtain ⟨w2, v, g1, g2, g3, g4, g5⟩ := lock_round (h1.reach h) h2 (by rw [h3, hrep]; rfl) h4 n _ hc hne
        refine ⟨w2, _, h1.trans g1, g2, g3.trans h3, g5, fun i c hi hc' hv => ?_⟩
        by_cases he : i = n
        · subst he
          rw [hc, Option.some.injEq] at hc'
          subst hc'
          exact ⟨v, if_pos rfl, g4⟩
        · rw [if_neg he]; exact h5 i c (by omega) hc' hv
  obtain ⟨w1, got, h1, h2, h3, h4, h5⟩ := key p.shards.length (Nat.le_refl _)
  have hgot : ∀ i is, (built p.shards p.txs).idxs[i]? = some is → is ≠ [] → ∃ v, got i = some v ∧ v.length = is.length := by
    intro i is hi hne
    obtain ⟨c, hc, rfl⟩ := built_idxs p i is hi
    exact h5 i c (List.getElem?_eq_some_iff.mp hc).1 hc hne
  obtain ⟨D, hD⟩ := collect_some (built p.shards p.txs).idxs
    ((List.range (built p.shards p.txs).idxs.length).map fun i => (got i).getD []) (List.replicate (built p.shards p.txs).full.length true) (by
      intro i is v hi hv hne
      obtain ⟨u, hu, hl⟩ := hgot i is hi hne
      rw [List.getElem?_map, List.getElem?_range (List.getElem?_eq_some_iff.mp hi).1] at hv
      simp only [Option.map_some, Option.some.injEq, hu, Option.getD_some] at hv
      rw [← hv]; exact hl)
  have s1 := Step.decide (p := p) w1 k _ got D h4 rfl (by
    rintro i ⟨is, his, hne⟩
    obtain ⟨v, hv, _⟩ := hgot i is his hne
    rw [hv]; rfl) hD
  have hp1 : w1.rep.prepare p.d = some ts := by rw [h3]; exact hrep
  have hk1 := setExec_get (e' := ⟨{ built p.shards p.txs with complete := D }, .decided⟩) h4
  have s2 := Step.commitCb (p := p) _ k _ { w1.rep with
        prepare := fun d' => if d' = p.d then none else w1.rep.prepare d'
        commit := fun d' => if d' = p.d then some ((w1.rep.commit p.d).getD (D, (built p.shards p.txs).idxs)) else w1.rep.commit d' } false
    hk1 rfl (by simp only [World.setExec, Rep.exec, hp1])
  have hs := (h1.quiet s1 rfl).quiet s2 rfl
  have hi2 := reach_inv p _ (hs.reach h)
  have hl := (hi2.dec D (hi2.execs k _ (setExec_get hk1)).2.2.1).length
  obtain ⟨w', g1, g2, g3⟩ := end_commit (hs.reach h) h2 (by simp [World.setExec]) (setExec_get hk1)
  exact ⟨w', D, hs.trans g1, g2, hl, g3⟩

/-- From a new batch to the end, with an outcome for each transaction. -/
theorem end_fresh {p : Params} {w : World} (h : Reach p w) (hup : Up p w) (hb : Fresh w) :
    ∃ w' D, Runs p w w' ∧ Finished p w' ∧ D.length = p.txs.length ∧ Exec.mk { built p.shards p.txs with complete := D } .done ∈ w'.execs := by
  have hi := reach_inv p w h
  obtain ⟨e, he, hst⟩ := hb
  obtain ⟨k, hk⟩ := List.mem_iff_getElem?.mp he
  obtain ⟨_, h2, _⟩ := hi.start k e hk hst
  have hx : e.dtx = built p.shards p.txs := by
    have := hi.execs k e hk
    unfold ExecInv at this
    rw [hst] at this
    exact this
  have s := Step.prepareCb (p := p) w k e { w.rep with prepare := fun d' => if d' = p.d then some e.dtx.full else w.rep.prepare d' } false
    hk hst (by simp only [Rep.exec, h2])
  have hs := (Runs.refl w).quiet s rfl
  obtain ⟨w', D, g1, g2⟩ := end_prepare (hs.reach h) hup (ts := e.dtx.full) (by simp [World.setExec]) (k := k)
    (by rw [← hx]; exact setExec_get (w := { w with rep := { w.rep with prepare := fun d' => if d' = p.d then some e.dtx.full else w.rep.prepare d' } }) hk)
  exact ⟨w', D, hs.trans g1, g2⟩

/-- The run to the end. -/
theorem finish {p : Params} {w : World} (h : Reach p w) (hup : Up p w) (hb : Fresh w ∨ Recorded p w) :
    ∃ w', Runs p w w' ∧ Finished p w' := by
  have hi := reach_inv p w h
  have happ : ∀ e : Exec, (w.execs ++ [e])[w.execs.length]? = some e := fun e => by simp
  rcases hb with ⟨e, he, hst⟩ | hr | hr | hr
  · obtain ⟨w', _, g1, g2, _⟩ := end_fresh h hup ⟨e, he, hst⟩
    exact ⟨w', g1, g2⟩
  · obtain ⟨ts, hts⟩ := Option.isSome_iff_exists.mp hr
    have s := Step.recoverPrepare (p := p) w ts hts
    have hs := (Runs.refl w).quiet s rfl
    obtain ⟨w', D, g1, g2, _⟩ := end_prepare (hs.reach h) hup hts (k := w.execs.length) (by
      rw [happ, (hi.recP ts hts).1, addAll_new])
    exact ⟨w', hs.trans g1, g2⟩
  · obtain ⟨⟨D, is⟩, hq⟩ := Option.isSome_iff_exists.mp hr
    have s := Step.recoverCommit (p := p) w D is hq
    have hs := (Runs.refl w).quiet s rfl
    obtain ⟨w', g1, g2, _⟩ := end_commit (hs.reach h) hup hr (happ _)
    exact ⟨w', hs.trans g1, g2⟩
  · have s := Step.recoverDiscard (p := p) w hr
    have s' := Step.allDiscarded (p := p)
      { w with execs := w.execs ++ [⟨Dtx.recoverDiscard p.shards, .discarding fun _ => false⟩] } w.execs.length
      ⟨Dtx.recoverDiscard p.shards, .discarding fun _ => false⟩ _ (happ _) rfl (by
      rintro i ⟨is, his, hne⟩
      replace his : (Dtx.new p.shards).idxs[i]? = some is := his
      simp only [Dtx.new, List.getElem?_map, Option.map_eq_some_iff] at his
      obtain ⟨_, _, rfl⟩ := his
      exact absurd rfl hne)
    have hs := ((Runs.refl w).quiet s rfl).quiet s' rfl
    obtain ⟨w', g1, g2, _⟩ := end_done (hs.reach h) hr (setExec_get
      (w := { w with execs := w.execs ++ [⟨Dtx.recoverDiscard p.shards, .discarding fun _ => false⟩] }) (happ _))
    exact ⟨w', hs.trans g1, g2⟩

/-- **C134.** Whatever has happened to a batch that a node holds or that is recorded, crashes of nodes, failed commands, and requests that came
late, twice or in another order included: as long as the shards are up there is a run that finishes it. Some node sees the batch through,
every shard that holds an identifier, an input or an output of its transactions has applied the outcome, and the replicated state of the
coordinators is rid of the batch. -/
theorem C134_finish {p : Params} {w : World} (h : Reach p w) (hup : Up p w) (hb : Fresh w ∨ Recorded p w) :
    ∃ w', Steps p w w' ∧ Finished p w' ∧
      ∀ i c, p.shards[i]? = some c → (∃ t ∈ p.txs, Concerns c t) → w'.history i ≠ [] := by
  obtain ⟨w', h1, h2⟩ := finish h hup hb
  refine ⟨w', h1.steps, h2, ?_⟩
  obtain ⟨⟨e, he, hd⟩, _⟩ := h2
  obtain ⟨k, hk⟩ := List.mem_iff_getElem?.mp he
  have hx := (reach_inv p w' (h1.reach h)).execs k e hk
  unfold ExecInv at hx
  rw [hd] at hx
  exact hx.2

/-- A batch that a node holds, with both shards up. -/
theorem exFresh : Up exP exW0 ∧ Fresh exW0 :=
  ⟨by
    intro i c _
    show (if i = 0 then State.init exS0 exUhs else State.init exS1 fun _ => false).running = true
    split <;> rfl, _, List.mem_singleton.mpr rfl, rfl⟩

/-- A node records the batch, has a shard lock, and dies. -/
theorem exLeft : ∃ w, Reach exP w ∧ Up exP w ∧ Recorded exP w ∧ (∀ e ∈ w.execs, e.stage = .failed) ∧ ((w.shard 0).prepared dA).isSome := by
  have r := Reach.init (p := exP) _ exW0_init
  have r := r.step _ _ (Step.prepareCb _ 0 _ _ false rfl rfl rfl)
  have r := r.step _ _ (Step.sendLock _ 0 _ _ 0 _ rfl rfl ⟨_, rfl, by decide⟩ rfl)
  have r := r.step _ _ (Step.deliver _ 0 _ _ _ _ rfl (Or.inl ⟨rfl, rfl⟩) rfl)
  have r := r.step _ _ (Step.crash _ 0 _ rfl)
  refine ⟨_, r, ?_, Or.inl rfl, ?_, rfl⟩
  · intro i c _
    match i with
    | 0 => rfl
    | i + 1 => rfl
  · intro e he; cases List.mem_singleton.mp he; rfl

/-- The hypotheses are met at the start, and after the node that held the batch has died: no node holds it, and it can still be finished. -/
example : (∃ w', Steps exP exW0 w' ∧ Finished exP w') ∧
    ∃ w, Reach exP w ∧ (∀ e ∈ w.execs, e.stage = .failed) ∧ ∃ w', Steps exP w w' ∧ Finished exP w' := by
  obtain ⟨v, h1, h2, _⟩ := C134_finish (Reach.init (p := exP) _ exW0_init) exFresh.1 (.inl exFresh.2)
  refine ⟨⟨v, h1, h2⟩, ?_⟩
  obtain ⟨w, r, hu, hr, hf, _⟩ := exLeft
  obtain ⟨v, h1, h2, _⟩ := C134_finish r hu (.inr hr)
  exact ⟨w, r, hf, v, h1, h2⟩

end Verif.Coordinator.Finish
