import Verif.Coordinator.Spec
import Verif.LockingShard.Lemmas

/-! Helper lemmas: the index lists, the outcome, and the invariant of executions. -/
namespace Verif.Coordinator

open Verif.Tx Verif.LockingShard

theorem relevant_iff (c : Cfg) (t : CompactTx) : relevant c t = true ↔ Concerns c t := by
  simp [relevant, Concerns, or_assoc]

/-- The positions of the transactions that concern the shard. -/
def idxsOf (c : Cfg) (ts : List CompactTx) : List Nat :=
  (ts.zipIdx.filter fun q => relevant c q.1).map (·.2)

theorem place_eq (c : Cfg) (ts : List CompactTx) (k : Nat) :
    place c ts k = (ts.take k).countP (relevant c) := by
  unfold place
  congr 1
  funext t
  rw [Bool.eq_iff_iff, decide_eq_true_iff, relevant_iff]

/-- The batch as `addAll` builds it. -/
def built (shards : List Cfg) (ts : List CompactTx) : Dtx where
  txs := shards.map fun c => ts.filter (relevant c)
  idxs := shards.map fun c => idxsOf c ts
  full := ts
  complete := []

theorem zip_map_self {α β : Type} (f : α → β) (l : List α) :
    l.zip (l.map f) = l.map fun a => (a, f a) := by
  induction l with
  | nil => rfl
  | cons a l ih => simp [ih]

theorem addTx_built (shards : List Cfg) (ts : List CompactTx) (t : CompactTx) :
    (built shards ts).addTx shards t = built shards (ts ++ [t]) := by
  simp only [built, Dtx.addTx, zip_map_self, List.map_map, Dtx.mk.injEq, and_true]
  refine ⟨?_, ?_⟩
  · apply List.map_congr_left
    intro c _
    simp only [Function.comp, List.filter_append, List.filter_cons, List.filter_nil]
    split <;> simp
  · apply List.map_congr_left
    intro c _
    simp only [Function.comp, idxsOf, List.zipIdx_append, List.filter_append, List.map_append]
    simp only [List.zipIdx_cons, List.zipIdx_nil, List.filter_cons, List.filter_nil]
    split <;> simp

theorem addAll_built (shards : List Cfg) (ts pre : List CompactTx) :
    (built shards pre).addAll shards ts = built shards (pre ++ ts) := by
  induction ts generalizing pre with
  | nil => simp [Dtx.addAll]
  | cons t ts ih =>
    have := ih (pre ++ [t])
    simp only [Dtx.addAll, List.foldl_cons, addTx_built] at this ⊢
    rw [this]; simp

theorem addAll_new (shards : List Cfg) (ts : List CompactTx) :
    (Dtx.new shards).addAll shards ts = built shards ts := by
  have : Dtx.new shards = built shards [] := by
    simp [Dtx.new, built, idxsOf]
  rw [this, addAll_built]; rfl

theorem idxs_place_aux (c : Cfg) (ts : List CompactTx) (n k : Nat) (t : CompactTx)
    (h : ts[k]? = some t) (hr : relevant c t = true) :
    ((ts.zipIdx n).filter fun q => relevant c q.1)[(ts.take k).countP (relevant c)]? =
      some (t, n + k) := by
  induction ts generalizing n k with
  | nil => simp at h
  | cons a ts ih =>
    cases k with
    | zero =>
      simp only [List.getElem?_cons_zero, Option.some.injEq] at h
      subst h
      simp [List.zipIdx_cons, hr]
    | succ k =>
      simp only [List.getElem?_cons_succ] at h
      have := ih (n + 1) k h
      simp only [List.zipIdx_cons, List.take_succ_cons, List.filter_cons, List.countP_cons]
      split
      · simp only [List.getElem?_cons_succ, this]
        congr 2; omega
      · simp only [Nat.add_zero, this]
        congr 2; omega

theorem idxs_place (c : Cfg) (ts : List CompactTx) (k : Nat) (t : CompactTx)
    (h : ts[k]? = some t) (hr : Concerns c t) : (idxsOf c ts)[place c ts k]? = some k := by
  have := idxs_place_aux c ts 0 k t h ((relevant_iff c t).2 hr)
  rw [place_eq, idxsOf, List.getElem?_map, this]; simp

theorem filter_zipIdx (c : Cfg) (ts : List CompactTx) (n : Nat) :
    ((ts.zipIdx n).filter fun q => relevant c q.1).map (·.1) = ts.filter (relevant c) := by
  induction ts generalizing n with
  | nil => rfl
  | cons a ts ih =>
    simp only [List.zipIdx_cons, List.filter_cons]
    split <;> simp [ih]

theorem filter_place (c : Cfg) (ts : List CompactTx) (k : Nat) (t : CompactTx)
    (h : ts[k]? = some t) (hr : Concerns c t) :
    (ts.filter (relevant c))[place c ts k]? = some t := by
  have := idxs_place_aux c ts 0 k t h ((relevant_iff c t).2 hr)
  rw [place_eq, ← filter_zipIdx c ts 0, List.getElem?_map, this]; rfl

theorem idxs_length (c : Cfg) (ts : List CompactTx) :
    (idxsOf c ts).length = (ts.filter (relevant c)).length := by
  rw [← filter_zipIdx c ts 0, idxsOf, List.length_map, List.length_map]

theorem idxs_of_aux (c : Cfg) (ts : List CompactTx) (n k j : Nat) (t : CompactTx)
    (h : ((ts.zipIdx n).filter fun q => relevant c q.1)[j]? = some (t, n + k)) :
    ts[k]? = some t ∧ relevant c t = true ∧ j = (ts.take k).countP (relevant c) := by
  induction ts generalizing n k j with
  | nil => simp at h
  | cons a ts ih =>
    simp only [List.zipIdx_cons, List.filter_cons] at h
    have hbound : ∀ (j : Nat) (t : CompactTx) (m : Nat),
        ((ts.zipIdx (n + 1)).filter fun q => relevant c q.1)[j]? = some (t, m) → n + 1 ≤ m := by
      intro j t m hm
      have := List.mem_of_getElem? hm
      rw [List.mem_filter] at this
      exact (List.mem_zipIdx this.1).1
    split at h
    · rename_i hr
      cases j with
      | zero =>
        simp only [List.getElem?_cons_zero, Option.some.injEq, Prod.mk.injEq] at h
        obtain ⟨rfl, hk⟩ := h
        have : k = 0 := by omega
        subst this
        simpa using hr
      | succ j =>
        simp only [List.getElem?_cons_succ] at h
        have hb := hbound _ _ _ h
        obtain ⟨k, rfl⟩ : ∃ m, k = m + 1 := ⟨k - 1, by omega⟩
        obtain ⟨h1, h2, h3⟩ := ih (n + 1) k j (by rw [h]; congr 2; omega)
        refine ⟨by simpa using h1, h2, ?_⟩
        simp [hr, h3]
    · rename_i hr
      have hb := hbound _ _ _ h
      obtain ⟨k, rfl⟩ : ∃ m, k = m + 1 := ⟨k - 1, by omega⟩
      obtain ⟨h1, h2, h3⟩ := ih (n + 1) k j (by rw [h]; congr 2; omega)
      refine ⟨by simpa using h1, h2, ?_⟩
      simp [hr, h3]

theorem idxs_of (c : Cfg) (ts : List CompactTx) (k j : Nat) (h : (idxsOf c ts)[j]? = some k) :
    ∃ t, ts[k]? = some t ∧ Concerns c t ∧ j = place c ts k := by
  rw [idxsOf, List.getElem?_map, Option.map_eq_some_iff] at h
  obtain ⟨⟨t, m⟩, h, rfl⟩ := h
  obtain ⟨h1, h2, h3⟩ := idxs_of_aux c ts 0 m j t (by rw [h]; simp)
  exact ⟨t, h1, (relevant_iff c t).1 h2, by rw [h3, place_eq]⟩

theorem idxs_ne_nil (c : Cfg) (ts : List CompactTx) :
    idxsOf c ts ≠ [] ↔ ∃ t ∈ ts, Concerns c t := by
  rw [← List.length_pos_iff, idxs_length, List.length_pos_iff, ne_eq, List.filter_eq_nil_iff]
  simp only [relevant_iff, Classical.not_forall, Classical.not_not, exists_prop]

/-! ### The outcome -/

theorem veto_length (ret : List Bool) (is : List Nat) (vs : List Bool) :
    (veto ret is vs).length = ret.length := by
  induction is generalizing ret vs with
  | nil => simp [veto]
  | cons i is ih =>
    cases vs with
    | nil => simp [veto]
    | cons v vs =>
      simp only [veto, ih]
      split <;> simp

theorem veto_true (ret : List Bool) (is : List Nat) (vs : List Bool) (k : Nat) :
    (veto ret is vs)[k]? = some true ↔
      ret[k]? = some true ∧ ∀ j : Nat, is[j]? = some k → vs[j]? ≠ some false := by
  induction is generalizing ret vs with
  | nil => simp [veto]
  | cons i is ih =>
    cases vs with
    | nil => simp [veto]
    | cons v vs =>
      simp only [veto, ih]
      have hsplit : (∀ j : Nat, (i :: is)[j]? = some k → (v :: vs)[j]? ≠ some false) ↔
          (i = k → v = true) ∧ ∀ j : Nat, is[j]? = some k → vs[j]? ≠ some false := by
        constructor
        · intro h
          refine ⟨fun e => ?_, fun j => h (j + 1)⟩
          have := h 0 (by simp [e])
          simpa using this
        · rintro ⟨a, b⟩ j
          cases j with
          | zero => intro e; have := a (by simpa using e); simp [this]
          | succ j => exact b j
      rw [hsplit]
      cases v with
      | true => simp
      | false =>
        simp only [Bool.false_eq_true, if_false, imp_false]
        rw [List.getElem?_set]
        by_cases e : i = k
        · subst e
          simp only [if_true, not_true, false_and, and_false, iff_false, not_and]
          intro h
          split at h <;> simp_all
        · simp [e]

theorem collect_spec (iss : List (List Nat)) (vs : List (List Bool)) (ret D : List Bool)
    (hl : iss.length = vs.length) (h : collect ret iss vs = some D) :
    D.length = ret.length ∧
      (∀ (i : Nat) (is : List Nat) (v : List Bool), iss[i]? = some is → vs[i]? = some v →
        is ≠ [] → v.length = is.length) ∧
      ∀ k : Nat, D[k]? = some true ↔ ret[k]? = some true ∧
        ∀ (i : Nat) (is : List Nat) (v : List Bool), iss[i]? = some is → vs[i]? = some v →
          ∀ j : Nat, is[j]? = some k → v[j]? ≠ some false := by
  induction iss generalizing vs ret with
  | nil =>
    simp only [collect, Option.some.injEq] at h
    subst h
    simp
  | cons is iss ih =>
    cases vs with
    | nil => simp at hl
    | cons v vs =>
      simp only [List.length_cons, Nat.add_right_cancel_iff] at hl
      simp only [collect] at h
      split at h
      · rename_i he
        rw [List.isEmpty_iff] at he
        subst he
        obtain ⟨h1, h2, h3⟩ := ih vs ret hl h
        refine ⟨h1, ?_, fun k => (h3 k).trans (and_congr_right fun _ => ?_)⟩
        · intro i is v hi hv
          cases i with
          | zero =>
            simp only [List.getElem?_cons_zero, Option.some.injEq] at hi
            intro hne; exact absurd hi.symm hne
          | succ i => exact h2 i is v hi hv
        · constructor
          · intro g i is v hi hv
            cases i with
            | zero =>
              simp only [List.getElem?_cons_zero, Option.some.injEq] at hi
              subst hi
              simp
            | succ i => exact g i is v hi hv
          · intro g i is v hi hv
            exact g (i + 1) is v hi hv
      · split at h
        · simp at h
        · rename_i _ hlen
          have hlen : v.length = is.length := Decidable.not_not.1 hlen
          obtain ⟨h1, h2, h3⟩ := ih vs (veto ret is v) hl h
          refine ⟨h1.trans (veto_length _ _ _), ?_, fun k => (h3 k).trans ?_⟩
          · intro i is' v' hi hv
            cases i with
            | zero =>
              simp only [List.getElem?_cons_zero, Option.some.injEq] at hi hv
              subst hi hv
              intro _; exact hlen
            | succ i => exact h2 i is' v' hi hv
          · rw [veto_true]
            constructor
            · rintro ⟨⟨a, b⟩, g⟩
              refine ⟨a, fun i is' v' hi hv => ?_⟩
              cases i with
              | zero =>
                simp only [List.getElem?_cons_zero, Option.some.injEq] at hi hv
                subst hi hv
                exact b
              | succ i => exact g i is' v' hi hv
            · rintro ⟨a, g⟩
              exact ⟨⟨a, g 0 is v rfl rfl⟩, fun i is' v' hi hv => g (i + 1) is' v' hi hv⟩

theorem shardFlags_spec (D : List Bool) (is : List Nat) (fs : List Bool)
    (h : shardFlags D is = some fs) :
    fs.length = is.length ∧ ∀ j k : Nat, is[j]? = some k → fs[j]? = D[k]? := by
  induction is generalizing fs with
  | nil => simp [shardFlags] at h; subst h; simp
  | cons i is ih =>
    simp only [shardFlags, List.mapM_cons, Option.pure_def, Option.bind_eq_bind,
      Option.bind_eq_some_iff, Option.some.injEq] at h
    obtain ⟨b, hb, bs, hbs, rfl⟩ := h
    obtain ⟨h1, h2⟩ := ih bs hbs
    refine ⟨by simp [h1], fun j k hj => ?_⟩
    cases j with
    | zero => simp only [List.getElem?_cons_zero, Option.some.injEq] at hj ⊢; rw [← hj, hb]
    | succ j => exact h2 j k hj

/-! ### One shard -/

theorem foreign_keeps (c : Cfg) (s s' : State) (q : Req) (a : Resp) (d : Hash)
    (hf : foreign d q) (h : step c s q = some (s', a)) :
    s'.prepared d = s.prepared d ∧ s'.applied d = s.applied d := by
  cases q with
  | lock ts d' =>
    have hd : d' ≠ d := hf
    simp only [step, Option.some.injEq, Prod.mk.injEq] at h
    obtain ⟨rfl, -⟩ := h
    unfold lockOutputs
    split
    · exact ⟨rfl, rfl⟩
    · split
      · exact ⟨rfl, rfl⟩
      · obtain ⟨-, f2, f3, -⟩ := lockLoop_frame c s ts
        simp [f2, f3, Ne.symm hd]
  | apply fs d' =>
    have hd : d' ≠ d := hf
    simp only [step, Option.map_eq_some_iff] at h
    obtain ⟨⟨s1, b⟩, h, e⟩ := h
    simp only [Prod.mk.injEq] at e
    obtain ⟨rfl, -⟩ := e
    unfold applyOutputs at h
    split at h
    · simp at h; obtain ⟨rfl, -⟩ := h; exact ⟨rfl, rfl⟩
    · split at h
      · split at h
        · simp at h; obtain ⟨rfl, -⟩ := h; exact ⟨rfl, rfl⟩
        · simp at h
      · rename_i pr _
        split at h
        · simp at h
        · simp only [Option.some.injEq, Prod.mk.injEq] at h
          obtain ⟨rfl, -⟩ := h
          obtain ⟨-, f2, f3⟩ := applyLoop_frame c s pr.txs fs
          simp [f2, f3, Ne.symm hd, HSet.add]
  | discard d' =>
    have hd : d' ≠ d := hf
    simp only [step, Option.some.injEq, Prod.mk.injEq] at h
    obtain ⟨rfl, -⟩ := h
    unfold discardDtx
    split
    · simp [HSet.del, Ne.symm hd]
    · exact ⟨rfl, rfl⟩
  | stop =>
    simp only [step, Option.some.injEq, Prod.mk.injEq] at h
    obtain ⟨rfl, -⟩ := h
    exact ⟨rfl, rfl⟩

/-! ### The invariant -/

/-- The recorded outcome is the one the first answers of the shards ask for. -/
structure Decision (p : Params) (w : World) (D : List Bool) : Prop where
  length : D.length = p.txs.length
  heard : ∀ i c, p.shards[i]? = some c → (∃ t ∈ p.txs, Concerns c t) → (w.firstVote i).isSome
  exact : ∀ (k : Nat) (t : CompactTx), p.txs[k]? = some t →
    (D[k]? = some true ↔
      ∀ i c, p.shards[i]? = some c → Concerns c t → Granted p w i c k)

/-- The batch is recorded and resumable, or applied by everyone. -/
def Live (p : Params) (w : World) : Prop :=
  (w.rep.prepare p.d).isSome ∨ (w.rep.commit p.d).isSome ∨ AppliedEverywhere p w

/-- What holds of a node working on the batch. -/
def ExecInv (p : Params) (w : World) (e : Exec) : Prop :=
  match e.stage with
  | .start => e.dtx = built p.shards p.txs
  | .locking got =>
    e.dtx = built p.shards p.txs ∧ Live p w ∧ ∀ i v, got i = some v → w.voted i v
  | .decided =>
    e.dtx.idxs = (built p.shards p.txs).idxs ∧ Live p w ∧
      (w.decision = none → Decision p w e.dtx.complete)
  | .applying acked =>
    e.dtx.idxs = (built p.shards p.txs).idxs ∧ Live p w ∧ w.decision = some e.dtx.complete ∧
      ∀ i, acked i = true → w.ackApply i
  | .applied =>
    w.decision = some e.dtx.complete ∧ AppliedEverywhere p w
  | .discarding _ | .discarded | .done =>
    (e.dtx.complete = [] ∨ w.decision = some e.dtx.complete) ∧ AppliedEverywhere p w
  | .failed => True

/-- What holds of a request that was sent. -/
def SentInv (p : Params) (w : World) (i : Nat) : Req → Prop
  | .lock ts d => d = p.d ∧ ∃ c, p.shards[i]? = some c ∧ ts = p.txs.filter (relevant c)
  | .apply fs d => d = p.d ∧ ∃ c D, p.shards[i]? = some c ∧ w.decision = some D ∧
      shardFlags D (idxsOf c p.txs) = some fs
  | .discard d => d = p.d
  | .stop => False

structure Inv (p : Params) (w : World) : Prop where
  recP : ∀ ts, w.rep.prepare p.d = some ts → ts = p.txs ∧ w.decision = none
  recC : ∀ D is, w.rep.commit p.d = some (D, is) →
    w.decision = some D ∧ is = (built p.shards p.txs).idxs
  recX : w.rep.discard p.d = true → AppliedEverywhere p w
  dec : ∀ D, w.decision = some D → Decision p w D
  execs : ∀ (k : Nat) (e : Exec), w.execs[k]? = some e → ExecInv p w e
  start : ∀ (k : Nat) (e : Exec), w.execs[k]? = some e → e.stage = .start →
    w.execs.length = 1 ∧ w.rep.prepare p.d = none ∧ w.rep.commit p.d = none ∧
      w.rep.discard p.d = false ∧ w.decision = none ∧ ∀ i q, ¬ w.sent i q
  sent : ∀ i q, w.sent i q → SentInv p w i q ∧ Live p w
  votes : w.decision = none → ∀ i v, w.voted i v → w.firstVote i = some v
  first : w.decision = none → ∀ i, w.firstVote i = ((w.shard i).prepared p.d).map (·.results)
  prep : ∀ i c b, p.shards[i]? = some c → (w.shard i).prepared p.d = some b →
    b.txs = p.txs.filter (relevant c)
  hist : ∀ i h, h ∈ w.history i → ∃ c D, p.shards[i]? = some c ∧ w.decision = some D ∧
    h.1 = p.txs.filter (relevant c) ∧ shardFlags D (idxsOf c p.txs) = some h.2
  app : ∀ i, (w.shard i).applied p.d = true → w.history i ≠ []
  ack : ∀ i, w.ackApply i → w.history i ≠ []

/-- The parts of the world that only grow. -/
structure Ext (p : Params) (w w' : World) : Prop where
  dec : ∀ D, w.decision = some D → w'.decision = some D
  voted : ∀ i v, w.voted i v → w'.voted i v
  ack : ∀ i, w.ackApply i → w'.ackApply i
  first : ∀ i v, w.firstVote i = some v → w'.firstVote i = some v
  hist : ∀ i, w.history i ≠ [] → w'.history i ≠ []
  live : Live p w → Live p w'

theorem Ext.undec {p : Params} {w w' : World} (x : Ext p w w') (h : w'.decision = none) :
    w.decision = none := by
  cases hd : w.decision with
  | none => rfl
  | some D => rw [x.dec D hd] at h; simp at h

theorem Ext.applied {p : Params} {w w' : World} (x : Ext p w w') (h : AppliedEverywhere p w) :
    AppliedEverywhere p w' := fun i c hc ht => x.hist i (h i c hc ht)

theorem Ext.decision {p : Params} {w w' : World} (x : Ext p w w') (D : List Bool)
    (h : Decision p w D) : Decision p w' D where
  length := h.length
  heard i c hc ht := by
    obtain ⟨v, hv⟩ := Option.isSome_iff_exists.1 (h.heard i c hc ht)
    exact Option.isSome_iff_exists.2 ⟨v, x.first i v hv⟩
  exact k t hk := by
    rw [h.exact k t hk]
    refine forall_congr' fun i => forall_congr' fun c => forall_congr' fun hc =>
      forall_congr' fun ht => ?_
    obtain ⟨v, hv⟩ := Option.isSome_iff_exists.1
      (h.heard i c hc ⟨t, List.mem_of_getElem? hk, ht⟩)
    simp only [Granted, hv, x.first i v hv]

theorem Ext.exec {p : Params} {w w' : World} (x : Ext p w w') (e : Exec) (h : ExecInv p w e) :
    ExecInv p w' e := by
  obtain ⟨b, st⟩ := e
  cases st with
  | start => exact h
  | locking got => exact ⟨h.1, x.live h.2.1, fun i v hv => x.voted i v (h.2.2 i v hv)⟩
  | decided => exact ⟨h.1, x.live h.2.1, fun hd => x.decision _ (h.2.2 (x.undec hd))⟩
  | applying acked =>
    exact ⟨h.1, x.live h.2.1, x.dec _ h.2.2.1, fun i ha => x.ack i (h.2.2.2 i ha)⟩
  | applied => exact ⟨x.dec _ h.1, x.applied h.2⟩
  | discarding _ => exact ⟨h.1.imp id (x.dec _), x.applied h.2⟩
  | discarded => exact ⟨h.1.imp id (x.dec _), x.applied h.2⟩
  | done => exact ⟨h.1.imp id (x.dec _), x.applied h.2⟩
  | failed => trivial

theorem Ext.sentInv {p : Params} {w w' : World} (x : Ext p w w') (i : Nat) (q : Req)
    (h : SentInv p w i q) : SentInv p w' i q := by
  cases q with
  | lock ts d => exact h
  | apply fs d =>
    obtain ⟨a, c, D, b, e, f⟩ := h
    exact ⟨a, c, D, b, x.dec D e, f⟩
  | discard d => exact h
  | stop => exact h

/-- A step of one node that changes its own stage only. -/
theorem Inv.setExec {p : Params} {w : World} (h : Inv p w) (k : Nat) (e e' : Exec)
    (hk : w.execs[k]? = some e) (hs : e'.stage ≠ .start) (he : ExecInv p w e') :
    Inv p (w.setExec k e') := by
  have hx : Ext p w (w.setExec k e') :=
    ⟨fun _ => id, fun _ _ => id, fun _ => id, fun _ _ => id, fun _ => id, id⟩
  refine ⟨h.recP, h.recC, h.recX, fun D hD => hx.decision D (h.dec D hD), ?_, ?_, h.sent, h.votes, h.first, h.prep, h.hist,
    h.app, h.ack⟩
  · intro j f hj
    simp only [World.setExec, List.getElem?_set] at hj
    apply hx.exec
    split at hj
    · split at hj
      · simp only [Option.some.injEq] at hj
        subst hj; exact he
      · simp at hj
    · exact h.execs j f hj
  · intro j f hj hst
    simp only [World.setExec, List.getElem?_set] at hj
    split at hj
    · split at hj
      · simp only [Option.some.injEq] at hj
        subst hj; exact absurd hst hs
      · simp at hj
    · rename_i hne
      exfalso
      have := (h.start j f hj hst).1
      have h1 := (List.getElem?_eq_some_iff.1 hk).1
      have h2 := (List.getElem?_eq_some_iff.1 hj).1
      omega

/-- A change of the replicated state that keeps the invariant. -/
theorem Inv.setRep {p : Params} {w : World} (h : Inv p w) (r : Rep) (dec : Option (List Bool))
    (hx : Ext p w { w with rep := r, decision := dec })
    (hns : ∀ (k : Nat) (e : Exec), w.execs[k]? = some e → e.stage = .start →
      r.prepare p.d = none ∧ r.commit p.d = none ∧ r.discard p.d = false ∧ dec = none)
    (recP : ∀ ts, r.prepare p.d = some ts → ts = p.txs ∧ dec = none)
    (recC : ∀ D is, r.commit p.d = some (D, is) → dec = some D ∧ is = (built p.shards p.txs).idxs)
    (recX : r.discard p.d = true → AppliedEverywhere p w)
    (hdec : ∀ D, dec = some D → Decision p w D) :
    Inv p { w with rep := r, decision := dec } where
  recP := recP
  recC := recC
  recX := recX
  dec D hD := hx.decision D (hdec D hD)
  execs k e hk := hx.exec e (h.execs k e hk)
  start k e hk hs := by
    obtain ⟨a, b, c, d⟩ := hns k e hk hs
    exact ⟨(h.start k e hk hs).1, a, b, c, d, (h.start k e hk hs).2.2.2.2.2⟩
  sent i q hq := ⟨hx.sentInv i q (h.sent i q hq).1, hx.live (h.sent i q hq).2⟩
  votes hd := h.votes (hx.undec hd)
  first hd := h.first (hx.undec hd)
  prep := h.prep
  hist i x hm := by
    obtain ⟨c, D, a, b, e⟩ := h.hist i x hm
    exact ⟨c, D, a, hx.dec D b, e⟩
  app := h.app
  ack := h.ack

theorem Inv.setRepExec {p : Params} {w : World} (h : Inv p w) (r : Rep) (dec : Option (List Bool))
    (k : Nat) (e e' : Exec) (hk : w.execs[k]? = some e) (hs : e'.stage ≠ .start)
    (hx : Ext p w { w with rep := r, decision := dec })
    (recP : ∀ ts, r.prepare p.d = some ts → ts = p.txs ∧ dec = none)
    (recC : ∀ D is, r.commit p.d = some (D, is) → dec = some D ∧ is = (built p.shards p.txs).idxs)
    (recX : r.discard p.d = true → AppliedEverywhere p w)
    (hdec : ∀ D, dec = some D → Decision p w D)
    (he : ExecInv p { w with rep := r, decision := dec } e') :
    Inv p ({ w with rep := r, decision := dec }.setExec k e') := by
  have hx' : Ext p w ({ w with rep := r, decision := dec }.setExec k e') :=
    ⟨hx.dec, hx.voted, hx.ack, hx.first, hx.hist, hx.live⟩
  have hy : Ext p { w with rep := r, decision := dec }
      ({ w with rep := r, decision := dec }.setExec k e') :=
    ⟨fun _ => id, fun _ _ => id, fun _ => id, fun _ _ => id, fun _ => id, id⟩
  refine ⟨recP, recC, recX, fun D hD => hx'.decision D (hdec D hD), ?_, ?_,
    fun i q hq => ⟨hx'.sentInv i q (h.sent i q hq).1, hx'.live (h.sent i q hq).2⟩,
    fun hd => h.votes (hx'.undec hd), fun hd => h.first (hx'.undec hd), h.prep, ?_, h.app, h.ack⟩
  · intro j f hj
    simp only [World.setExec, List.getElem?_set] at hj
    split at hj
    · split at hj
      · simp only [Option.some.injEq] at hj
        subst hj; exact hy.exec _ he
      · simp at hj
    · exact hx'.exec _ (h.execs j f hj)
  · intro j f hj hst
    simp only [World.setExec, List.getElem?_set] at hj
    split at hj
    · split at hj
      · simp only [Option.some.injEq] at hj
        subst hj; exact absurd hst hs
      · simp at hj
    · rename_i hne
      exfalso
      have := (h.start j f hj hst).1
      have h1 := (List.getElem?_eq_some_iff.1 hk).1
      have h2 := (List.getElem?_eq_some_iff.1 hj).1
      omega
  · intro i x hm
    obtain ⟨c, D, a, b, e⟩ := h.hist i x hm
    exact ⟨c, D, a, hx.dec D b, e⟩

/-- A node joins. -/
theorem Inv.addExec {p : Params} {w : World} (h : Inv p w) (e' : Exec)
    (hr : Recorded p w) (hs : e'.stage ≠ .start) (he : ExecInv p w e') :
    Inv p { w with execs := w.execs ++ [e'] } := by
  have hx : Ext p w { w with execs := w.execs ++ [e'] } :=
    ⟨fun _ => id, fun _ _ => id, fun _ => id, fun _ _ => id, fun _ => id, id⟩
  refine ⟨h.recP, h.recC, h.recX, fun D hD => hx.decision D (h.dec D hD), ?_, ?_, h.sent,
    h.votes, h.first, h.prep, h.hist, h.app, h.ack⟩
  · intro j f hj
    apply hx.exec
    rw [List.getElem?_append] at hj
    split at hj
    · exact h.execs j f hj
    · have : f = e' := by simpa using List.mem_of_getElem? hj
      subst this; exact he
  · intro j f hj hst
    rw [List.getElem?_append] at hj
    split at hj
    · obtain ⟨-, a, b, c, -⟩ := h.start j f hj hst
      exfalso
      rcases hr with r | r | r <;> simp_all
    · have : f = e' := by simpa using List.mem_of_getElem? hj
      subst this; exact absurd hst hs

/-- A request is sent. -/
theorem Inv.addSent {p : Params} {w : World} (h : Inv p w) (i : Nat) (q : Req)
    (hs : ∀ (k : Nat) (e : Exec), w.execs[k]? = some e → e.stage ≠ .start)
    (hq : SentInv p w i q) (hl : Live p w) : Inv p (w.send i q) := by
  have hx : Ext p w (w.send i q) :=
    ⟨fun _ => id, fun _ _ => id, fun _ => id, fun _ _ => id, fun _ => id, id⟩
  refine ⟨h.recP, h.recC, h.recX, fun D hD => hx.decision D (h.dec D hD),
    fun k e hk => hx.exec e (h.execs k e hk), fun k e hk hst => absurd hst (hs k e hk), ?_,
    h.votes, h.first, h.prep, h.hist, h.app, h.ack⟩
  rintro j r (⟨rfl, rfl⟩ | hr)
  · exact ⟨hx.sentInv _ _ hq, hl⟩
  · exact ⟨hx.sentInv _ _ (h.sent j r hr).1, (h.sent j r hr).2⟩

/-- Two nodes cannot be there while one has not started. -/
theorem Inv.noStart {p : Params} {w : World} (h : Inv p w) (k : Nat) (e : Exec)
    (hk : w.execs[k]? = some e) (hs : e.stage ≠ .start) (j : Nat) (f : Exec)
    (hj : w.execs[j]? = some f) : f.stage ≠ .start := by
  intro hst
  have := (h.start j f hj hst).1
  have h1 := (List.getElem?_eq_some_iff.1 hk).1
  have h2 := (List.getElem?_eq_some_iff.1 hj).1
  have : j = k := by omega
  subst this
  rw [hk] at hj
  simp only [Option.some.injEq] at hj
  exact hs (hj ▸ hst)

theorem built_idxs (p : Params) (i : Nat) (is : List Nat)
    (h : (built p.shards p.txs).idxs[i]? = some is) :
    ∃ c, p.shards[i]? = some c ∧ is = idxsOf c p.txs := by
  simp only [built, List.getElem?_map, Option.map_eq_some_iff] at h
  obtain ⟨c, hc, rfl⟩ := h
  exact ⟨c, hc, rfl⟩

theorem involves_iff (p : Params) (e : Exec) (he : e.dtx.idxs = (built p.shards p.txs).idxs)
    (i : Nat) : e.involves i ↔ ∃ c, p.shards[i]? = some c ∧ ∃ t ∈ p.txs, Concerns c t := by
  constructor
  · rintro ⟨is, his, hne⟩
    obtain ⟨c, hc, rfl⟩ := built_idxs p i is (he ▸ his)
    exact ⟨c, hc, (idxs_ne_nil c p.txs).1 hne⟩
  · rintro ⟨c, hc, ht⟩
    refine ⟨idxsOf c p.txs, ?_, (idxs_ne_nil c p.txs).2 ht⟩
    rw [he]; simp [built, hc]

theorem built_txs (p : Params) (i : Nat) (ts : List CompactTx)
    (h : (built p.shards p.txs).txs[i]? = some ts) :
    ∃ c, p.shards[i]? = some c ∧ ts = p.txs.filter (relevant c) := by
  simp only [built, List.getElem?_map, Option.map_eq_some_iff] at h
  obtain ⟨c, hc, rfl⟩ := h
  exact ⟨c, hc, rfl⟩

theorem decision_of_outcome {p : Params} {w : World} (h : Inv p w) (got : Nat → Option (List Bool))
    (D : List Bool) (hgot : ∀ i v, got i = some v → w.voted i v)
    (hall : ∀ i c, p.shards[i]? = some c → (∃ t ∈ p.txs, Concerns c t) → (got i).isSome)
    (hD : (built p.shards p.txs).outcome
      ((List.range (built p.shards p.txs).idxs.length).map fun i => (got i).getD []) = some D)
    (hd : w.decision = none) : Decision p w D := by
  have hfirst : ∀ i v, got i = some v → w.firstVote i = some v :=
    fun i v hv => h.votes hd i v (hgot i v hv)
  obtain ⟨h1, h2, h3⟩ := collect_spec _ _ _ _ (by simp) hD
  simp only [List.length_replicate] at h1
  have hv : ∀ (i : Nat) (c : Cfg), p.shards[i]? = some c →
      ((List.range (built p.shards p.txs).idxs.length).map fun i => (got i).getD [])[i]? =
        some ((got i).getD []) := by
    intro i c hc
    have := (List.getElem?_eq_some_iff.1 hc).1
    simp [built, this]
  have hi : ∀ (i : Nat) (c : Cfg), p.shards[i]? = some c →
      (built p.shards p.txs).idxs[i]? = some (idxsOf c p.txs) := by
    intro i c hc; simp [built, hc]
  refine ⟨h1, ?_, ?_⟩
  · intro i c hc ht
    obtain ⟨v, hv⟩ := Option.isSome_iff_exists.1 (hall i c hc ht)
    exact Option.isSome_iff_exists.2 ⟨v, hfirst i v hv⟩
  · intro k t hk
    have hlt := (List.getElem?_eq_some_iff.1 hk).1
    rw [h3 k]
    constructor
    · rintro ⟨-, g⟩ i c hc ht
      have hmem : ∃ t ∈ p.txs, Concerns c t := ⟨t, List.mem_of_getElem? hk, ht⟩
      obtain ⟨v, hgv⟩ := Option.isSome_iff_exists.1 (hall i c hc hmem)
      refine ⟨v, hfirst i v hgv, ?_⟩
      have hpl := idxs_place c p.txs k t hk ht
      have hlen := h2 i _ _ (hi i c hc) (hv i c hc) ((idxs_ne_nil c p.txs).2 hmem)
      have hno := g i _ _ (hi i c hc) (hv i c hc) _ hpl
      rw [hgv, Option.getD_some] at hlen hno
      have hlt' := (List.getElem?_eq_some_iff.1 hpl).1
      cases hb : v[place c p.txs k]? with
      | none => rw [List.getElem?_eq_none_iff] at hb; omega
      | some b => cases b <;> simp_all
    · intro g
      refine ⟨by rw [List.getElem?_replicate, if_pos]; exact hlt, fun i is v his hvs j hj => ?_⟩
      obtain ⟨c, hc, rfl⟩ := built_idxs p i is his
      obtain ⟨t', ht', hct, rfl⟩ := idxs_of c p.txs k j hj
      rw [hk] at ht'
      simp only [Option.some.injEq] at ht'
      subst ht'
      obtain ⟨u, hu1, hu2⟩ := g i c hc hct
      obtain ⟨v', hgv⟩ := Option.isSome_iff_exists.1
        (hall i c hc ⟨t, List.mem_of_getElem? hk, hct⟩)
      rw [hv i c hc, hgv, Option.getD_some, Option.some.injEq] at hvs
      subst hvs
      rw [hfirst i v' hgv, Option.some.injEq] at hu1
      subst hu1
      rw [hu2]; simp

theorem inv_init (p : Params) (w : World) (h : Init p w) : Inv p w := by
  obtain ⟨r1, r2, r3⟩ := h.rep
  obtain ⟨g1, g2, g3⟩ := h.records
  refine ⟨fun ts => by simp [r1], fun D is => by simp [r2], by simp [r3], fun D => by simp [g2],
    ?_, ?_, fun i q hq => absurd hq (h.sent i q), fun _ i v hv => absurd hv (h.voted i v),
    fun _ i => by rw [g1, (h.shards i).1]; rfl, fun i c b _ hb => by simp [(h.shards i).1] at hb,
    fun i x hx => by simp [g3] at hx, fun i hi => by simp [(h.shards i).2] at hi,
    fun i hi => absurd hi (h.acks i).1⟩
  · intro k e hk
    rw [h.execs] at hk
    have := List.mem_of_getElem? hk
    simp only [List.mem_singleton] at this
    subst this
    exact addAll_new _ _
  · intro k e hk hs
    exact ⟨by simp [h.execs], r1, r2, r3, g2, h.sent⟩

/-- A request of the batch arrives. -/
theorem Inv.deliver {p : Params} {w : World} (h : Inv p w) (i : Nat) (c : Cfg) (q : Req)
    (s' : State) (a : Resp) (hc : p.shards[i]? = some c) (hq : w.sent i q)
    (hs : step c (w.shard i) q = some (s', a)) :
    Inv p ((w.answered p.d i q a).setShard i s') := by
  obtain ⟨hsi, hl⟩ := h.sent i q hq
  have hns : ∀ (k : Nat) (e : Exec), w.execs[k]? = some e → e.stage ≠ .start :=
    fun k e hk hst => (h.start k e hk hst).2.2.2.2.2 i q hq
  cases q with
  | lock ts d =>
    obtain ⟨rfl, c', hc', rfl⟩ := hsi
    rw [hc, Option.some.injEq] at hc'
    subst hc'
    simp only [step, Option.some.injEq, Prod.mk.injEq] at hs
    obtain ⟨rfl, rfl⟩ := hs
    have key : ((lockOutputs c (w.shard i) (p.txs.filter (relevant c)) p.d).1 = w.shard i ∧
          (lockOutputs c (w.shard i) (p.txs.filter (relevant c)) p.d).2 = none) ∨
        ∃ b : Prepared, b.txs = p.txs.filter (relevant c) ∧
          (lockOutputs c (w.shard i) (p.txs.filter (relevant c)) p.d).2 = some b.results ∧
          (lockOutputs c (w.shard i) (p.txs.filter (relevant c)) p.d).1.prepared p.d = some b ∧
          (lockOutputs c (w.shard i) (p.txs.filter (relevant c)) p.d).1.applied p.d =
            (w.shard i).applied p.d ∧
          (∀ b', (w.shard i).prepared p.d = some b' → b' = b) := by
      unfold lockOutputs
      split
      · exact Or.inl ⟨rfl, rfl⟩
      · split
        · rename_i b hb
          exact Or.inr ⟨b, h.prep i c b hc hb, rfl, hb, rfl, fun b' hb' => by simp_all⟩
        · rename_i hb
          obtain ⟨-, f2, f3, -⟩ := lockLoop_frame c (w.shard i) (p.txs.filter (relevant c))
          exact Or.inr ⟨⟨_, _⟩, rfl, rfl, by simp, by simp [f3], fun b' hb' => by simp [hb] at hb'⟩
    generalize lockOutputs c (w.shard i) (p.txs.filter (relevant c)) p.d = o at key ⊢
    obtain ⟨s', r⟩ := o
    rcases key with ⟨h1, h2⟩ | ⟨b, hb1, hb2, hb3, hb4, hb5⟩
    · simp only at h1 h2
      subst h1 h2
      have : (w.answered p.d i (.lock (p.txs.filter (relevant c)) p.d) (.lock none)).setShard i
          (w.shard i) = w := by
        simp only [World.answered, World.setShard]
        congr 1
        funext j
        split <;> simp_all
      rw [this]; exact h
    · simp only at hb2 hb3 hb4
      subst hb2
      simp only [World.answered, World.setShard]
      have hx : Ext p w { w with
          shard := fun j => if j = i then s' else w.shard j
          voted := fun j u => (j = i ∧ u = b.results) ∨ w.voted j u
          firstVote := fun j =>
            if j = i then some ((w.firstVote i).getD b.results) else w.firstVote j } := by
        refine ⟨fun _ => id, fun _ _ => Or.inr, fun _ => id, ?_, fun _ => id, id⟩
        intro j v hv
        simp only
        split
        · rename_i e; subst e; simp [hv]
        · exact hv
      have hfv : w.decision = none → (w.firstVote i).getD b.results = b.results := by
        intro hd
        rw [h.first hd i]
        cases hp : (w.shard i).prepared p.d with
        | none => rfl
        | some b' => rw [hb5 b' hp]; rfl
      refine ⟨h.recP, h.recC, h.recX, fun D hD => hx.decision D (h.dec D hD),
        fun k e hk => hx.exec e (h.execs k e hk), fun k e hk hst => absurd hst (hns k e hk),
        fun j r hr => ⟨hx.sentInv j r (h.sent j r hr).1, (h.sent j r hr).2⟩, ?_, ?_, ?_,
        h.hist, ?_, h.ack⟩
      · rintro hd j v (⟨rfl, rfl⟩ | hv)
        · simp [hfv hd]
        · exact hx.first j v (h.votes hd j v hv)
      · intro hd j
        simp only
        split
        · rename_i e; subst e; simp [hfv hd, hb3]
        · exact h.first hd j
      · intro j c' b' hc' hb'
        simp only at hb'
        split at hb'
        · rename_i e
          subst e
          rw [hc, Option.some.injEq] at hc'
          subst hc'
          rw [hb3, Option.some.injEq] at hb'
          subst hb'
          exact hb1
        · exact h.prep j c' b' hc' hb'
      · intro j hj
        simp only at hj
        split at hj
        · rename_i e; subst e; rw [hb4] at hj; exact h.app _ hj
        · exact h.app j hj
  | apply fs d =>
    obtain ⟨rfl, c', D, hc', hD, hfs⟩ := hsi
    rw [hc, Option.some.injEq] at hc'
    subst hc'
    simp only [step, Option.map_eq_some_iff] at hs
    obtain ⟨⟨s1, b⟩, hs, e⟩ := hs
    simp only [Prod.mk.injEq] at e
    obtain ⟨rfl, rfl⟩ := e
    unfold applyOutputs at hs
    split at hs
    · simp only [Option.some.injEq, Prod.mk.injEq] at hs
      obtain ⟨rfl, rfl⟩ := hs
      have : (w.answered p.d i (.apply fs p.d) (.apply false)).setShard i (w.shard i) = w := by
        simp only [World.answered, World.setShard]
        congr 1
        funext j
        split <;> simp_all
      rw [this]; exact h
    · split at hs
      · rename_i hnone
        split at hs
        · rename_i happ
          simp only [Option.some.injEq, Prod.mk.injEq] at hs
          obtain ⟨rfl, rfl⟩ := hs
          have : (w.answered p.d i (.apply fs p.d) (.apply true)).setShard i (w.shard i) =
              { w with ackApply := fun j => j = i ∨ w.ackApply j } := by
            simp only [World.answered, World.setShard, hnone]
            congr 1
            funext j
            split <;> simp_all
          rw [this]
          have hx : Ext p w { w with ackApply := fun j => j = i ∨ w.ackApply j } :=
            ⟨fun _ => id, fun _ _ => id, fun _ => Or.inr, fun _ _ => id, fun _ => id, id⟩
          refine ⟨h.recP, h.recC, h.recX, fun D hD => hx.decision D (h.dec D hD),
            fun k e hk => hx.exec e (h.execs k e hk), fun k e hk hst => absurd hst (hns k e hk),
            fun j r hr => ⟨hx.sentInv j r (h.sent j r hr).1, (h.sent j r hr).2⟩, h.votes, h.first,
            h.prep, h.hist, h.app, ?_⟩
          rintro j (rfl | hj)
          · exact h.app _ happ
          · exact h.ack j hj
        · simp at hs
      · rename_i b hb
        split at hs
        · simp at hs
        · simp only [Option.some.injEq, Prod.mk.injEq] at hs
          obtain ⟨rfl, rfl⟩ := hs
          obtain ⟨-, f2, f3⟩ := applyLoop_frame c (w.shard i) b.txs fs
          simp only [World.answered, World.setShard, hb]
          generalize hs' : ({ applyLoop c (w.shard i) b.txs fs with
            prepared := fun d => if d = p.d then none
              else (applyLoop c (w.shard i) b.txs fs).prepared d
            applied := (applyLoop c (w.shard i) b.txs fs).applied.add p.d } : State) = s'
          have g1 : s'.prepared p.d = none := by rw [← hs']; simp
          have hgrow : ∀ j, w.history j ≠ [] →
              (if j = i then w.history j ++ [(b.txs, fs)] else w.history j) ≠ [] := by
            intro j hj
            split
            · simp
            · exact hj
          have happl : AppliedEverywhere p w → ∀ j c, p.shards[j]? = some c →
              (∃ t ∈ p.txs, Concerns c t) →
              (if j = i then w.history j ++ [(b.txs, fs)] else w.history j) ≠ [] :=
            fun g j c hc ht => hgrow j (g j c hc ht)
          have hx : Ext p w { w with
              shard := fun j => if j = i then s' else w.shard j
              ackApply := fun j => j = i ∨ w.ackApply j
              history := fun j =>
                if j = i then w.history j ++ [(b.txs, fs)] else w.history j } :=
            ⟨fun _ => id, fun _ _ => id, fun _ => Or.inr, fun _ _ => id, hgrow,
              fun g => g.imp id (Or.imp id happl)⟩
          refine ⟨h.recP, h.recC, fun g => happl (h.recX g),
            fun D hD => hx.decision D (h.dec D hD),
            fun k e hk => hx.exec e (h.execs k e hk), fun k e hk hst => absurd hst (hns k e hk),
            fun j r hr => ⟨hx.sentInv j r (h.sent j r hr).1, hx.live (h.sent j r hr).2⟩, h.votes,
            fun hd => by simp_all, ?_, ?_, ?_, ?_⟩
          · intro j c' b' hc' hb'
            simp only at hb'
            split at hb'
            · rw [g1] at hb'; simp at hb'
            · exact h.prep j c' b' hc' hb'
          · intro j x hm
            simp only at hm
            split at hm
            · rename_i e
              subst e
              rw [List.mem_append, List.mem_singleton] at hm
              rcases hm with hm | rfl
              · exact h.hist _ x hm
              · exact ⟨c, D, hc, hD, h.prep _ c b hc hb, hfs⟩
            · exact h.hist j x hm
          · intro j hj
            simp only at hj ⊢
            split
            · simp
            · rename_i e; rw [if_neg e] at hj; exact h.app j hj
          · rintro j (rfl | hj)
            · simp
            · exact hgrow j (h.ack j hj)
  | discard d =>
    have hd : d = p.d := hsi
    subst hd
    simp only [step, Option.some.injEq, Prod.mk.injEq] at hs
    obtain ⟨rfl, rfl⟩ := hs
    have hw : (w.answered p.d i (.discard p.d) (.discard (discardDtx (w.shard i) p.d).2)).setShard i
        (discardDtx (w.shard i) p.d).1 =
        { w with
          shard := fun j => if j = i then (discardDtx (w.shard i) p.d).1 else w.shard j
          ackDiscard := (w.answered p.d i (.discard p.d)
            (.discard (discardDtx (w.shard i) p.d).2)).ackDiscard } := by
      cases (discardDtx (w.shard i) p.d).2 <;> rfl
    rw [hw]
    have hp : ∀ j, (if j = i then (discardDtx (w.shard i) p.d).1 else w.shard j).prepared p.d =
        (w.shard j).prepared p.d := by
      intro j
      split
      · rename_i e; subst e
        unfold discardDtx; split <;> rfl
      · rfl
    have ha : ∀ j, (if j = i then (discardDtx (w.shard i) p.d).1 else w.shard j).applied p.d = true →
        (w.shard j).applied p.d = true := by
      intro j
      split
      · rename_i e; subst e
        unfold discardDtx; split
        · simp [HSet.del]
        · exact id
      · exact id
    generalize (w.answered p.d i (.discard p.d)
            (.discard (discardDtx (w.shard i) p.d).2)).ackDiscard = ad
    have hx : Ext p w { w with
          shard := fun j => if j = i then (discardDtx (w.shard i) p.d).1 else w.shard j
          ackDiscard := ad } :=
      ⟨fun _ => id, fun _ _ => id, fun _ => id, fun _ _ => id, fun _ => id, id⟩
    refine ⟨h.recP, h.recC, h.recX, fun D hD => hx.decision D (h.dec D hD),
      fun k e hk => hx.exec e (h.execs k e hk), fun k e hk hst => absurd hst (hns k e hk),
      fun j r hr => ⟨hx.sentInv j r (h.sent j r hr).1, (h.sent j r hr).2⟩, h.votes, ?_, ?_,
      h.hist, fun j hj => h.app j (ha j hj), h.ack⟩
    · intro hd j
      simp only [hp]; exact h.first hd j
    · intro j c' b' hc' hb'
      simp only [hp] at hb'
      exact h.prep j c' b' hc' hb'
  | stop => exact hsi.elim

theorem Inv.other {p : Params} {w : World} (h : Inv p w) (i : Nat) (c : Cfg) (q : Req)
    (s' : State) (a : Resp) (hf : foreign p.d q) (hs : step c (w.shard i) q = some (s', a)) :
    Inv p (w.setShard i s') := by
  obtain ⟨g1, g2⟩ := foreign_keeps c _ _ q a p.d hf hs
  have hp : ∀ j, ((w.setShard i s').shard j).prepared p.d = (w.shard j).prepared p.d := by
    intro j
    simp only [World.setShard]
    split
    · rename_i e; subst e; exact g1
    · rfl
  have ha : ∀ j, ((w.setShard i s').shard j).applied p.d = (w.shard j).applied p.d := by
    intro j
    simp only [World.setShard]
    split
    · rename_i e; subst e; exact g2
    · rfl
  have hx : Ext p w (w.setShard i s') :=
    ⟨fun _ => id, fun _ _ => id, fun _ => id, fun _ _ => id, fun _ => id, id⟩
  exact ⟨h.recP, h.recC, h.recX, fun D hD => hx.decision D (h.dec D hD),
    fun k e hk => hx.exec e (h.execs k e hk), h.start,
    fun j r hr => ⟨hx.sentInv j r (h.sent j r hr).1, (h.sent j r hr).2⟩, h.votes,
    fun hd j => by rw [hp]; exact h.first hd j,
    fun j c' b hc' hb => h.prep j c' b hc' (by rw [← hp]; exact hb), h.hist,
    fun j hj => h.app j (by rw [← ha]; exact hj), h.ack⟩

theorem exec_other (r r' : Rep) (cmd : Cmd) (d : Hash) (hd : cmd.dtx ≠ d)
    (h : r.exec cmd = some r') :
    r'.prepare d = r.prepare d ∧ r'.commit d = r.commit d ∧ r'.discard d = r.discard d := by
  cases cmd <;> simp only [Cmd.dtx] at hd <;> simp only [Rep.exec] at h
  · split at h
    · simp at h
    · simp only [Option.some.injEq] at h; subst h; simp [Ne.symm hd]
  · split at h
    · simp at h
    · simp only [Option.some.injEq] at h; subst h; simp [Ne.symm hd]
  · split at h
    · simp at h
    · simp only [Option.some.injEq] at h; subst h; simp [Ne.symm hd, HSet.add]
  · split at h
    · simp only [Option.some.injEq] at h; subst h; simp [Ne.symm hd, HSet.del]
    · simp at h

theorem inv_step (p : Params) (w w' : World) (h : Inv p w) (hs : Step p w w') : Inv p w' := by
  cases hs with
  | prepareCb k e r lost hk hst hr =>
    obtain ⟨hlen, rp, rc, rx, rd, rs⟩ := h.start k e hk hst
    have he := h.execs k e hk
    simp only [ExecInv, hst] at he
    simp only [Rep.exec, rp, Option.some.injEq] at hr
    subst hr
    have hx : Ext p w { w with rep := { w.rep with
        prepare := fun d' => if d' = p.d then some e.dtx.full else w.rep.prepare d' } } :=
      ⟨fun _ => id, fun _ _ => id, fun _ => id, fun _ _ => id, fun _ => id,
        fun _ => Or.inl (by simp)⟩
    refine h.setRepExec _ w.decision k e _ hk ?_ hx ?_ ?_ ?_ h.dec ?_
    · cases lost <;> simp
    · intro ts hts
      simp only [if_true, Option.some.injEq] at hts
      subst hts
      exact ⟨by rw [he]; rfl, rd⟩
    · intro D is hc; simp [rc] at hc
    · simp [rx]
    · cases lost with
      | true => trivial
      | false =>
        simp only [ExecInv]
        exact ⟨he, Or.inl (by simp), by simp⟩
  | sendLock k e got i ts hk hst hi hts =>
    have he := h.execs k e hk
    simp only [ExecInv, hst] at he
    refine h.addSent i _ (fun j f hj => h.noStart k e hk (by simp [hst]) j f hj) ?_ he.2.1
    rw [he.1] at hts
    exact ⟨rfl, built_txs p i ts hts⟩
  | recvVote k e got i v hk hst hv =>
    have he := h.execs k e hk
    simp only [ExecInv, hst] at he
    refine h.setExec k e _ hk (by simp) ?_
    refine ⟨he.1, he.2.1, fun j u hu => ?_⟩
    simp only at hu
    split at hu
    · rename_i e; subst e; simp only [Option.some.injEq] at hu; subst hu; exact hv
    · exact he.2.2 j u hu
  | decide k e got D hk hst hall hD =>
    have he := h.execs k e hk
    simp only [ExecInv, hst] at he
    refine h.setExec k e _ hk (by simp) ?_
    refine ⟨by rw [he.1], he.2.1, fun hd => ?_⟩
    refine decision_of_outcome h got D he.2.2 (fun i c hc ht => hall i ?_) ?_ hd
    · exact (involves_iff p e (by rw [he.1]) i).2 ⟨c, hc, ht⟩
    · rw [he.1] at hD; exact hD
  | commitCb k e r lost hk hst hr =>
    have he := h.execs k e hk
    simp only [ExecInv, hst] at he
    simp only [Rep.exec] at hr
    split at hr
    · simp at hr
    · rename_i ts hts
      obtain ⟨-, hd⟩ := h.recP ts hts
      have hc : w.rep.commit p.d = none := by
        cases hc : w.rep.commit p.d with
        | none => rfl
        | some q => have := (h.recC q.1 q.2 hc).1; rw [hd] at this; simp at this
      simp only [Option.some.injEq, hc, Option.getD_none] at hr
      subst hr
      simp only [hd, Option.getD_none]
      have hx : Ext p w { w with
          rep := { w.rep with
            prepare := fun d' => if d' = p.d then none else w.rep.prepare d'
            commit := fun d' => if d' = p.d then some (e.dtx.complete, e.dtx.idxs)
              else w.rep.commit d' }
          decision := some e.dtx.complete } :=
        ⟨fun D hD => by simp [hd] at hD, fun _ _ => id, fun _ => id, fun _ _ => id, fun _ => id,
          fun _ => Or.inr (Or.inl (by simp))⟩
      refine h.setRepExec _ (some e.dtx.complete) k e _ hk ?_ hx ?_ ?_ ?_ ?_ ?_
      · cases lost <;> simp
      · intro ts hts; simp at hts
      · intro D is hDi
        simp only [if_true, Option.some.injEq, Prod.mk.injEq] at hDi
        obtain ⟨rfl, rfl⟩ := hDi
        exact ⟨rfl, he.1⟩
      · exact h.recX
      · intro D hD
        simp only [Option.some.injEq] at hD
        subst hD
        exact he.2.2 hd
      · cases lost with
        | true => trivial
        | false => exact ⟨he.1, Or.inr (Or.inl (by simp)), rfl, by simp⟩
  | sendApply k e acked i is fs hk hst hi hne hfs =>
    have he := h.execs k e hk
    simp only [ExecInv, hst] at he
    refine h.addSent i _ (fun j f hj => h.noStart k e hk (by simp [hst]) j f hj) ?_ he.2.1
    rw [he.1] at hi
    obtain ⟨c, hc, rfl⟩ := built_idxs p i is hi
    exact ⟨rfl, c, _, hc, he.2.2.1, hfs⟩
  | recvApply k e acked i hk hst ha =>
    have he := h.execs k e hk
    simp only [ExecInv, hst] at he
    refine h.setExec k e _ hk (by simp) ?_
    refine ⟨he.1, he.2.1, he.2.2.1, fun j hj => ?_⟩
    simp only at hj
    split at hj
    · rename_i e; subst e; exact ha
    · exact he.2.2.2 j hj
  | allApplied k e acked hk hst hall =>
    have he := h.execs k e hk
    simp only [ExecInv, hst] at he
    refine h.setExec k e _ hk (by simp) ?_
    refine ⟨he.2.2.1, fun i c hc ht => h.ack i (he.2.2.2 i (hall i ?_))⟩
    exact (involves_iff p e he.1 i).2 ⟨c, hc, ht⟩
  | discardCb k e r lost hk hst hr =>
    have he := h.execs k e hk
    simp only [ExecInv, hst] at he
    simp only [Rep.exec] at hr
    split at hr
    · simp at hr
    · simp only [Option.some.injEq] at hr
      subst hr
      have hx : Ext p w { w with rep := { w.rep with
          commit := fun d' => if d' = p.d then none else w.rep.commit d'
          discard := w.rep.discard.add p.d } } :=
        ⟨fun _ => id, fun _ _ => id, fun _ => id, fun _ _ => id, fun _ => id,
          fun _ => Or.inr (Or.inr he.2)⟩
      refine h.setRepExec _ w.decision k e _ hk ?_ hx h.recP ?_ (fun _ => he.2) h.dec ?_
      · cases lost <;> simp
      · intro D is hD; simp at hD
      · cases lost with
        | true => trivial
        | false => exact ⟨Or.inr he.1, he.2⟩
  | sendDiscard k e acked i hk hst hi =>
    have he := h.execs k e hk
    simp only [ExecInv, hst] at he
    exact h.addSent i _ (fun j f hj => h.noStart k e hk (by simp [hst]) j f hj) rfl
      (Or.inr (Or.inr he.2))
  | recvDiscard k e acked i hk hst ha =>
    have he := h.execs k e hk
    simp only [ExecInv, hst] at he
    exact h.setExec k e _ hk (by simp) he
  | allDiscarded k e acked hk hst hall =>
    have he := h.execs k e hk
    simp only [ExecInv, hst] at he
    exact h.setExec k e _ hk (by simp) he
  | doneCb k e r lost hk hst hr =>
    have he := h.execs k e hk
    simp only [ExecInv, hst] at he
    simp only [Rep.exec] at hr
    split at hr
    · simp only [Option.some.injEq] at hr
      subst hr
      have hx : Ext p w { w with rep := { w.rep with discard := w.rep.discard.del p.d } } :=
        ⟨fun _ => id, fun _ _ => id, fun _ => id, fun _ _ => id, fun _ => id, id⟩
      refine h.setRepExec _ w.decision k e _ hk ?_ hx h.recP h.recC (fun _ => he.2) h.dec ?_
      · cases lost <;> simp
      · cases lost with
        | true => trivial
        | false => exact he
    · simp at hr
  | crash k e hk => exact h.setExec k e _ hk (by simp) trivial
  | recoverPrepare ts hts =>
    refine h.addExec _ (Or.inl (by simp [hts])) (by simp) ?_
    obtain ⟨rfl, -⟩ := h.recP ts hts
    exact ⟨addAll_new _ _, Or.inl (by simp [hts]), by simp⟩
  | recoverCommit complete idxs hc =>
    refine h.addExec _ (Or.inr (Or.inl (by simp [hc]))) (by simp) ?_
    obtain ⟨h1, h2⟩ := h.recC _ _ hc
    exact ⟨h2, Or.inr (Or.inl (by simp [hc])), h1, by simp⟩
  | recoverDiscard hd =>
    refine h.addExec _ (Or.inr (Or.inr hd)) (by simp) ?_
    exact ⟨Or.inl rfl, h.recX hd⟩
  | deliver i c q s' a hc hq hs => exact h.deliver i c q s' a hc hq hs
  | otherShard i c q s' a _ hc hf hs => exact h.other i c q s' a hf hs
  | otherCmd cmd r _ hd hr =>
    obtain ⟨g1, g2, g3⟩ := exec_other _ _ cmd p.d hd hr
    refine h.setRep r w.decision ⟨fun _ => id, fun _ _ => id, fun _ => id, fun _ _ => id,
      fun _ => id, fun g => ?_⟩ ?_ ?_ ?_ ?_ h.dec
    · simp only [Live, g1, g2]; exact g
    · intro k e hk hst
      obtain ⟨-, a, b, c, d, -⟩ := h.start k e hk hst
      exact ⟨g1.trans a, g2.trans b, g3.trans c, d⟩
    · intro ts hts; exact h.recP ts (g1 ▸ hts)
    · intro D is hD; exact h.recC D is (g2 ▸ hD)
    · intro hd; exact h.recX (g3 ▸ hd)

theorem reach_inv (p : Params) (w : World) (h : Reach p w) : Inv p w := by
  induction h with
  | init w h => exact inv_init p w h
  | step w w' _ hs ih => exact inv_step p w w' ih hs

end Verif.Coordinator
