import Verif.Atomizer.Settled

/-!
# A payment of unspent coins goes through, and a refusal has a reason (C133)

No code of its own: the shards, the leader and the replicated state machine of C19, C24 and C131
together, seen from whoever pays.
-/
namespace Verif.Atomizer.Payment

open Verif.Tx Verif.Atomizer.Settled

/-! ### Specification -/

/-- Some steps of the system. -/
inductive Steps (P : Params) : World → World → Prop where
  | refl (w : World) : Steps P w w
  | tail (u v w : World) : Steps P u v → Step P v w → Steps P u w

theorem Steps.trans {P : Params} {u v w : World} (h : Steps P u v) (h' : Steps P v w) : Steps P u w := by
  induction h' with
  | refl => exact h
  | tail v w _ hs ih => exact ih.tail _ _ _ hs

theorem Steps.reach {P : Params} {u v : World} (hu : Reach P u) (h : Steps P u v) : Reach P v := by
  induction h with
  | refl => exact hu
  | tail v w _ hs ih => exact .step _ _ ih hs

/-- A coin can be spent: the chain leaves it unspent, and no confirmed transaction that waits for the next block spends it. -/
def Spendable (P : Params) (w : World) (x : Hash) : Prop :=
  P.start.after (txsOf w.chain) x ∧ ∀ t ∈ w.sm.atm.complete, x ∉ t.inputs

/-- A shard has applied every block. -/
def CaughtUp (w : World) (i : Nat) : Prop := (w.shards i).best.toNat = w.chain.length

/-- Some transaction since height `h`, confirmed or accepted before in the same batch, spends `x`. -/
def SpentSince (w : World) (h : Nat) (before : List Agg) (x : Hash) : Prop :=
  ∃ t ∈ txsOf (w.chain.drop h) ++ w.sm.atm.complete ++ before.map Agg.tx, x ∈ t.inputs

/-! ### Shards -/

/-- **C133.** A shard that has applied every block attests a payment of coins of its range that are unspent, at the current height. -/
theorem C133_attested {P : Params} (hc : IdsCommit P) {w : World} (h : Reach P w) (i : Nat) (tx : CompactTx) (hup : CaughtUp w i)
    (hpos : w.chain ≠ []) (hne : tx.inputs ≠ [])
    (hu : ∀ x ∈ tx.inputs, owns (P.range i) x = true → P.start.after (txsOf w.chain) x) :
    ∃ n, (w.shards i).digestTx tx = .inr n ∧ n.tx = tx ∧ n.height.toNat = w.chain.length ∧
      ∀ j, j ∈ n.atts ↔ ∃ x, tx.inputs[j]? = some x ∧ owns (P.range i) x = true := by
  have hg := (reach_inv hc h).shards i
  have hup : (w.shards i).best.toNat = w.chain.length := hup
  have hz : (w.shards i).snapHeight ≠ 0 := by
    rw [hg.snapHeight]
    intro h0
    rw [h0] at hup
    exact hpos (List.length_eq_zero_iff.mp hup.symm)
  obtain ⟨n, hn⟩ := (C24_reports (w.shards i) tx hz hne).2 (by
    rintro ⟨x, hx, ho, hs⟩
    rw [hg.range] at ho
    rw [hg.snap] at hs
    have := (hg.coins x ho).mpr (by rw [UnspentAt, hup, List.take_length]; exact hu x hx ho)
    rw [this] at hs
    exact nomatch hs)
  obtain ⟨h1, h2, _, _, _, h3, _⟩ := C24_attests _ _ _ hn
  refine ⟨n, hn, h1, by rw [h2, hg.snapHeight]; exact hup, fun j => ?_⟩
  rw [h3 j, hg.range]

/-- **C133.** A shard refuses a payment only because it has seen no block, or because of coins of its range that are spent or never existed
in the chain it has seen. -/
theorem C133_missing {P : Params} (hc : IdsCommit P) {w : World} (h : Reach P w) (i : Nat) (tx : CompactTx) (hne : tx.inputs ≠ []) (e : TxErr)
    (he : (w.shards i).digestTx tx = .inl e) :
    e.txId = tx.id ∧ ((e.info = .sync ∧ (w.shards i).best = 0) ∨
      ∃ l, e.info = .inputsDne l ∧ l ≠ [] ∧
        ∀ x ∈ l, x ∈ tx.inputs ∧ owns (P.range i) x = true ∧ ¬ P.start.after (txsOf (w.chain.take (w.shards i).best.toNat)) x) := by
  have hg := (reach_inv hc h).shards i
  by_cases hz : (w.shards i).snapHeight = 0
  · unfold Shard.digestTx at he
    rw [if_pos hz] at he
    cases he
    exact ⟨rfl, .inl ⟨rfl, by rw [← hg.snapHeight]; exact hz⟩⟩
  · obtain ⟨h1, h2⟩ := C24_reports (w.shards i) tx hz hne
    by_cases hex : ∃ x ∈ tx.inputs, owns (w.shards i).range x = true ∧ (w.shards i).snap x = false
    · rw [h1.mpr hex] at he
      cases he
      refine ⟨rfl, .inr ⟨_, rfl, ?_, ?_⟩⟩
      · obtain ⟨x, hx, ho, hs⟩ := hex
        exact List.ne_nil_of_mem (List.mem_filter.mpr ⟨hx, by rw [ho, hs]; rfl⟩)
      · intro x hx
        obtain ⟨hx, hb⟩ := List.mem_filter.mp hx
        simp only [Bool.and_eq_true, Bool.not_eq_true'] at hb
        have ho : owns (P.range i) x = true := hg.range ▸ hb.1
        refine ⟨hx, ho, fun hc' => ?_⟩
        have := (hg.coins x ho).mpr hc'
        rw [← hg.snap, hb.2] at this
        exact nomatch this
    · obtain ⟨n, hn⟩ := h2 hex
      rw [hn] at he
      exact nomatch he

/-! ### The replicated state machine -/

/-- What the first generations of the cache remember. -/
theorem cache_spent {P : Params} {w : World} (hi : Inv P w) {x : Hash} {h : Nat} (hl : h ≤ w.chain.length) :
    (∃ g ∈ w.sm.atm.spent.take (w.chain.length - h + 1), x ∈ g) → SpentSince w h [] x := by
  rintro ⟨g, hg, hx⟩
  obtain ⟨k, hk, hgk⟩ := List.mem_take_iff_getElem.mp hg
  obtain ⟨t, ht, hxt⟩ := (hi.spent k g (by rw [List.getElem?_eq_getElem (by omega), hgk]) x).mp hx
  refine ⟨t, ?_, hxt⟩
  simp only [List.map_nil, List.append_nil]
  unfold generation at ht
  cases k with
  | zero => exact List.mem_append_right _ (by simpa using ht)
  | succ k =>
    refine List.mem_append_left _ ?_
    rw [List.getElem?_cons_succ, List.getElem?_map] at ht
    by_cases hkl : k < w.chain.length
    · rw [List.getElem?_reverse hkl, List.getElem?_eq_getElem (by omega)] at ht
      have ht : t ∈ (w.chain[w.chain.length - 1 - k]).txs := by simpa using ht
      refine List.mem_flatMap.mpr ⟨_, ?_, ht⟩
      refine List.mem_iff_getElem.mpr ⟨w.chain.length - 1 - k - h, by simp; omega, ?_⟩
      rw [List.getElem_drop]
      congr 1
      omega
    · rw [List.getElem?_eq_none (by simp; omega)] at ht
      simp at ht

/-- One transaction is refused for a reason. -/
theorem insert_refused {P : Params} {w : World} (hi : Inv P w) {m : Agg} (hm : GoodAgg P w.chain m) {a : Atm} {e : TxErr}
    (h : w.sm.atm.insertComplete m.oldest m.tx = some (a, some e)) :
    e.txId = m.tx.id ∧ ((e.info = .stxoRange ∧ m.oldest.toNat + P.depth < w.chain.length) ∨
      ∃ l, e.info = .inputsSpent l ∧ l ≠ [] ∧ ∀ x ∈ l, x ∈ m.tx.inputs ∧ SpentSince w m.oldest.toNat [] x) := by
  unfold Atm.insertComplete at h
  split at h
  · next e' he =>
    unfold Atm.checkOffset at he
    split at he
    · next hc =>
      cases he; cases h
      rw [offset_eq hi (hm.2 hc.2).1, hi.depth] at hc
      exact ⟨rfl, .inl ⟨rfl, by omega⟩⟩
    · exact nomatch he
  · split at h
    · exact nomatch h
    · next e' he =>
      unfold Atm.checkStxo at he
      split at he
      · exact nomatch he
      split at he
      · exact nomatch he
      split at he
      · exact nomatch he
      · next hs =>
        cases he; cases h
        refine ⟨rfl, .inr ⟨_, rfl, hs, fun x hx => ?_⟩⟩
        obtain ⟨hx, hb⟩ := List.mem_filter.mp hx
        have hne : m.tx.inputs ≠ [] := List.ne_nil_of_mem hx
        refine ⟨hx, ?_⟩
        have hle := (hm.2 hne).1
        rw [offset_eq hi hle] at hb
        refine cache_spent hi hle ?_
        obtain ⟨g, hg, hd⟩ := List.any_eq_true.mp hb
        exact ⟨g, hg, of_decide_eq_true hd⟩
    · exact nomatch h

/-- Accepting a transaction adds it to what waits. -/
theorem spentSince_step {w : World} {m : Agg} {a : Atm} {e : Option TxErr} {n h : Nat} {before : List Agg} {x : Hash}
    (hr : w.sm.atm.insertComplete m.oldest m.tx = some (a, e))
    (hs : SpentSince { w with sm := { w.sm with atm := a, count := n } } h before x) : SpentSince w h (m :: before) x := by
  obtain ⟨t, ht, hx⟩ := hs
  refine ⟨t, ?_, hx⟩
  have hcomp : ∀ t ∈ a.complete, t ∈ w.sm.atm.complete ∨ t = m.tx := by
    intro t ht
    rcases C21_insert_complete hr with ⟨_, rfl⟩ | ⟨_, hc, _⟩
    · exact .inl ht
    · rw [hc] at ht
      exact (List.mem_append.mp ht).imp_right fun h => by simpa using h
  simp only [List.mem_append, List.map_cons, List.mem_cons] at ht ⊢
  rcases ht with (ht | ht) | ht
  · exact .inl (.inl ht)
  · exact (hcomp t ht).elim (fun h => .inl (.inr h)) fun h => .inr (.inl h)
  · exact .inr (.inr ht)

theorem notifyAll_refused {P : Params} (ms : List Agg) : ∀ {w : World}, Inv P w → (∀ m ∈ ms, GoodAgg P w.chain m) → ∀ {sm : SM} {es : List TxErr},
    w.sm.notifyAll ms = some (sm, es) → ∀ e ∈ es, ∃ pre m post, ms = pre ++ m :: post ∧ e.txId = m.tx.id ∧
      ((e.info = .stxoRange ∧ m.oldest.toNat + P.depth < w.chain.length) ∨
        ∃ l, e.info = .inputsSpent l ∧ l ≠ [] ∧ ∀ x ∈ l, x ∈ m.tx.inputs ∧ SpentSince w m.oldest.toNat pre x) := by
  induction ms with
  | nil => intro w _ _ sm es h e he; simp [SM.notifyAll] at h; rw [h.2] at he; exact nomatch he
  | cons m ms ih =>
    intro w hi hg sm es h e he
    unfold SM.notifyAll at h
    split at h
    · exact nomatch h
    · next a r hr =>
      split at h
      · exact nomatch h
      · next s' es' hs' =>
        simp only [Option.some.injEq, Prod.mk.injEq] at h
        obtain ⟨rfl, rfl⟩ := h
        rcases List.mem_append.mp he with he | he
        · cases r with
          | none => exact nomatch he
          | some r =>
            have he : e = r := by simpa using he
            subst he
            exact ⟨[], m, ms, rfl, insert_refused hi (hg m (by simp)) hr⟩
        · have hi' := inv_insertComplete hi (hg m (by simp)) hr (w.sm.count + 1)
          obtain ⟨pre, m', post, rfl, h1, h2⟩ := ih hi' (fun m' hm' => hg m' (by simp [hm'])) hs' e he
          refine ⟨m :: pre, m', post, rfl, h1, h2.imp_right ?_⟩
          rintro ⟨l, h3, h4, h5⟩
          exact ⟨l, h3, h4, fun x hx => ⟨(h5 x hx).1, spentSince_step hr (h5 x hx).2⟩⟩

/-- **C133.** Every error with which a batch is answered names a transaction of the batch and a reason that is true: its oldest attestation is
older than the cache is deep, or the listed coins, all inputs of it, were spent since that attestation, by a confirmed transaction or by
one before it in the batch. -/
theorem C133_refused {P : Params} (hc : IdsCommit P) {w : World} (h : Reach P w) (ms : List Agg) (hms : ∀ m ∈ ms, m ∈ w.aggs) (sm : SM)
    (es : List TxErr) (hr : w.sm.commit (.notify ms) = some (sm, some (.errors es))) (e : TxErr) (he : e ∈ es) :
    ∃ pre m post, ms = pre ++ m :: post ∧ e.txId = m.tx.id ∧
      ((e.info = .stxoRange ∧ m.oldest.toNat + P.depth < w.chain.length) ∨
        ∃ l, e.info = .inputsSpent l ∧ l ≠ [] ∧ ∀ x ∈ l, x ∈ m.tx.inputs ∧ SpentSince w m.oldest.toNat pre x) := by
  have hi := reach_inv hc h
  simp only [SM.commit] at hr
  split at hr
  · exact nomatch hr
  · next s' errs hs =>
    split at hr
    · simp at hr
    · simp only [Option.some.injEq, Prod.mk.injEq, Resp.errors.injEq] at hr
      obtain ⟨rfl, rfl⟩ := hr
      exact notifyAll_refused ms hi (fun m hm => hi.aggs m (hms m hm)) hs e he

/-- A transaction that nothing speaks against is accepted. -/
theorem insert_accepted {P : Params} {w : World} (hi : Inv P w) {m : Agg} (hm : GoodAgg P w.chain m) (hne : m.tx.inputs ≠ [])
    (hd : w.chain.length ≤ m.oldest.toNat + P.depth) (hs : ∀ x ∈ m.tx.inputs, ¬ SpentSince w m.oldest.toNat [] x) {a : Atm} {e : Option TxErr}
    (h : w.sm.atm.insertComplete m.oldest m.tx = some (a, e)) : a.complete = w.sm.atm.complete ++ [m.tx] ∧ e = none := by
  rcases C21_insert_complete h with ⟨hn, rfl⟩ | ⟨rfl, hcomp, _⟩
  · obtain ⟨e', rfl⟩ := Option.ne_none_iff_exists'.mp hn
    obtain ⟨_, ⟨_, h1⟩ | ⟨l, _, h2, h3⟩⟩ := insert_refused hi hm h
    · omega
    · obtain ⟨x, hx⟩ := List.exists_mem_of_ne_nil l h2
      exact absurd (h3 x hx).2 (hs x (h3 x hx).1)
  · exact ⟨hcomp, rfl⟩

/-- **C133.** A transaction of a batch whose oldest attestation the cache still covers, and none of whose inputs was spent since, is confirmed:
it waits for the next block. -/
theorem C133_confirmed {P : Params} (hc : IdsCommit P) {w : World} (h : Reach P w) (pre post : List Agg) (m : Agg)
    (hms : ∀ m' ∈ pre ++ m :: post, m' ∈ w.aggs) (hne : m.tx.inputs ≠ []) (hd : w.chain.length ≤ m.oldest.toNat + P.depth)
    (hs : ∀ x ∈ m.tx.inputs, ¬ SpentSince w m.oldest.toNat pre x) (sm : SM) (r : Option Resp)
    (hr : w.sm.commit (.notify (pre ++ m :: post)) = some (sm, r)) : m.tx ∈ sm.atm.complete := by
  have key : ∀ (pre : List Agg) {w : World}, Inv P w → (∀ m' ∈ pre ++ m :: post, GoodAgg P w.chain m') →
      w.chain.length ≤ m.oldest.toNat + P.depth → (∀ x ∈ m.tx.inputs, ¬ SpentSince w m.oldest.toNat pre x) → ∀ {sm : SM} {es : List TxErr},
      w.sm.notifyAll (pre ++ m :: post) = some (sm, es) → m.tx ∈ sm.atm.complete := by
    intro pre
    induction pre with
    | nil =>
      intro w hi hg hd hs sm es h
      rw [List.nil_append] at h hg
      unfold SM.notifyAll at h
      split at h
      · exact nomatch h
      · next a r hr =>
        split at h
        · exact nomatch h
        · next s' es' hs' =>
          simp only [Option.some.injEq, Prod.mk.injEq] at h
          obtain ⟨rfl, _⟩ := h
          refine (notifyAll_settled post _ _ _ hs').1 _ ?_
          show m.tx ∈ a.complete
          rw [(insert_accepted hi (hg m (by simp)) hne hd hs hr).1]
          simp
    | cons p pre ih =>
      intro w hi hg hd hs sm es h
      rw [List.cons_append] at h hg
      unfold SM.notifyAll at h
      split at h
      · exact nomatch h
      · next a r hr =>
        split at h
        · exact nomatch h
        · next s' es' hs' =>
          simp only [Option.some.injEq, Prod.mk.injEq] at h
          obtain ⟨rfl, _⟩ := h
          exact ih (inv_insertComplete hi (hg p (by simp)) hr (w.sm.count + 1)) (fun m' hm' => hg m' (by simp [hm'])) hd
            (fun x hx hsp => hs x hx (spentSince_step hr hsp)) hs'
  have hi := reach_inv hc h
  simp only [SM.commit] at hr
  split at hr
  · exact nomatch hr
  · next s' errs hs' =>
    cases hr
    exact key pre hi (fun m' hm' => hi.aggs m' (hms m' hm')) hd hs hs'

/-! ### From a payment to a block -/

/-- What shards that are up to date say about a payment: it, indexes of its inputs, and the current height. -/
def Says (tx : CompactTx) (h : UInt64) (n : Notif) : Prop := n.tx = tx ∧ n.height = h ∧ ∀ i ∈ n.atts, i < tx.inputs.length

theorem fold_height (atts : List Nat) (h : UInt64) : ∀ s : List (Nat × UInt64), (∀ q ∈ s, q.2 = h) →
    ∀ q ∈ atts.foldl (fun s i => addAtt s (i, h)) s, q.2 = h := by
  induction atts with
  | nil => exact fun s hs => hs
  | cons a atts ih =>
    intro s hs
    refine ih _ ?_
    intro q hq
    dsimp only at hq
    unfold addAtt at hq
    split at hq
    · exact hs q hq
    · rcases List.mem_append.mp hq with hq | hq
      · exact hs q hq
      · rw [List.mem_singleton.mp hq]

/-- A leader that collects what such shards say. -/
structure Collects (tx : CompactTx) (h : UInt64) (ns : List Notif) (p : Pool) : Prop where
  entry : ∀ e ∈ p.txs, e.1.id = tx.id → e.1 = tx
  nodup : ((cur tx p).map (·.1)).Nodup
  bound : ∀ i ∈ (cur tx p).map (·.1), i < tx.inputs.length
  height : ∀ q ∈ cur tx p, q.2 = h
  short : (cur tx p).length ≠ tx.inputs.length
  complete : ∀ a ∈ p.complete, a = ⟨tx, h⟩
  kept : p.complete ≠ [] ∨ ∀ n ∈ ns, ∀ i ∈ n.atts, i ∈ (cur tx p).map (·.1)

theorem collects_step {attested : CompactTx → Bool} {tx : CompactTx} (hatt : attested tx = true) (hne : tx.inputs ≠ []) {h : UInt64} (h0 : h ≠ 0)
    {ns : List Notif} {p : Pool} (hp : Collects tx h ns p) {n : Notif} (hn : Says tx h n) : Collects tx h (ns ++ [n]) (p.notify attested n) := by
  obtain ⟨rfl, rfl, hb⟩ := hn
  have hbound : ∀ i ∈ (n.atts.foldl (fun s i => addAtt s (i, n.height)) (cur n.tx p)).map (·.1), i < n.tx.inputs.length := by
    intro i hi
    rcases (fold_mem _ _ _ _).mp hi with hi | hi
    · exact hp.bound i hi
    · exact hb i hi
  have hh := fold_height n.atts n.height _ hp.height
  rcases notify_same attested p n hatt hp.entry with ⟨hl, hcur, hcomp, hent⟩ | ⟨hl, hcur, ⟨o, ho, hcomp⟩, hent⟩
  · refine ⟨hent, ?_, ?_, ?_, ?_, ?_, ?_⟩
    · rw [hcur]; exact fold_nodup _ _ _ hp.nodup
    · rw [hcur]; exact hbound
    · rw [hcur]; exact hh
    · rw [hcur]; exact hl
    · rw [hcomp]; exact hp.complete
    · rw [hcomp, hcur]
      refine hp.kept.imp_right fun hk n' hn' i hi => (fold_mem _ _ _ _).mpr ?_
      rcases List.mem_append.mp hn' with hn' | hn'
      · exact .inl (hk n' hn' i hi)
      · rw [List.mem_singleton.mp hn'] at hi; exact .inr hi
  · have ho' : o = n.height := by
      have hne' : n.atts.foldl (fun s i => addAtt s (i, n.height)) (cur n.tx p) ≠ [] := by
        intro hx
        rw [hx] at hl
        exact hne (List.length_eq_zero_iff.mp hl.symm)
      obtain ⟨_, q, hq, hq'⟩ := oldestOf_spec hne' fun q hq => by rw [hh q hq]; exact h0
      rw [ho, hq', hh q hq]
    refine ⟨hent, ?_, ?_, ?_, ?_, ?_, ?_⟩
    · rw [hcur]; exact List.nodup_nil
    · rw [hcur]; exact fun i hi => nomatch hi
    · rw [hcur]; exact fun q hq => nomatch hq
    · rw [hcur]; exact fun hx => hne (List.length_eq_zero_iff.mp hx.symm)
    · rw [hcomp]
      intro a ha
      rcases List.mem_append.mp ha with ha | ha
      · exact hp.complete a ha
      · rw [List.mem_singleton.mp ha, ho']
    · rw [hcomp]; exact .inl (by simp)

theorem collects_run {attested : CompactTx → Bool} {tx : CompactTx} (hatt : attested tx = true) (hne : tx.inputs ≠ []) {h : UInt64} (h0 : h ≠ 0)
    (ns : List Notif) (hs : ∀ n ∈ ns, Says tx h n) : ∀ (pre : List Notif) (p : Pool), Collects tx h pre p →
    Collects tx h (pre ++ ns) (ns.foldl (fun p n => p.notify attested n) p) := by
  induction ns with
  | nil => intro pre p hp; rw [List.append_nil]; exact hp
  | cons n ns ih =>
    intro pre p hp
    have := ih (fun n hn => hs n (by simp [hn])) (pre ++ [n]) _ (collects_step hatt hne h0 hp (hs n (by simp)))
    rwa [List.append_assoc, List.singleton_append] at this

/-- A leader without anything about the payment completes it when every input is attested. -/
theorem collects_complete {attested : CompactTx → Bool} {tx : CompactTx} (hatt : attested tx = true) (hne : tx.inputs ≠ []) {h : UInt64}
    (h0 : h ≠ 0) (ns : List Notif) (hs : ∀ n ∈ ns, Says tx h n) (hall : ∀ i < tx.inputs.length, ∃ n ∈ ns, i ∈ n.atts) (p : Pool)
    (hp : ∀ e ∈ p.txs, e.1.id ≠ tx.id) (hpc : p.complete = []) :
    (ns.foldl (fun p n => p.notify attested n) p).complete ≠ [] ∧
      ∀ a ∈ (ns.foldl (fun p n => p.notify attested n) p).complete, a = ⟨tx, h⟩ := by
  have hcur : cur tx p = [] := by
    unfold cur
    rw [List.find?_eq_none.mpr fun e he hx => hp e he (beq_iff_eq.mp hx)]
  have hc := collects_run hatt hne h0 ns hs [] p
    ⟨fun e he hid => absurd hid (hp e he), by rw [hcur]; exact List.nodup_nil, by rw [hcur]; exact fun i hi => (nomatch hi),
      by rw [hcur]; exact fun i hi => (nomatch hi), by rw [hcur]; exact fun hx => hne (List.length_eq_zero_iff.mp hx.symm),
      by rw [hpc]; exact fun a ha => (nomatch ha), .inr fun n hn => (nomatch hn)⟩
  rw [List.nil_append] at hc
  refine ⟨?_, hc.complete⟩
  rcases hc.kept with hk | hk
  · exact hk
  · exfalso
    have hle : (List.range tx.inputs.length).length ≤ ((cur tx (ns.foldl (fun p n => p.notify attested n) p)).map (·.1)).length := by
      refine Verif.Util.length_le_of_subset List.nodup_range ?_
      intro i hi
      obtain ⟨n, hn, hin⟩ := hall i (List.mem_range.mp hi)
      exact hk n hn i hin
    have hge := Verif.Util.length_le_of_subset hc.nodup (l := List.range tx.inputs.length)
      (fun i hx => List.mem_range.mpr (hc.bound i hx))
    simp only [List.length_range, List.length_map] at hle hge
    exact hc.short (by omega)

/-- The shards attest one after the other. -/
theorem attest_all {P : Params} (hc : IdsCommit P) (tx : CompactTx) (hsub : P.submitted tx) (hne : tx.inputs ≠ []) (is : List Nat) :
    ∀ {w : World}, Reach P w → w.chain ≠ [] → (∀ i ∈ is, CaughtUp w i) → (∀ x ∈ tx.inputs, P.start.after (txsOf w.chain) x) →
    ∃ ns, Steps P w { w with notifs := w.notifs ++ ns } ∧ (∀ n ∈ ns, Says tx w.sm.atm.best n) ∧
      ∀ i ∈ is, ∀ j x, tx.inputs[j]? = some x → owns (P.range i) x = true → ∃ n ∈ ns, j ∈ n.atts := by
  induction is with
  | nil => intro w _ _ _ _; exact ⟨[], by rw [List.append_nil]; exact .refl w, fun n hn => (nomatch hn), fun i hi => (nomatch hi)⟩
  | cons i is ih =>
    intro w hw hpos hup hu
    obtain ⟨n, h1, h2, h3, h4⟩ := C133_attested hc hw i tx (hup i (by simp)) hpos hne fun x hx _ => hu x hx
    have hst : Step P w { w with notifs := w.notifs ++ [n] } := .attest w i tx n hsub h1
    obtain ⟨ns, h5, h6, h7⟩ := ih (w := { w with notifs := w.notifs ++ [n] }) (.step _ _ hw hst) hpos
      (fun k hk => hup k (by simp [hk])) hu
    refine ⟨n :: ns, ?_, ?_, ?_⟩
    · have := (Steps.tail _ _ _ (.refl w) hst).trans h5
      simpa only [List.append_assoc, List.singleton_append] using this
    · intro n' hn'
      rcases List.mem_cons.mp hn' with rfl | hn'
      · refine ⟨h2, UInt64.toNat_inj.mp (h3.trans (reach_inv hc hw).best.symm), fun k hk => ?_⟩
        obtain ⟨x, hx, _⟩ := (h4 k).mp hk
        exact (List.getElem?_eq_some_iff.mp hx).1
      · exact h6 n' hn'
    · intro k hk j x hx ho
      rcases List.mem_cons.mp hk with rfl | hk
      · exact ⟨n, by simp, (h4 j).mpr ⟨x, hx, ho⟩⟩
      · obtain ⟨n', hn', hj⟩ := h7 k hk j x hx ho
        exact ⟨n', by simp [hn'], hj⟩

theorem upd_upd {α : Type} (f : Nat → α) (j : Nat) (a b : α) : upd (upd f j a) j b = upd f j b := by
  funext k
  unfold upd
  split <;> rfl

theorem upd_same {α : Type} (f : Nat → α) (j : Nat) (a : α) : upd f j a j = a := by simp [upd]

/-- The leader handles the notifications one after the other. -/
theorem notify_all {P : Params} (j : Nat) (ns : List Notif) : ∀ {w : World}, (∀ n ∈ ns, n ∈ w.notifs) →
    Steps P w { w with pools := upd w.pools j (ns.foldl (fun p n => p.notify P.attested n) (w.pools j)) } := by
  induction ns with
  | nil =>
    intro w _
    have : upd w.pools j (w.pools j) = w.pools := by
      funext k; unfold upd; split
      · next hk => rw [hk]
      · rfl
    rw [List.foldl_nil, this]
    exact .refl w
  | cons n ns ih =>
    intro w hn
    have hst : Step P w { w with pools := upd w.pools j ((w.pools j).notify P.attested n) } := .notify w j n (hn n (by simp))
    have := (Steps.tail _ _ _ (.refl w) hst).trans (ih (w := { w with pools := upd w.pools j ((w.pools j).notify P.attested n) })
      fun n' hn' => hn n' (by simp [hn']))
    simpa only [upd_upd, upd_same, List.foldl_cons] using this

/-- A transaction whose inputs wait to be spent is refused at the current height, without further effect. -/
theorem insert_again {P : Params} {w : World} (hi : Inv P w) {tx : CompactTx} (hne : tx.inputs ≠ []) :
    ∃ a e, w.sm.atm.insertComplete w.sm.atm.best tx = some (a, e) ∧ (tx ∈ w.sm.atm.complete → a = w.sm.atm) := by
  have hoff : w.sm.atm.offset w.sm.atm.best = 0 := by unfold Atm.offset; simp
  have hlen := hi.spentLen
  unfold Atm.insertComplete
  rw [hoff]
  have hz : w.sm.atm.checkOffset 0 tx = none := by unfold Atm.checkOffset; rw [if_neg (fun hx => by omega)]
  rw [hz]
  unfold Atm.checkStxo
  rw [if_neg (by decide), if_neg (fun hx => by omega)]
  by_cases hs : w.sm.atm.spentInputs tx 0 = []
  · refine ⟨_, _, by rw [if_pos hs], fun hin => ?_⟩
    obtain ⟨x, hx⟩ := List.exists_mem_of_ne_nil _ hne
    have hk : 0 < w.sm.atm.spent.length := by omega
    have hg := (hi.spent 0 _ (List.getElem?_eq_getElem hk) x).mpr ⟨tx, by simpa [generation] using hin, hx⟩
    exfalso
    refine List.filter_eq_nil_iff.mp hs x hx ?_
    rw [List.any_eq_true]
    exact ⟨w.sm.atm.spent[0], List.mem_take_iff_getElem.mpr ⟨0, by omega, rfl⟩, by simpa using hg⟩
  · exact ⟨_, _, by rw [if_neg hs], fun _ => rfl⟩

theorem insert_best {a a' : Atm} {o : UInt64} {tx : CompactTx} {e : Option TxErr} (h : a.insertComplete o tx = some (a', e)) :
    a'.best = a.best := by
  unfold Atm.insertComplete at h
  split at h
  · cases h; rfl
  · split at h
    · exact nomatch h
    · cases h; rfl
    · cases h; rfl

/-- A batch with nothing but the payment confirms it once. -/
theorem batch_once {P : Params} {tx : CompactTx} (hne : tx.inputs ≠ []) (ms : List Agg) : ∀ {w : World}, Inv P w → (∀ m ∈ ms, GoodAgg P w.chain m) →
    (∀ m ∈ ms, m = ⟨tx, w.sm.atm.best⟩) → tx ∈ w.sm.atm.complete →
    ∃ sm es, w.sm.notifyAll ms = some (sm, es) ∧ sm.atm = w.sm.atm := by
  induction ms with
  | nil => intro w _ _ _ _; exact ⟨w.sm, [], rfl, rfl⟩
  | cons m ms ih =>
    intro w hi hg hm hin
    obtain ⟨a, e, h1, h2⟩ := insert_again hi hne
    have h2 := h2 hin
    have hm0 := hm m (by simp)
    have hr : w.sm.atm.insertComplete m.oldest m.tx = some (a, e) := by rw [hm0]; exact h1
    have hi' := inv_insertComplete hi (hg m (by simp)) hr (w.sm.count + 1)
    obtain ⟨sm, es, h3, h4⟩ := ih hi' (fun m' hm' => hg m' (by simp [hm'])) (fun m' hm' => by
      rw [hm m' (by simp [hm'])]; show _ = Agg.mk tx a.best; rw [h2]) (by show tx ∈ a.complete; rw [h2]; exact hin)
    refine ⟨sm, e.toList ++ es, ?_, by rw [h4]; exact h2⟩
    unfold SM.notifyAll
    rw [hr]
    dsimp only
    rw [h3]

/-- **C133.** A payment of coins that can be spent goes through. In every state that the system can reach, when the shards `is` have applied
every block and cover the inputs, and leader `j` holds nothing about the payment and has just sent what was complete, there is a run in which
these shards attest the payment, this leader collects the notifications and proposes it, and the next block has it behind what was waiting. -/
theorem C133_through {P : Params} (hc : IdsCommit P) {w : World} (h : Reach P w) (tx : CompactTx) (is : List Nat) (j : Nat)
    (hsub : P.submitted tx) (hatt : P.attested tx = true) (hne : tx.inputs ≠ []) (hpos : w.chain ≠ []) (hlen : w.chain.length + 1 < 2 ^ 64)
    (hup : ∀ i ∈ is, CaughtUp w i) (hcov : ∀ x ∈ tx.inputs, ∃ i ∈ is, owns (P.range i) x = true) (hu : ∀ x ∈ tx.inputs, Spendable P w x)
    (hp : ∀ e ∈ (w.pools j).txs, e.1.id ≠ tx.id) (hpc : (w.pools j).complete = []) :
    ∃ w' b, Steps P w w' ∧ w'.chain = w.chain ++ [b] ∧ b.txs = w.sm.atm.complete ++ [tx] := by
  have hi := reach_inv hc h
  obtain ⟨ns, s1, hsays, hatts⟩ := attest_all hc tx hsub hne is h hpos hup fun x hx => (hu x hx).1
  have h0 : w.sm.atm.best ≠ 0 := by
    intro hz
    have := hi.best
    rw [hz] at this
    exact hpos (List.length_eq_zero_iff.mp this.symm)
  obtain ⟨hcne, hcall⟩ := collects_complete hatt hne h0 ns hsays (fun i hlt => by
    obtain ⟨k, hk, ho⟩ := hcov tx.inputs[i] (List.getElem_mem hlt)
    exact hatts k hk i tx.inputs[i] (List.getElem?_eq_getElem hlt) ho) (w.pools j) hp hpc
  generalize hpool : ns.foldl (fun p n => p.notify P.attested n) (w.pools j) = p at hcne hcall
  have s2 := notify_all (P := P) j ns (w := { w with notifs := w.notifs ++ ns }) (fun n hn => List.mem_append_right _ hn)
  dsimp only at s2
  rw [hpool] at s2
  have s3 := Step.propose (P := P) { w with notifs := w.notifs ++ ns, pools := upd w.pools j p } j
  dsimp only at s3
  rw [upd_same, upd_upd] at s3
  have s123 := (s1.trans s2).tail _ _ _ s3
  generalize hw3 : ({ w with notifs := w.notifs ++ ns, pools := upd w.pools j { p with complete := [] }, aggs := w.aggs ++ p.complete } : World) = w3
  have s123 : Steps P w w3 := hw3 ▸ s123
  have hsm : w3.sm = w.sm := by rw [← hw3]
  have hch : w3.chain = w.chain := by rw [← hw3]
  have hin : ∀ m ∈ p.complete, m ∈ w3.aggs := by rw [← hw3]; exact fun m hm => List.mem_append_right _ hm
  have hi3 := reach_inv hc (s123.reach h)
  -- the batch
  obtain ⟨m, ms, hms⟩ := List.exists_cons_of_ne_nil hcne
  have hm : m = ⟨tx, w.sm.atm.best⟩ := hcall m (by simp [hms])
  have hg := hi3.aggs m (hin m (by simp [hms]))
  obtain ⟨a, e, ha, _⟩ := insert_again hi3 hne
  have hr : w3.sm.atm.insertComplete m.oldest m.tx = some (a, e) := by rw [hm]; rw [hsm] at ha ⊢; exact ha
  obtain ⟨hcomp, he⟩ := insert_accepted hi3 hg (by rw [hm]; exact hne) (by rw [hm, hch, ← hi.best]; dsimp only; omega) (by
    rw [hm]
    rintro x hx ⟨t, ht, hxt⟩
    rw [hch, hsm] at ht
    simp only [hi.best, List.drop_length, List.map_nil, List.append_nil] at ht
    rcases List.mem_append.mp ht with ht | ht
    · exact nomatch ht
    · exact (hu x hx).2 t ht hxt) hr
  have hcomp : a.complete = w.sm.atm.complete ++ [tx] := by rw [hcomp, hsm, hm]
  have hi4 := inv_insertComplete hi3 hg hr (w3.sm.count + 1)
  obtain ⟨sm, es, hall, hatm⟩ := batch_once hne ms hi4 (fun m' hm' => hi3.aggs m' (hin m' (by simp [hms, hm'])))
    (fun m' hm' => by rw [hcall m' (by simp [hms, hm'])]; show _ = Agg.mk tx a.best; rw [insert_best hr, hsm])
    (by show tx ∈ a.complete; rw [hcomp]; simp)
  have hcommit : w3.sm.commit (.notify p.complete) = some (sm, if e.toList ++ es = [] then none else some (.errors (e.toList ++ es))) := by
    simp only [SM.commit, hms, SM.notifyAll, hr]
    dsimp only at hall
    rw [hall]
  have s4 := s123.tail _ _ _ (Step.commit w3 p.complete sm _ hin hcommit)
  refine ⟨_, _, s4.tail _ _ _ (Step.block _ _ ⟨sm.atm.best + 1, sm.atm.complete⟩ _ (by dsimp only; rw [hch]; exact hlen) rfl), by dsimp only; rw [hch], ?_⟩
  dsimp only
  rw [hatm]
  exact hcomp

/-! ### What goes wrong -/

/-- Two shards, cache depth 1, and two coins, one for each shard. -/
def P2 : Params where
  depth := 1
  range := fun i => if i = 0 then (0, 1) else (2, 255)
  attested := fun _ => true
  genesis := fun x => decide (x = coinA ∨ x = coinB)
  submitted := fun t => t = two
  direct := fun _ => False

theorem ids2 : IdsCommit P2 := by rintro a b rfl rfl _; rfl

/-- **C133 is violated** for a payment that was attested in part before: the leader keeps the first attestation of an input
(`src/uhs/atomizer/atomizer/atomizer_raft.cpp:67-77`, where the one with the higher height is inserted into a set that has the index and so
changes nothing). In this run shard 1 comes up late. Both shards are up to date then, attest both coins anew at height 3, both coins can be
spent, and yet the payment is refused because of the attestation of height 1. -/
theorem C133_stale_violated : ∃ w sm, Reach P2 w ∧ CaughtUp w 0 ∧ CaughtUp w 1 ∧ w.chain.length = 3 ∧
    (∀ x ∈ two.inputs, Spendable P2 w x) ∧ (∀ i < two.inputs.length, Notified w.notifs two.id i 3) ∧ w.aggs = [⟨two, 1⟩] ∧
    w.sm.commit (.notify w.aggs) = some (sm, some (.errors [⟨two.id, .stxoRange⟩])) := by
  have r := Reach.init (P := P2)
  have r := r.step _ _ (Step.block _ _ _ _ (by decide) rfl)
  have r := r.step _ _ (Step.digest _ 0 ⟨1, []⟩ (by decide))
  have r := r.step _ _ (Step.attest _ 0 two ⟨two, [0], 1⟩ rfl rfl)
  have r := r.step _ _ (Step.notify _ 0 ⟨two, [0], 1⟩ (by decide))
  have r := r.step _ _ (Step.block _ _ _ _ (by decide) rfl)
  have r := r.step _ _ (Step.block _ _ _ _ (by decide) rfl)
  have r := r.step _ _ (Step.digest _ 0 ⟨2, []⟩ (by decide))
  have r := r.step _ _ (Step.digest _ 0 ⟨3, []⟩ (by decide))
  have r := r.step _ _ (Step.digest _ 1 ⟨1, []⟩ (by decide))
  have r := r.step _ _ (Step.digest _ 1 ⟨2, []⟩ (by decide))
  have r := r.step _ _ (Step.digest _ 1 ⟨3, []⟩ (by decide))
  have r := r.step _ _ (Step.attest _ 0 two ⟨two, [0], 3⟩ rfl rfl)
  have r := r.step _ _ (Step.attest _ 1 two ⟨two, [1], 3⟩ rfl rfl)
  have r := r.step _ _ (Step.notify _ 0 ⟨two, [0], 3⟩ (by decide))
  have r := r.step _ _ (Step.notify _ 0 ⟨two, [1], 3⟩ (by decide))
  have r := r.step _ _ (Step.propose _ 0)
  refine ⟨_, _, r, rfl, rfl, rfl, ?_, ?_, by decide, rfl⟩
  · intro x hx
    refine ⟨?_, fun t ht => nomatch ht⟩
    show P2.start x
    exact decide_eq_true (by simpa [two] using hx)
  · intro i hi
    match i, hi with
    | 0, _ => exact ⟨⟨two, [0], 3⟩, by decide, rfl, by decide, rfl⟩
    | 1, _ => exact ⟨⟨two, [1], 3⟩, by decide, rfl, by decide, rfl⟩

/-- The hypotheses of `C133_through` are met by two shards that have applied the first block. -/
example : ∃ w, Reach P2 w ∧ w.chain ≠ [] ∧ (∀ i ∈ [0, 1], CaughtUp w i) ∧ (∀ x ∈ two.inputs, ∃ i ∈ [0, 1], owns (P2.range i) x = true) ∧
    (∀ x ∈ two.inputs, Spendable P2 w x) ∧ (w.pools 0) = Pool.new := by
  have r := Reach.init (P := P2)
  have r := r.step _ _ (Step.block _ _ _ _ (by decide) rfl)
  have r := r.step _ _ (Step.digest _ 0 ⟨1, []⟩ (by decide))
  have r := r.step _ _ (Step.digest _ 1 ⟨1, []⟩ (by decide))
  refine ⟨_, r, by decide, by simp only [List.mem_cons, List.not_mem_nil, or_false]; rintro i (rfl | rfl) <;> rfl, by decide, ?_, rfl⟩
  intro x hx
  refine ⟨?_, fun t ht => nomatch ht⟩
  show P2.start x
  exact decide_eq_true (by simpa [two] using hx)

/-- The hypotheses of `C133_refused` and `C133_confirmed` are met by two transactions that spend one coin: the first is confirmed and the second
refused for it. -/
example : ∃ w sm, Reach exP w ∧ w.aggs = [⟨pay, 1⟩] ++ ⟨pay', 1⟩ :: [] ∧
    w.sm.commit (.notify w.aggs) = some (sm, some (.errors [⟨pay'.id, .inputsSpent [coinA]⟩])) ∧ sm.atm.complete = [pay] := by
  have r := Reach.init (P := exP)
  have r := r.step _ _ (Step.block _ _ _ _ (by decide) rfl)
  have r := r.step _ _ (Step.digest _ 0 ⟨1, []⟩ (by decide))
  have r := r.step _ _ (Step.attest _ 0 pay ⟨pay, [0], 1⟩ (.inl rfl) rfl)
  have r := r.step _ _ (Step.attest _ 0 pay' ⟨pay', [0], 1⟩ (.inr (.inl rfl)) rfl)
  have r := r.step _ _ (Step.notify _ 0 ⟨pay, [0], 1⟩ (by decide))
  have r := r.step _ _ (Step.notify _ 0 ⟨pay', [0], 1⟩ (by decide))
  have r := r.step _ _ (Step.propose _ 0)
  exact ⟨_, _, r, by decide, rfl, by decide⟩

/-- The hypotheses of `C133_missing` are met: a coin that does not exist. -/
example : (World.init exP |>.shards 0).digestTx pay = .inl ⟨pay.id, .sync⟩ ∧
    (((World.init exP).shards 0).digestBlock ⟨1, []⟩).1.digestTx payOn = .inl ⟨payOn.id, .inputsDne [coinB]⟩ := by
  constructor <;> decide

end Verif.Atomizer.Payment
