import Verif.Atomizer.Lemmas

/-! The invariant of the atomizer system. -/
namespace Verif.Atomizer

open Verif.Tx Verif.Util

/-- The transactions whose inputs generation `k` of the cache remembers: `0` those waiting for the
next block, `k` those of the `k`-th block from the end. -/
def generation (w : World) (k : Nat) : List CompactTx :=
  (w.sm.atm.complete :: w.chain.reverse.map Block.txs)[k]?.getD []

/-- Every transaction that has been confirmed, including those waiting for the next block. -/
def confirmed (w : World) : List CompactTx := txsOf w.chain ++ w.sm.atm.complete

/-- `x` was unspent after block `h`. -/
def UnspentAt (P : Params) (chain : List Block) (h : Nat) (x : Hash) : Prop :=
  P.start.after (txsOf (chain.take h)) x

/-- The attestations `atts` of inputs of `tx` were true after block `h`. -/
def Attested (P : Params) (chain : List Block) (tx : CompactTx) (atts : List Nat) (h : Nat) : Prop :=
  ∀ n ∈ atts, ∃ x, tx.inputs[n]? = some x ∧ UnspentAt P chain h x

/-- A notification is true. -/
def GoodNotif (P : Params) (chain : List Block) (n : Notif) : Prop :=
  P.submitted n.tx ∧ (n.tx.inputs ≠ [] →
    0 < n.height.toNat ∧ n.height.toNat ≤ chain.length ∧
    Attested P chain n.tx n.atts n.height.toNat)

/-- An entry of a leader's pool is true. -/
def GoodEntry (P : Params) (chain : List Block) (e : CompactTx × List (Nat × UInt64)) : Prop :=
  P.submitted e.1 ∧ (e.1.inputs ≠ [] → (e.2.map Prod.fst).Nodup ∧ ∀ q ∈ e.2,
    0 < q.2.toNat ∧ q.2.toNat ≤ chain.length ∧
    ∃ x, e.1.inputs[q.1]? = some x ∧ UnspentAt P chain q.2.toNat x)

/-- An aggregate notification is true. -/
def GoodAgg (P : Params) (chain : List Block) (m : Agg) : Prop :=
  P.submitted m.tx ∧ (m.tx.inputs ≠ [] → m.oldest.toNat ≤ chain.length ∧
    ∀ x ∈ m.tx.inputs, ∃ h, m.oldest.toNat ≤ h ∧ h ≤ chain.length ∧ UnspentAt P chain h x)

/-- A shard has applied a prefix of the chain. -/
structure GoodShard (P : Params) (chain : List Block) (r : UInt8 × UInt8) (s : Shard) : Prop where
  range : s.range = r
  height : s.disk.height = some s.best
  le : s.best.toNat ≤ chain.length
  coins : ∀ y, owns r y = true → (s.disk.coins y = true ↔ UnspentAt P chain s.best.toNat y)
  snap : s.snap = s.disk.coins
  snapHeight : s.snapHeight = s.best

/-- The blocks carry their position as height. -/
def Numbered (chain : List Block) : Prop :=
  ∀ (i : Nat) (b : Block), chain[i]? = some b → b.height.toNat = i + 1

structure Inv (P : Params) (w : World) : Prop where
  small : w.chain.length < 2 ^ 64
  numbered : Numbered w.chain
  best : w.sm.atm.best.toNat = w.chain.length
  depth : w.sm.atm.depth = P.depth
  spentLen : w.sm.atm.spent.length = P.depth + 1
  txsLen : w.sm.atm.txs.length = P.depth + 1
  spent : ∀ (k : Nat) (g : List Hash), w.sm.atm.spent[k]? = some g →
    ∀ x, x ∈ g ↔ ∃ t ∈ generation w k, x ∈ t.inputs
  pending : ∀ (k : Nat) (m : TxMap), w.sm.atm.txs[k]? = some m → ∀ e ∈ m,
    P.submitted e.1 ∧ (e.1.inputs ≠ [] → k ≤ w.chain.length ∧
      Attested P w.chain e.1 e.2 (w.chain.length - k))
  legal : Legal P.start (confirmed w)
  notifs : ∀ n ∈ w.notifs, GoodNotif P w.chain n
  pools : ∀ (j : Nat), (∀ e ∈ (w.pools j).txs, GoodEntry P w.chain e) ∧
    ∀ m ∈ (w.pools j).complete, GoodAgg P w.chain m
  aggs : ∀ m ∈ w.aggs, GoodAgg P w.chain m
  shards : ∀ (i : Nat), GoodShard P w.chain (P.range i) (w.shards i)

/-! ### A longer chain -/

theorem unspentAt_mono {P : Params} {chain : List Block} {b : List Block} {h : Nat} {x : Hash}
    (hl : h ≤ chain.length) : UnspentAt P (chain ++ b) h x ↔ UnspentAt P chain h x := by
  unfold UnspentAt
  rw [List.take_append_of_le_length hl]

theorem Attested.mono {P : Params} {chain b : List Block} {tx : CompactTx} {atts : List Nat} {h : Nat}
    (hl : h ≤ chain.length) (ha : Attested P chain tx atts h) : Attested P (chain ++ b) tx atts h := by
  intro n hn
  obtain ⟨x, hx, hu⟩ := ha n hn
  exact ⟨x, hx, (unspentAt_mono hl).mpr hu⟩

theorem GoodNotif.mono {P : Params} {chain b : List Block} {n : Notif} (h : GoodNotif P chain n) :
    GoodNotif P (chain ++ b) n := by
  refine ⟨h.1, fun hne => ?_⟩
  obtain ⟨h1, h2, h3⟩ := h.2 hne
  exact ⟨h1, by simp; omega, h3.mono h2⟩

theorem GoodEntry.mono {P : Params} {chain b : List Block} {e : CompactTx × List (Nat × UInt64)}
    (h : GoodEntry P chain e) : GoodEntry P (chain ++ b) e := by
  refine ⟨h.1, fun hne => ?_⟩
  obtain ⟨h1, h2⟩ := h.2 hne
  refine ⟨h1, fun q hq => ?_⟩
  obtain ⟨h3, h4, x, hx, hu⟩ := h2 q hq
  exact ⟨h3, by simp; omega, x, hx, (unspentAt_mono h4).mpr hu⟩

theorem GoodAgg.mono {P : Params} {chain b : List Block} {m : Agg} (h : GoodAgg P chain m) :
    GoodAgg P (chain ++ b) m := by
  refine ⟨h.1, fun hne => ?_⟩
  obtain ⟨h1, h2⟩ := h.2 hne
  refine ⟨by simp; omega, fun x hx => ?_⟩
  obtain ⟨k, hk1, hk2, hu⟩ := h2 x hx
  exact ⟨k, hk1, by simp; omega, (unspentAt_mono hk2).mpr hu⟩

theorem GoodShard.mono {P : Params} {chain b : List Block} {r : UInt8 × UInt8} {s : Shard}
    (h : GoodShard P chain r s) : GoodShard P (chain ++ b) r s where
  range := h.range
  height := h.height
  le := by have := h.le; simp; omega
  coins := fun y hy => by rw [unspentAt_mono h.le]; exact h.coins y hy
  snap := h.snap
  snapHeight := h.snapHeight

/-! ### Confirming a transaction -/

/-- `x` is in none of the first generations, so the last blocks do not spend it. -/
theorem unspent_now {P : Params} {w : World} (hi : Inv P w) {x : Hash} {h range : Nat}
    (hl : h ≤ w.chain.length) (hr : w.chain.length - h ≤ range) (hd : range ≤ P.depth)
    (hu : UnspentAt P w.chain h x)
    (hn : ∀ g ∈ w.sm.atm.spent.take (range + 1), x ∉ g) :
    P.start.after (confirmed w) x := by
  have e1 : confirmed w = txsOf (w.chain.take h) ++ (txsOf (w.chain.drop h) ++ w.sm.atm.complete) := by
    unfold confirmed
    conv => lhs; rw [← List.take_append_drop h w.chain]
    rw [txsOf_append, List.append_assoc]
  rw [e1, after_append]
  have gen : ∀ k, k ≤ range → ∀ t ∈ generation w k, x ∉ t.inputs := by
    intro k hk t ht hx
    have hk' : k < w.sm.atm.spent.length := by rw [hi.spentLen]; omega
    have hg := List.getElem?_eq_getElem hk'
    refine hn w.sm.atm.spent[k] ?_ ((hi.spent k _ hg x).mpr ⟨t, ht, hx⟩)
    exact List.mem_take_iff_getElem.mpr ⟨k, by omega, rfl⟩
  apply after_keeps _ _ _ hu
  intro t ht
  rcases List.mem_append.mp ht with ht | ht
  · obtain ⟨b, hb, htb⟩ := List.mem_flatMap.mp ht
    obtain ⟨k, hk, rfl⟩ := List.getElem_of_mem hb
    simp at hk
    have hkl : h + k < w.chain.length := by omega
    apply gen (w.chain.length - (h + k)) (by omega)
    unfold generation
    rw [show w.chain.length - (h + k) = (w.chain.length - (h + k) - 1) + 1 by omega,
      List.getElem?_cons_succ, List.getElem?_map, List.getElem?_reverse (by omega)]
    rw [show w.chain.length - 1 - (w.chain.length - (h + k) - 1) = h + k by omega,
      List.getElem?_eq_getElem hkl]
    simpa using htb
  · exact gen 0 (by omega) t (by simpa [generation] using ht)

theorem not_spent_of_check {a : Atm} {tx : CompactTx} {range : Nat}
    (h : a.checkStxo tx range = some none) : ∀ x ∈ tx.inputs, ∀ g ∈ a.spent.take (range + 1), x ∉ g := by
  unfold Atm.checkStxo at h
  split at h
  · simp at h
  · split at h
    · simp at h
    · split at h
      · rename_i hf
        intro x hx g hg hxg
        have := (List.filter_eq_nil_iff.mp hf) x hx
        apply this
        rw [List.any_eq_true]
        exact ⟨g, hg, by simpa using hxg⟩
      · simp at h

/-- The invariant survives when `it` is confirmed after its inputs passed the check. -/
theorem inv_confirm {P : Params} {w : World} (hi : Inv P w) {it done : CompactTx}
    (hsame : done.inputs = it.inputs) (hleg : ∀ x ∈ it.inputs, P.start.after (confirmed w) x)
    (txs : List TxMap) (n : Nat)
    (htl : txs.length = P.depth + 1)
    (hp : ∀ (k : Nat) (m : TxMap), txs[k]? = some m → ∀ e ∈ m,
      P.submitted e.1 ∧ (e.1.inputs ≠ [] → k ≤ w.chain.length ∧
        Attested P w.chain e.1 e.2 (w.chain.length - k))) :
    Inv P { w with sm := { w.sm with
      atm := { w.sm.atm.addSpent it with txs := txs, complete := w.sm.atm.complete ++ [done] }
      count := n } } where
  small := hi.small
  numbered := hi.numbered
  best := hi.best
  depth := hi.depth
  spentLen := by
    have := hi.spentLen
    simp only [Atm.addSpent]
    cases h : w.sm.atm.spent <;> simp_all
  txsLen := htl
  spent := by
    intro k g hg x
    simp only [Atm.addSpent] at hg
    cases h : w.sm.atm.spent with
    | nil => simp [h] at hg
    | cons g0 gs =>
      rw [h] at hg
      cases k with
      | zero =>
        simp at hg
        subst hg
        have h0 := hi.spent 0 g0 (by simp [h]) x
        simp only [generation, List.getElem?_cons_zero, Option.getD_some] at h0 ⊢
        simp only [mem_unite, List.mem_append, h0, List.mem_singleton]
        constructor
        · rintro (⟨t, ht, hx⟩ | hx)
          · exact ⟨t, .inl ht, hx⟩
          · exact ⟨done, .inr rfl, hsame ▸ hx⟩
        · rintro ⟨t, ht | rfl, hx⟩
          · exact .inl ⟨t, ht, hx⟩
          · exact .inr (hsame ▸ hx)
      | succ k =>
        have hk := hi.spent (k + 1) g (by simpa [h] using hg) x
        simpa [generation] using hk
  pending := hp
  legal := by
    show Legal P.start (txsOf w.chain ++ (w.sm.atm.complete ++ [done]))
    rw [← List.append_assoc]
    exact legal_snoc hi.legal fun x hx => hleg x (hsame ▸ hx)
  notifs := hi.notifs
  pools := hi.pools
  aggs := hi.aggs
  shards := hi.shards

/-- The invariant does not depend on the counters and stored blocks. -/
theorem Inv.reblock {P : Params} {w : World} (hi : Inv P w) (bs : List (UInt64 × Block)) (n : Nat) :
    Inv P { w with sm := { w.sm with blocks := bs, count := n } } where
  small := hi.small
  numbered := hi.numbered
  best := hi.best
  depth := hi.depth
  spentLen := hi.spentLen
  txsLen := hi.txsLen
  spent := hi.spent
  pending := hi.pending
  legal := hi.legal
  notifs := hi.notifs
  pools := hi.pools
  aggs := hi.aggs
  shards := hi.shards

/-- The offset of a height in the past. -/
theorem offset_eq {P : Params} {w : World} (hi : Inv P w) {h : UInt64}
    (hl : h.toNat ≤ w.chain.length) : w.sm.atm.offset h = w.chain.length - h.toNat := by
  unfold Atm.offset
  rw [UInt64.toNat_sub_of_le]
  · rw [hi.best]
  · rw [UInt64.le_iff_toNat_le, hi.best]; exact hl

theorem inv_insertComplete {P : Params} {w : World} (hi : Inv P w) {m : Agg} (hm : GoodAgg P w.chain m)
    {a : Atm} {e : Option TxErr} (h : w.sm.atm.insertComplete m.oldest m.tx = some (a, e)) (n : Nat) :
    Inv P { w with sm := { w.sm with atm := a, count := n } } := by
  unfold Atm.insertComplete at h
  split at h
  · simp at h
    obtain ⟨rfl, _⟩ := h
    exact hi.reblock w.sm.blocks n
  · rename_i hoff
    split at h
    · simp at h
    · simp at h
      obtain ⟨rfl, _⟩ := h
      exact hi.reblock w.sm.blocks n
    · rename_i hck
      simp at h
      obtain ⟨rfl, _⟩ := h
      have hns := not_spent_of_check hck
      have := inv_confirm hi (it := m.tx) (done := m.tx) rfl (fun x hx => by
        have hne : m.tx.inputs ≠ [] := fun hc => by simp [hc] at hx
        obtain ⟨hle, hall⟩ := hm.2 hne
        obtain ⟨k, hk1, hk2, hu⟩ := hall x hx
        have hoe := offset_eq hi hle
        rw [hoe] at hns hoff
        refine unspent_now hi hk2 (range := w.chain.length - m.oldest.toNat) (by omega) ?_ hu
          (hns x hx)
        unfold Atm.checkOffset at hoff
        rw [hi.depth] at hoff
        split at hoff
        · simp at hoff
        · rename_i hc
          apply Classical.byContradiction
          intro hgt
          exact hc ⟨by omega, hne⟩)
        w.sm.atm.txs n hi.txsLen hi.pending
      exact this

theorem inv_notifyAll {P : Params} (ms : List Agg) : ∀ {w : World}, Inv P w →
    (∀ m ∈ ms, GoodAgg P w.chain m) → ∀ {sm : SM} {es : List TxErr},
    w.sm.notifyAll ms = some (sm, es) → Inv P { w with sm := sm } := by
  induction ms with
  | nil =>
    intro w hi _ sm es h
    simp [SM.notifyAll] at h
    obtain ⟨rfl, _⟩ := h
    exact hi
  | cons m ms ih =>
    intro w hi hg sm es h
    unfold SM.notifyAll at h
    split at h
    · simp at h
    · rename_i a e he
      split at h
      · simp at h
      · rename_i s' es' hs'
        simp at h
        obtain ⟨rfl, _⟩ := h
        have hi' := inv_insertComplete hi (hg m (by simp)) he (w.sm.count + 1)
        exact ih hi' (fun m' hm' => hg m' (by simp [hm'])) hs'

/-- What the merged map holds is true. -/
theorem note_good {P : Params} (hc : IdsCommit P) {w : World} {n : Notif} (hg : GoodNotif P w.chain n)
    {m : TxMap} {k : Nat} (hk : n.tx.inputs ≠ [] → k = w.chain.length - n.height.toNat)
    (hm : ∀ e ∈ m, P.submitted e.1 ∧ (e.1.inputs ≠ [] → k ≤ w.chain.length ∧
        Attested P w.chain e.1 e.2 (w.chain.length - k))) :
    ∀ e ∈ m.note n.tx n.atts, P.submitted e.1 ∧ (e.1.inputs ≠ [] → k ≤ w.chain.length ∧
        Attested P w.chain e.1 e.2 (w.chain.length - k)) := by
  intro e he
  rcases note_mem he with he | ⟨hid, hor, hatt⟩
  · exact hm e he
  · have hsub : P.submitted e.1 := by
      rcases hor with h | ⟨e', he', heq, _⟩
      · rw [h]; exact hg.1
      · rw [← heq]; exact (hm e' he').1
    have hin : e.1.inputs = n.tx.inputs := hc _ _ hsub hg.1 hid
    refine ⟨hsub, fun hne => ?_⟩
    rw [hin] at hne
    obtain ⟨h1, h2, h3⟩ := hg.2 hne
    have hk' := hk hne
    have hkk : w.chain.length - k = n.height.toNat := by omega
    refine ⟨by omega, fun i hi => ?_⟩
    have fromNew : i ∈ n.atts → ∃ x, e.1.inputs[i]? = some x ∧ UnspentAt P w.chain (w.chain.length - k) x := by
      intro hin'
      obtain ⟨x, hx, hu⟩ := h3 i hin'
      exact ⟨x, hin ▸ hx, hkk ▸ hu⟩
    have fromOld : ∀ e' ∈ m, e'.1.id = n.tx.id → i ∈ e'.2 →
        ∃ x, e.1.inputs[i]? = some x ∧ UnspentAt P w.chain (w.chain.length - k) x := by
      intro e' he' hid' hie
      have hsub' := (hm e' he').1
      have hin'' : e'.1.inputs = n.tx.inputs := hc _ _ hsub' hg.1 hid'
      obtain ⟨x, hx, hu⟩ := ((hm e' he').2 (by rw [hin'']; exact hne)).2 i hie
      exact ⟨x, by rw [hin, ← hin'']; exact hx, hu⟩
    rcases hor with h | ⟨e', he', heq, hall⟩
    · rcases hatt h i hi with h' | ⟨e', he', hid', hie⟩
      · exact fromNew h'
      · exact fromOld e' he' hid' hie
    · rcases hall i hi with h' | h'
      · exact fromOld e' he' (by rw [heq]; exact hid) h'
      · exact fromNew h'

theorem inv_insert {P : Params} (hc : IdsCommit P) {w : World} (hi : Inv P w) {n : Notif}
    (hg : GoodNotif P w.chain n) {a : Atm} {e : Option TxErr}
    (h : w.sm.atm.insert n.height n.tx n.atts = some (a, e)) :
    Inv P { w with sm := { w.sm with atm := a } } := by
  unfold Atm.insert at h
  split at h
  · simp at h
    obtain ⟨rfl, _⟩ := h
    exact hi
  · rename_i hoff
    split at h
    · simp at h
    · rename_i m hm
      have hk : n.tx.inputs ≠ [] → w.sm.atm.offset n.height = w.chain.length - n.height.toNat := by
        intro hne
        exact offset_eq hi (hg.2 hne).2.1
      have hgood : ∀ (k : Nat) (m' : TxMap),
          (w.sm.atm.txs.set (w.sm.atm.offset n.height) (m.note n.tx n.atts))[k]? = some m' → ∀ e ∈ m',
          P.submitted e.1 ∧ (e.1.inputs ≠ [] → k ≤ w.chain.length ∧
            Attested P w.chain e.1 e.2 (w.chain.length - k)) := by
        intro k m' hm'
        by_cases hkk : w.sm.atm.offset n.height = k
        · rw [List.getElem?_set, if_pos hkk] at hm'
          split at hm'
          · simp at hm'
            subst hm'
            exact note_good hc hg (fun hne => by rw [← hkk]; exact hk hne)
              (fun e he => by subst hkk; exact hi.pending _ m hm e he)
          · simp at hm'
        · rw [List.getElem?_set_ne hkk] at hm'
          exact hi.pending k m' hm'
      have hbase : Inv P { w with sm := { w.sm with atm := { w.sm.atm with
          txs := w.sm.atm.txs.set (w.sm.atm.offset n.height) (m.note n.tx n.atts) } } } :=
        { hi with
          txsLen := by simp [hi.txsLen]
          pending := hgood }
      obtain ⟨ent, hent⟩ := note_find (m := m) (tx := n.tx) (atts := n.atts)
      have hlen : w.sm.atm.offset n.height < w.sm.atm.txs.length :=
        (List.getElem?_eq_some_iff.mp hm).1
      have hset : (w.sm.atm.txs.set (w.sm.atm.offset n.height) (m.note n.tx n.atts))[w.sm.atm.offset n.height]?
          = some (m.note n.tx n.atts) := by
        rw [List.getElem?_set_self hlen]
      simp only [hent, Option.map_some, Option.getD_some] at h
      split at h
      · rename_i hcount
        split at h
        · simp at h
        · simp at h
          obtain ⟨rfl, _⟩ := h
          exact hbase
        · rename_i hck
          simp only [Option.some.injEq, Prod.mk.injEq] at h
          obtain ⟨rfl, _⟩ := h
          obtain ⟨hem, heid⟩ := find_some hent
          have hesub := (hgood _ _ hset ent hem).1
          have hein : ent.1.inputs = n.tx.inputs := hc _ _ hesub hg.1 heid
          -- inputs agree for every entry with this id
          have agree : ∀ (k : Nat) (m' : TxMap) (e' : CompactTx × List Nat),
              (w.sm.atm.txs.set (w.sm.atm.offset n.height) (m.note n.tx n.atts))[k]? = some m' →
              m'.find n.tx.id = some e' → e'.1.inputs = ent.1.inputs := by
            intro k m' e' hm' hf
            obtain ⟨he', hid'⟩ := find_some hf
            exact hc _ _ (hgood k m' hm' e' he').1 hesub (by rw [hid', heid])
          obtain ⟨g1, _, g3, g4⟩ := gather_spec n.tx.id
            (w.sm.atm.txs.set (w.sm.atm.offset n.height) (m.note n.tx n.atts)) 0 [] 0 (Nat.le_refl _)
          have hns := not_spent_of_check hck
          generalize hG : gather n.tx.id
            (w.sm.atm.txs.set (w.sm.atm.offset n.height) (m.note n.tx n.atts)) 0 [] 0 = G at *
          have hGd : G.2 ≤ P.depth := by
            rcases g4 with g4 | ⟨j, m', e', hj, _, g4⟩
            · omega
            · have := (List.getElem?_eq_some_iff.mp hj).1
              rw [List.length_set, hi.txsLen] at this
              omega
          have hpos : ∀ i ∈ G.1, ∃ x, ent.1.inputs[i]? = some x ∧ ∃ k, k ≤ G.2 ∧
              k ≤ w.chain.length ∧ UnspentAt P w.chain (w.chain.length - k) x := by
            intro i hin
            rcases g1 i hin with hin | ⟨j, m', e', hj, hf, hn', hle⟩
            · simp at hin
            · obtain ⟨he', hid'⟩ := find_some hf
              have hag := agree j m' e' hj hf
              have hne : ent.1.inputs ≠ [] := by
                intro hnil
                have : G.1 = [] := by
                  apply List.eq_nil_of_length_eq_zero
                  rw [hcount, hnil]; rfl
                rw [this] at hin
                simp at hin
              obtain ⟨hkl, hatt⟩ := (hgood j m' hj e' he').2 (by rw [hag]; exact hne)
              obtain ⟨x, hx, hu⟩ := hatt i hn'
              exact ⟨x, by rw [← hag]; exact hx, j, by omega, hkl, hu⟩
          have hleg : ∀ x ∈ ent.1.inputs, P.start.after (confirmed w) x := by
            intro x hx
            obtain ⟨i, hi', rfl⟩ := List.getElem_of_mem hx
            have hiG : i ∈ G.1 := covers (g3 List.nodup_nil) (fun k hk' => by
              obtain ⟨x, hx', _⟩ := hpos k hk'
              exact (List.getElem?_eq_some_iff.mp hx').1) hcount i hi'
            obtain ⟨x, hx', k, hk1, hk2, hu⟩ := hpos i hiG
            rw [List.getElem?_eq_getElem hi'] at hx'
            injection hx' with hx'
            rw [hx']
            refine unspent_now hi (h := w.chain.length - k) (range := G.2) (by omega) (by omega) hGd hu ?_
            exact hns x (hx' ▸ List.getElem_mem hi')
          have hdone : ((((w.sm.atm.txs.set (w.sm.atm.offset n.height) (m.note n.tx n.atts))[G.2]?.getD []).find
              n.tx.id).map Prod.fst |>.getD ent.1).inputs = ent.1.inputs := by
            cases hq : (w.sm.atm.txs.set (w.sm.atm.offset n.height) (m.note n.tx n.atts))[G.2]? with
            | none => rfl
            | some m' =>
              simp only [Option.getD_some]
              cases hq' : m'.find n.tx.id with
              | none => rfl
              | some e' => exact agree _ m' e' hq hq'
          have := inv_confirm hi (it := ent.1) hdone hleg
            ((w.sm.atm.txs.set (w.sm.atm.offset n.height) (m.note n.tx n.atts)).map fun m => m.drop n.tx.id)
            w.sm.count (by simp [hi.txsLen]) (by
              intro k m' hm' e' he'
              rw [List.getElem?_map] at hm'
              cases hq : (w.sm.atm.txs.set (w.sm.atm.offset n.height) (m.note n.tx n.atts))[k]? with
              | none => simp [hq] at hm'
              | some m'' =>
                simp [hq] at hm'
                subst hm'
                exact hgood k m'' hq e' (List.mem_filter.mp he').1)
          exact this
      · simp at h
        obtain ⟨rfl, _⟩ := h
        exact hbase

end Verif.Atomizer
