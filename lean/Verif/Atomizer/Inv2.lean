import Verif.Atomizer.Inv

/-! The invariant holds in every reachable state. -/
namespace Verif.Atomizer

open Verif.Tx Verif.Util

/-! ### Shards -/

theorem openDb_good {P : Params} {chain : List Block} {r : UInt8 × UInt8} {d : Disk}
    (hl : (d.height.getD 0).toNat ≤ chain.length)
    (hc : ∀ y, owns r y = true → (d.coins y = true ↔ UnspentAt P chain (d.height.getD 0).toNat y)) :
    GoodShard P chain r (Shard.openDb r d) := by
  unfold Shard.openDb
  cases h : d.height with
  | none =>
    rw [h] at hl hc
    exact ⟨rfl, rfl, hl, hc, rfl, rfl⟩
  | some k =>
    rw [h] at hl hc
    exact ⟨rfl, h, hl, hc, rfl, rfl⟩

theorem seed_good {P : Params} {chain : List Block} (i : Nat) :
    GoodShard P chain (P.range i) (Shard.openDb (P.range i) (P.seed i)) := by
  apply openDb_good
  · simp [Params.seed]
  · intro y hy
    simp [Params.seed, UnspentAt, txsOf, Ledger.after, Params.start, hy]

theorem digest_good {P : Params} {chain : List Block} (hsm : chain.length < 2 ^ 64)
    (hn : Numbered chain) {r : UInt8 × UInt8} {s : Shard} (hs : GoodShard P chain r s) {b : Block}
    (hb : b ∈ chain) : GoodShard P chain r (s.digestBlock b).1 := by
  unfold Shard.digestBlock
  split
  · exact hs
  · rename_i hh
    have hh : b.height = s.best + 1 := Classical.not_not.mp hh
    obtain ⟨k, hk, rfl⟩ := List.getElem_of_mem hb
    have hnum := hn k _ (List.getElem?_eq_getElem hk)
    have hbest : (s.best + 1).toNat = s.best.toNat + 1 := by
      rw [UInt64.toNat_add]
      have := hs.le
      rw [hh, UInt64.toNat_add] at hnum
      simp at hnum ⊢
      omega
    have hk' : k = s.best.toNat := by
      rw [hh, hbest] at hnum
      omega
    subst hk'
    refine ⟨hs.range, rfl, ?_, ?_, rfl, rfl⟩
    · show (s.best + 1).toNat ≤ _
      omega
    · intro y hy
      show applyTxs s.range s.disk.coins _ y = true ↔ UnspentAt P chain (s.best + 1).toNat y
      rw [hbest, hs.range]
      unfold UnspentAt
      rw [List.take_succ_eq_append_getElem hk, txsOf_append, after_append]
      have : txsOf [chain[s.best.toNat]] = chain[s.best.toNat].txs := by simp [txsOf]
      rw [this]
      exact applyTxs_spec r _ _ _ (fun z hz => hs.coins z hz) y hy

theorem foldDigest_good {P : Params} {chain : List Block} (hsm : chain.length < 2 ^ 64)
    (hn : Numbered chain) {r : UInt8 × UInt8} (bs : List Block) : ∀ {s : Shard},
    GoodShard P chain r s → (∀ b ∈ bs, b ∈ chain) →
    GoodShard P chain r (bs.foldl (fun s b => (Shard.digestBlock s b).1) s) := by
  induction bs with
  | nil => intro s hs _; exact hs
  | cons b bs ih =>
    intro s hs hb
    exact ih (digest_good hsm hn hs (hb b (by simp))) fun b' hb' => hb b' (by simp [hb'])

theorem attest_good {P : Params} {chain : List Block} {r : UInt8 × UInt8} {s : Shard}
    (hs : GoodShard P chain r s) {tx : CompactTx} (hsub : P.submitted tx) {n : Notif}
    (h : s.digestTx tx = .inr n) : GoodNotif P chain n := by
  unfold Shard.digestTx at h
  split at h
  · simp at h
  · rename_i h0
    split at h
    · simp at h
    · simp only at h
      split at h
      · simp at h
      · simp at h
        subst h
        refine ⟨hsub, fun _ => ⟨?_, ?_, ?_⟩⟩
        · show 0 < s.snapHeight.toNat
          apply Nat.pos_of_ne_zero
          intro hz
          exact h0 (UInt64.toNat_inj.mp hz)
        · show s.snapHeight.toNat ≤ _
          rw [hs.snapHeight]; exact hs.le
        · intro i hi
          obtain ⟨_, x, hx, ho, hcx⟩ := ((scanInputs_spec s.range s.snap tx.inputs 0).1 i).mp hi
          refine ⟨x, by simpa using hx, ?_⟩
          show UnspentAt P chain s.snapHeight.toNat x
          rw [hs.snapHeight]
          rw [hs.range] at ho
          rw [hs.snap] at hcx
          exact (hs.coins x ho).mp hcx

/-! ### Leaders -/

theorem entry_good {P : Params} (hc : IdsCommit P) {chain : List Block} {p : Pool} {n : Notif}
    (hp : ∀ e ∈ p.txs, GoodEntry P chain e) (hn : GoodNotif P chain n) :
    GoodEntry P chain (p.entry n) ∧ (p.entry n).1.id = n.tx.id := by
  unfold Pool.entry
  split
  · rename_i e he
    have hem := List.mem_of_find?_eq_some he
    have hid : e.1.id = n.tx.id := by
      have := List.find?_some he
      exact eq_of_beq this
    have hg := hp e hem
    have hin : e.1.inputs = n.tx.inputs := hc _ _ hg.1 hn.1 hid
    refine ⟨⟨hg.1, fun hne => ?_⟩, hid⟩
    obtain ⟨h1, h2⟩ := hg.2 hne
    obtain ⟨h3, h4, h5⟩ := hn.2 (by rw [← hin]; exact hne)
    obtain ⟨a1, a2⟩ := addAtts_spec n.height n.atts e.2
    refine ⟨a2 h1, fun q hq => ?_⟩
    rcases a1 q hq with hq | ⟨hq, hqh⟩
    · exact h2 q hq
    · obtain ⟨x, hx, hu⟩ := h5 q.1 hq
      exact ⟨by rw [hqh]; exact h3, by rw [hqh]; exact h4, x, by show e.1.inputs[q.1]? = _; rw [hin]; exact hx,
        by rw [hqh]; exact hu⟩
  · refine ⟨⟨hn.1, fun hne => ?_⟩, rfl⟩
    obtain ⟨h3, h4, h5⟩ := hn.2 hne
    obtain ⟨a1, a2⟩ := addAtts_spec n.height n.atts []
    refine ⟨a2 (by simp), fun q hq => ?_⟩
    rcases a1 q hq with hq | ⟨hq, hqh⟩
    · simp at hq
    · obtain ⟨x, hx, hu⟩ := h5 q.1 hq
      exact ⟨by rw [hqh]; exact h3, by rw [hqh]; exact h4, x, hx, by rw [hqh]; exact hu⟩

theorem complete_good {P : Params} {chain : List Block} {e : CompactTx × List (Nat × UInt64)}
    (he : GoodEntry P chain e) (hl : e.2.length = e.1.inputs.length) :
    GoodAgg P chain ⟨e.1, oldestOf e.2⟩ := by
  refine ⟨he.1, fun hne => ?_⟩
  obtain ⟨h1, h2⟩ := he.2 hne
  have hne2 : e.2 ≠ [] := by
    intro hc
    rw [hc] at hl
    exact hne (List.eq_nil_of_length_eq_zero hl.symm)
  obtain ⟨o1, q0, hq0, o2⟩ := oldestOf_spec hne2 fun q hq hz => by
    have := (h2 q hq).1
    rw [hz] at this
    simp at this
  refine ⟨by show (oldestOf e.2).toNat ≤ _; rw [o2]; exact (h2 q0 hq0).2.1, fun x hx => ?_⟩
  obtain ⟨i, hi, rfl⟩ := List.getElem_of_mem hx
  have hmem : i ∈ e.2.map Prod.fst := covers h1 (fun k hk => by
    obtain ⟨q, hq, rfl⟩ := List.mem_map.mp hk
    obtain ⟨_, _, x, hx, _⟩ := h2 q hq
    exact (List.getElem?_eq_some_iff.mp hx).1) (by simpa using hl) i hi
  obtain ⟨q, hq, rfl⟩ := List.mem_map.mp hmem
  obtain ⟨_, hle, x, hx', hu⟩ := h2 q hq
  have hxe : e.1.inputs[q.1] = x := by
    rw [List.getElem?_eq_getElem hi] at hx'
    exact Option.some.inj hx'
  exact ⟨q.2.toNat, UInt64.le_iff_toNat_le.mp (o1 q hq), hle, hxe ▸ hu⟩

theorem notify_good {P : Params} (hc : IdsCommit P) {chain : List Block} {p : Pool} {n : Notif}
    (hp : ∀ e ∈ p.txs, GoodEntry P chain e) (hq : ∀ m ∈ p.complete, GoodAgg P chain m)
    (hn : GoodNotif P chain n) :
    (∀ e ∈ (p.notify P.attested n).txs, GoodEntry P chain e) ∧
      ∀ m ∈ (p.notify P.attested n).complete, GoodAgg P chain m := by
  have hg := entry_good hc hp hn
  unfold Pool.notify
  split
  · exact ⟨hp, hq⟩
  · simp only
    split
    · refine ⟨fun e he => ?_, hq⟩
      rcases List.mem_append.mp he with he | he
      · exact hp e (List.mem_filter.mp he).1
      · simp at he; subst he; exact hg.1
    · rename_i hl
      have hl := Classical.not_not.mp hl
      refine ⟨fun e he => hp e (List.mem_filter.mp he).1, fun m hm => ?_⟩
      rcases List.mem_append.mp hm with hm | hm
      · exact hq m hm
      · simp at hm; subst hm; exact complete_good hg.1 hl

/-! ### Reachable states -/

theorem inv_init (P : Params) : Inv P (World.init P) where
  small := by simp [World.init]
  numbered := by intro i b h; simp [World.init] at h
  best := rfl
  depth := rfl
  spentLen := by simp [World.init, SM.new, Atm.new]
  txsLen := by simp [World.init, SM.new, Atm.new]
  spent := by
    intro k g hg x
    have : g = [] := by
      have := List.mem_of_getElem? hg
      exact (List.mem_replicate.mp this).2
    subst this
    simp only [List.not_mem_nil, false_iff]
    rintro ⟨t, ht, _⟩
    cases k <;> simp [generation, World.init, SM.new, Atm.new] at ht
  pending := by
    intro k m hm e he
    have : m = [] := by
      have := List.mem_of_getElem? hm
      exact (List.mem_replicate.mp this).2
    subst this
    simp at he
  legal := by intro i t h; simp [confirmed, World.init, SM.new, Atm.new, txsOf] at h
  notifs := by intro n h; simp [World.init] at h
  pools := fun j => ⟨by intro e h; simp [World.init, Pool.new] at h,
    by intro e h; simp [World.init, Pool.new] at h⟩
  aggs := by intro n h; simp [World.init] at h
  shards := fun i => seed_good i

theorem inv_block {P : Params} {w : World} (hi : Inv P w) (hl : w.chain.length + 1 < 2 ^ 64)
    (bs : List (UInt64 × Block)) :
    Inv P { w with
      sm := { w.sm with atm := w.sm.atm.makeBlock.1, blocks := bs }
      chain := w.chain ++ [w.sm.atm.makeBlock.2.1] } := by
  have hbest : (w.sm.atm.best + 1).toNat = w.chain.length + 1 := by
    rw [UInt64.toNat_add, hi.best]
    simp
    omega
  have hlegal := hi.legal
  refine
    { small := by simpa using hl
      numbered := ?_
      best := by simp only [List.length_append, List.length_singleton]; exact hbest
      depth := hi.depth
      spentLen := ?_
      txsLen := ?_
      spent := ?_
      pending := ?_
      legal := ?_
      notifs := fun n hn => (hi.notifs n hn).mono
      pools := fun j => ⟨fun e he => ((hi.pools j).1 e he).mono, fun m hm => ((hi.pools j).2 m hm).mono⟩
      aggs := fun m hm => (hi.aggs m hm).mono
      shards := fun i => (hi.shards i).mono }
  · intro i b hb
    rw [List.getElem?_append] at hb
    split at hb
    · exact hi.numbered i b hb
    · rename_i hge
      have hz : i = w.chain.length := by
        have := (List.getElem?_eq_some_iff.mp hb).1
        simp at this; omega
      subst hz
      simp at hb
      subst hb
      exact hbest
  · have := hi.spentLen
    have := hi.depth
    simp only [Atm.makeBlock, List.length_cons, List.length_take]
    omega
  · have := hi.txsLen
    have := hi.depth
    simp only [Atm.makeBlock, List.length_cons, List.length_take]
    omega
  · intro k g hg x
    simp only [Atm.makeBlock] at hg
    cases k with
    | zero =>
      simp at hg
      subst hg
      simp [generation, Atm.makeBlock]
    | succ k =>
      rw [List.getElem?_cons_succ, List.getElem?_take] at hg
      split at hg
      · have := hi.spent k g hg x
        rw [this]
        simp [generation, Atm.makeBlock]
      · simp at hg
  · intro k m hm e he
    simp only [Atm.makeBlock] at hm
    cases k with
    | zero => simp at hm; subst hm; simp at he
    | succ k =>
      rw [List.getElem?_cons_succ, List.getElem?_take] at hm
      split at hm
      · obtain ⟨h1, h2⟩ := hi.pending k m hm e he
        refine ⟨h1, fun hne => ?_⟩
        obtain ⟨h3, h4⟩ := h2 hne
        refine ⟨by simp; omega, ?_⟩
        have : (w.chain ++ [w.sm.atm.makeBlock.2.1]).length - (k + 1) = w.chain.length - k := by
          simp
        rw [this]
        exact h4.mono (by omega)
      · simp at hm
  · have e1 : txsOf (w.chain ++ [w.sm.atm.makeBlock.2.1]) ++ [] = confirmed w := by
      simp [txsOf, Atm.makeBlock, confirmed]
    show Legal P.start (txsOf (w.chain ++ [w.sm.atm.makeBlock.2.1]) ++ [])
    rw [e1]
    exact hlegal

theorem inv_step {P : Params} (hc : IdsCommit P) {w w' : World} (hi : Inv P w) (hs : Step P w w') :
    Inv P w' := by
  cases hs with
  | digest i b hb =>
    refine { hi with shards := fun j => ?_ }
    simp only [upd]
    split
    · rename_i h; subst h; exact digest_good hi.small hi.numbered (hi.shards j) hb
    · exact hi.shards j
  | restart i d hd =>
    refine { hi with shards := fun j => ?_ }
    simp only [upd]
    split
    · rename_i h
      subst h
      have hgood : ∃ s : Shard, GoodShard P w.chain (P.range j) s ∧ d = s.disk := by
        rcases hd with hd | ⟨k, _, hd⟩
        · exact ⟨_, hi.shards j, hd⟩
        · exact ⟨_, foldDigest_good hi.small hi.numbered _ (seed_good j)
            (fun b hb => List.mem_of_mem_take hb), hd⟩
      obtain ⟨s, hs, rfl⟩ := hgood
      apply openDb_good
      · rw [hs.height]; exact hs.le
      · rw [hs.height]; exact hs.coins
    · exact hi.shards j
  | attest i tx n hsub h =>
    refine { hi with notifs := fun m hm => ?_ }
    rcases List.mem_append.mp hm with hm | hm
    · exact hi.notifs m hm
    · simp at hm; subst hm; exact attest_good (hi.shards i) hsub h
  | mint n hsub hin =>
    refine { hi with notifs := fun m hm => ?_ }
    rcases List.mem_append.mp hm with hm | hm
    · exact hi.notifs m hm
    · simp at hm; subst hm; exact ⟨hsub, fun hne => absurd hin hne⟩
  | notify j n hn =>
    refine { hi with pools := fun k => ?_ }
    simp only [upd]
    split
    · rename_i h
      subst h
      exact notify_good hc (hi.pools k).1 (hi.pools k).2 (hi.notifs n hn)
    · exact hi.pools k
  | propose j =>
    refine { hi with pools := fun k => ?_, aggs := fun m hm => ?_ }
    · simp only [upd]
      split
      · exact ⟨(hi.pools j).1, by simp⟩
      · exact hi.pools k
    · rcases List.mem_append.mp hm with hm | hm
      · exact hi.aggs m hm
      · exact (hi.pools j).2 m hm
  | forget j =>
    refine { hi with pools := fun k => ?_ }
    simp only [upd]
    split
    · exact ⟨by simp [Pool.new], by simp [Pool.new]⟩
    · exact hi.pools k
  | commit ms sm r hms h =>
    simp only [SM.commit] at h
    split at h
    · simp at h
    · rename_i s' es hs'
      simp at h
      obtain ⟨rfl, _⟩ := h
      exact inv_notifyAll ms hi (fun m hm => hi.aggs m (hms m hm)) hs'
  | insert n a e hn _ h => exact inv_insert hc hi (hi.notifs n hn) h
  | block sm b errs hl h =>
    simp only [SM.commit, Option.some.injEq, Prod.mk.injEq, Resp.made.injEq] at h
    obtain ⟨rfl, rfl, _⟩ := h
    exact inv_block hi hl _
  | prune h sm r hp =>
    simp only [SM.commit, Option.some.injEq, Prod.mk.injEq] at hp
    obtain ⟨rfl, _⟩ := hp
    exact hi.reblock _ w.sm.count

theorem reach_inv {P : Params} (hc : IdsCommit P) {w : World} (h : Reach P w) : Inv P w := by
  induction h with
  | init => exact inv_init P
  | step w w' _ hs ih => exact inv_step hc ih hs

end Verif.Atomizer
