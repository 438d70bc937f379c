import Verif.Watchtower.Spec

/-! Properties of the watchtower: C26, C27, C63. -/
namespace Verif.Watchtower

open Verif.Tx Verif.Atomizer

/-! ### Maps -/

theorem foldl_erase {α} (is : List Hash) (x : Hash) : ∀ m : Map α,
    is.foldl (fun m i => m.erase i) m x = if x ∈ is then none else m x := by
  induction is with
  | nil => intro m; simp
  | cons i is ih =>
    intro m
    rw [List.foldl_cons, ih]
    by_cases h1 : x ∈ is <;> by_cases h2 : x = i <;> simp [h1, h2, Map.erase]

theorem foldl_insert {α} (is : List Hash) (v : α) (x : Hash) : ∀ m : Map α,
    is.foldl (fun m i => m.insert i v) m x = if x ∈ is then some ((m x).getD v) else m x := by
  induction is with
  | nil => intro m; simp
  | cons i is ih =>
    intro m
    rw [List.foldl_cons, ih]
    by_cases h1 : x ∈ is <;> by_cases h2 : x = i
    · subst h2; simp [h1, Map.insert]
    · simp [h1, h2, Map.insert]
    · subst h2; simp [h1, Map.insert]
    · simp [h1, h2, Map.insert]

/-! ### The block cache -/

/-- The maps hold what a search through `l` finds. -/
def Agree (l : List (UInt64 × CompactTx)) (c : BlockCache) : Prop :=
  ∀ u, c.spent u = spender l u ∧
    c.unspent u = if (spender l u).isSome then none else creator l u

theorem spender_append (l l' : List (UInt64 × CompactTx)) (u : Hash) :
    spender (l ++ l') u = (spender l u).or (spender l' u) := by
  unfold spender
  rw [List.find?_append]
  cases List.find? _ l <;> simp

theorem creator_append (l l' : List (UInt64 × CompactTx)) (u : Hash) :
    creator (l ++ l') u = (creator l u).or (creator l' u) := by
  unfold creator
  rw [List.find?_append]
  cases List.find? _ l <;> simp

theorem spender_none {l : List (UInt64 × CompactTx)} {u : Hash} :
    spender l u = none ↔ ∀ p ∈ l, u ∉ p.2.inputs := by
  simp [spender]

theorem creator_none {l : List (UInt64 × CompactTx)} {u : Hash} :
    creator l u = none ↔ ∀ p ∈ l, u ∉ p.2.uhsOutputs := by
  simp [creator]

theorem spender_one (h : UInt64) (t : CompactTx) (u : Hash) :
    spender [(h, t)] u = if u ∈ t.inputs then some (h, t.id) else none := by
  by_cases hu : u ∈ t.inputs <;> simp [spender, hu]

theorem creator_one (h : UInt64) (t : CompactTx) (u : Hash) :
    creator [(h, t)] u = if u ∈ t.uhsOutputs then some (h, t.id) else none := by
  by_cases hu : u ∈ t.uhsOutputs <;> simp [creator, hu]

theorem agree_add {l : List (UInt64 × CompactTx)} {c : BlockCache} (ha : Agree l c) (h : UInt64)
    (t : CompactTx) (ho : ∀ u ∈ t.uhsOutputs, u ∉ t.inputs ∧ ∀ p ∈ l, u ∉ p.2.inputs) :
    Agree (l ++ [(h, t)]) (c.addTx h t) := by
  intro u
  obtain ⟨h1, h2⟩ := ha u
  unfold BlockCache.addTx
  simp only [foldl_insert, foldl_erase, h1, h2, spender_append, creator_append, spender_one, creator_one]
  by_cases ki : u ∈ t.inputs
  · have kn : u ∉ t.uhsOutputs := fun hc => (ho u hc).1 ki
    cases hs : spender l u <;> simp [ki, kn]
  · by_cases ko : u ∈ t.uhsOutputs
    · have hs := spender_none.mpr (ho u ko).2
      cases hc : creator l u <;> simp [ki, ko, hs]
    · cases hs : spender l u <;> simp [ki, ko]

theorem agree_forget {l : List (UInt64 × CompactTx)} {c : BlockCache} {h : UInt64} {t : CompactTx}
    (ha : Agree ((h, t) :: l) c) (hl : Ledger ((h, t) :: l)) : Agree l (c.forgetTx t) := by
  intro u
  obtain ⟨h1, h2⟩ := ha u
  have e1 : spender ((h, t) :: l) u = (spender [(h, t)] u).or (spender l u) :=
    spender_append [(h, t)] l u
  have e2 : creator ((h, t) :: l) u = (creator [(h, t)] u).or (creator l u) :=
    creator_append [(h, t)] l u
  have n1 : u ∈ t.inputs → spender l u = none := by
    intro hu
    refine spender_none.mpr fun p hp hc => ?_
    have := hl.spentOnce
    simp only [List.flatMap_cons, List.nodup_append] at this
    exact this.2.2 u hu u (List.mem_flatMap.mpr ⟨p, hp, hc⟩) rfl
  have n2 : u ∈ t.uhsOutputs → creator l u = none := by
    intro hu
    refine creator_none.mpr fun p hp hc => ?_
    have := hl.createdOnce
    simp only [List.flatMap_cons, List.nodup_append] at this
    exact this.2.2 u hu u (List.mem_flatMap.mpr ⟨p, hp, hc⟩) rfl
  have n3 : u ∈ t.inputs → creator l u = none := by
    intro hu
    refine creator_none.mpr fun p hp hc => ?_
    exact (List.pairwise_cons.mp hl.order).1 p hp u hc hu
  unfold BlockCache.forgetTx
  simp only [foldl_erase, h1, h2, e1, e2, spender_one, creator_one]
  by_cases ki : u ∈ t.inputs
  · simp [ki, n1 ki, n3 ki]
  · by_cases ko : u ∈ t.uhsOutputs
    · simp [ki, ko, n2 ko]
    · simp [ki, ko]

theorem Ledger.tail {p : UInt64 × CompactTx} {l : List (UInt64 × CompactTx)} (h : Ledger (p :: l)) :
    Ledger l where
  spentOnce := by
    have := h.spentOnce
    rw [List.flatMap_cons, List.nodup_append] at this
    exact this.2.1
  createdOnce := by
    have := h.createdOnce
    rw [List.flatMap_cons, List.nodup_append] at this
    exact this.2.1
  order := (List.pairwise_cons.mp h.order).2
  order' := fun q hq => h.order' q (by simp [hq])

theorem Ledger.drop {a b : List (UInt64 × CompactTx)} (h : Ledger (a ++ b)) : Ledger b := by
  induction a with
  | nil => exact h
  | cons p a ih => exact ih h.tail

theorem agree_forgetAll (h : UInt64) (ts : List CompactTx) : ∀ (l : List (UInt64 × CompactTx))
    (c : BlockCache), Agree (ts.map (fun t => (h, t)) ++ l) c →
    Ledger (ts.map (fun t => (h, t)) ++ l) → Agree l (ts.foldl BlockCache.forgetTx c) := by
  induction ts with
  | nil => intro l c ha _; exact ha
  | cons t ts ih =>
    intro l c ha hl
    exact ih l _ (agree_forget ha hl) hl.tail

theorem agree_addAll (h : UInt64) (ts : List CompactTx) : ∀ (l : List (UInt64 × CompactTx))
    (c : BlockCache), Agree l c → Ledger (l ++ ts.map (fun t => (h, t))) →
    Agree (l ++ ts.map (fun t => (h, t))) (ts.foldl (BlockCache.addTx h) c) := by
  induction ts with
  | nil => intro l c ha _; simpa using ha
  | cons t ts ih =>
    intro l c ha hl
    have hl' : Ledger ((l ++ [(h, t)]) ++ ts.map (fun t => (h, t))) := by simpa using hl
    have := ih (l ++ [(h, t)]) (c.addTx h t) (agree_add ha h t ?_) hl'
    · simpa using this
    · intro u hu
      refine ⟨hl.order' (h, t) (by simp) u hu, ?_⟩
      intro p hp
      exact (List.pairwise_append.mp hl.order).2.2 p hp (h, t) (by simp) u hu

theorem forgetAll_frame (ts : List CompactTx) : ∀ c : BlockCache,
    (ts.foldl BlockCache.forgetTx c).k = c.k ∧ (ts.foldl BlockCache.forgetTx c).best = c.best := by
  induction ts with
  | nil => intro c; exact ⟨rfl, rfl⟩
  | cons t ts ih => intro c; exact ih (c.forgetTx t)

theorem addAll_frame (h : UInt64) (ts : List CompactTx) : ∀ c : BlockCache,
    (ts.foldl (BlockCache.addTx h) c).k = c.k ∧ (ts.foldl (BlockCache.addTx h) c).best = c.best ∧
    (ts.foldl (BlockCache.addTx h) c).blks = c.blks := by
  induction ts with
  | nil => intro c; exact ⟨rfl, rfl, rfl⟩
  | cons t ts ih => intro c; exact ih (c.addTx h t)

theorem entries_append (a b : List Block) : entries (a ++ b) = entries a ++ entries b := by
  simp [entries]

theorem lastK_append {α} (k : Nat) (l : List α) (x : α) :
    lastK k (l ++ [x]) =
      (if k ≠ 0 ∧ (lastK k l).length = k then (lastK k l).tail else lastK k l) ++ [x] := by
  unfold lastK
  by_cases hk : k = 0
  · simp [hk]
  · simp only [hk, if_false, List.length_drop, List.length_append, List.length_singleton]
    by_cases hl : k ≤ l.length
    · rw [if_pos ⟨hk, by omega⟩, List.tail_drop, List.drop_append_of_le_length (by omega)]
      congr 2
      omega
    · rw [if_neg (by omega), List.drop_append_of_le_length (by omega)]
      congr 2
      omega

/-- All blocks pushed, in order. -/
def BlockCache.pushAll (c : BlockCache) (bs : List Block) : BlockCache := bs.foldl BlockCache.push c

theorem push_agree {c : BlockCache} {bs : List Block} {b : Block} (hb : c.blks = lastK c.k bs)
    (ha : Agree (entries (lastK c.k bs)) c) (hl : Ledger (entries (bs ++ [b]))) :
    (c.push b).k = c.k ∧ (c.push b).blks = lastK c.k (bs ++ [b]) ∧
      Agree (entries (lastK c.k (bs ++ [b]))) (c.push b) := by
  have hsuf : ∀ k, ∃ pre, pre ++ lastK k bs = bs := by
    intro k
    unfold lastK
    split
    · exact ⟨[], rfl⟩
    · exact ⟨_, List.take_append_drop _ bs⟩
  obtain ⟨pre, hpre⟩ := hsuf c.k
  have hl1 : Ledger (entries (lastK c.k bs) ++ entries [b]) := by
    rw [← hpre, List.append_assoc, entries_append, entries_append] at hl
    exact hl.drop
  have hone : entries [b] = b.txs.map fun t => (b.height, t) := by simp [entries]
  rw [lastK_append]
  unfold BlockCache.push
  by_cases hfull : c.k ≠ 0 ∧ c.blks.length = c.k
  · rw [if_pos hfull, if_pos (by rw [← hb]; exact hfull)]
    cases hbl : c.blks with
    | nil => rw [hbl] at hfull; simp at hfull; omega
    | cons old rest =>
      rw [hbl] at hb
      rw [← hb] at ha hl1 ⊢
      simp only [List.tail_cons]
      have hent : entries (old :: rest) = old.txs.map (fun t => (old.height, t)) ++ entries rest := by
        simp [entries]
      rw [hent] at ha hl1
      have hlold : Ledger (old.txs.map (fun t => (old.height, t)) ++ entries rest) := by
        have := hl1
        exact ⟨(by
            have h := this.spentOnce
            rw [List.flatMap_append, List.nodup_append] at h
            exact h.1), (by
            have h := this.createdOnce
            rw [List.flatMap_append, List.nodup_append] at h
            exact h.1), (List.pairwise_append.mp this.order).1,
          fun p hp => this.order' p (List.mem_append.mpr (.inl hp))⟩
      have a1 := agree_forgetAll old.height old.txs (entries rest) c ha hlold
      have hl2 : Ledger (entries rest ++ b.txs.map fun t => (b.height, t)) := by
        rw [List.append_assoc] at hl1
        rw [← hone]
        exact hl1.drop
      have a2 := agree_addAll b.height b.txs (entries rest)
        { (old.txs.foldl BlockCache.forgetTx c) with blks := rest ++ [b] } a1 hl2
      obtain ⟨f1, f2, f3⟩ := addAll_frame b.height b.txs
        { (old.txs.foldl BlockCache.forgetTx c) with blks := rest ++ [b] }
      refine ⟨?_, f3, ?_⟩
      · exact f1.trans (forgetAll_frame old.txs c).1
      · rw [entries_append, hone]
        exact a2
  · rw [if_neg hfull, if_neg (by rw [← hb]; exact hfull)]
    rw [hone] at hl1
    have a2 := agree_addAll b.height b.txs _ { c with blks := c.blks ++ [b] } ha hl1
    obtain ⟨f1, f2, f3⟩ := addAll_frame b.height b.txs { c with blks := c.blks ++ [b] }
    refine ⟨f1, ?_, ?_⟩
    · rw [← hb]; exact f3
    · rw [entries_append, hone]
      exact a2

theorem ledger_prefix {a b : List (UInt64 × CompactTx)} (h : Ledger (a ++ b)) : Ledger a :=
  ⟨(by
    have h := h.spentOnce
    rw [List.flatMap_append, List.nodup_append] at h
    exact h.1), (by
    have h := h.createdOnce
    rw [List.flatMap_append, List.nodup_append] at h
    exact h.1), (List.pairwise_append.mp h.order).1,
  fun p hp => h.order' p (List.mem_append.mpr (.inl hp))⟩

theorem pushAll_agree (k : Nat) (bs : List Block) (hl : Ledger (entries bs)) :
    ((BlockCache.new k).pushAll bs).k = k ∧ ((BlockCache.new k).pushAll bs).blks = lastK k bs ∧
      Agree (entries (lastK k bs)) ((BlockCache.new k).pushAll bs) := by
  have key : ∀ (post pre : List Block) (c : BlockCache), c.k = k → c.blks = lastK k pre →
      Agree (entries (lastK k pre)) c → Ledger (entries (pre ++ post)) →
      (c.pushAll post).k = k ∧ (c.pushAll post).blks = lastK k (pre ++ post) ∧
        Agree (entries (lastK k (pre ++ post))) (c.pushAll post) := by
    intro post
    induction post with
    | nil => intro pre c h1 h2 h3 _; simpa [BlockCache.pushAll] using ⟨h1, h2, h3⟩
    | cons b post ih =>
      intro pre c h1 h2 h3 h4
      have h5 : Ledger (entries (pre ++ [b])) := by
        have : pre ++ b :: post = (pre ++ [b]) ++ post := by simp
        rw [this, entries_append] at h4
        exact ledger_prefix h4
      subst h1
      obtain ⟨j1, j2, j3⟩ := push_agree h2 h3 h5
      have := ih (pre ++ [b]) (c.push b) j1 j2 j3 (by simpa using h4)
      simpa [BlockCache.pushAll] using this
  have := key bs [] (.new k) rfl (by simp [lastK, BlockCache.new]) ?_ (by simpa using hl)
  · simpa using this
  · intro u
    have : lastK k ([] : List Block) = [] := by simp [lastK]
    rw [this]
    simp [entries, spender, creator, BlockCache.new]

/-- **C26.** After any history without double spends, the cache says an output is spent exactly when
one of the last `k` blocks spends it, and unspent exactly when one of the last `k` blocks created it
and none of them spends it; the height and transaction it names are those of that block. Older blocks
have no influence. -/
theorem C26_block_cache (k : Nat) (bs : List Block) (hl : Ledger (entries bs)) (u : Hash) :
    ((BlockCache.new k).pushAll bs).checkSpent u = spender (entries (lastK k bs)) u ∧
    ((BlockCache.new k).pushAll bs).checkUnspent u =
      if (spender (entries (lastK k bs)) u).isSome then none else creator (entries (lastK k bs)) u :=
  (pushAll_agree k bs hl).2.2 u

theorem push_best (c : BlockCache) (b : Block) : (c.push b).best = if c.best < b.height then b.height else c.best := by
  unfold BlockCache.push
  simp only
  rw [(addAll_frame _ _ _).2.1]
  split
  · cases hb : c.blks with
    | nil => rfl
    | cons old rest => simp only; rw [(forgetAll_frame _ _).2]
  · rfl

/-- C26. The best height is the greatest height seen, 0 before any block. -/
theorem C26_best (k : Nat) (bs : List Block) :
    (∀ b ∈ bs, b.height ≤ ((BlockCache.new k).pushAll bs).best) ∧
    (((BlockCache.new k).pushAll bs).best = 0 ∨
      ∃ b ∈ bs, b.height = ((BlockCache.new k).pushAll bs).best) := by
  have key : ∀ (bs : List Block) (c : BlockCache),
      (c.best ≤ (c.pushAll bs).best) ∧ (∀ b ∈ bs, b.height ≤ (c.pushAll bs).best) ∧
      ((c.pushAll bs).best = c.best ∨ ∃ b ∈ bs, b.height = (c.pushAll bs).best) := by
    intro bs
    induction bs with
    | nil => intro c; simp [BlockCache.pushAll]
    | cons b bs ih =>
      intro c
      obtain ⟨h1, h2, h3⟩ := ih (c.push b)
      have hp := push_best c b
      have e : c.pushAll (b :: bs) = (c.push b).pushAll bs := rfl
      rw [e]
      have hm : c.best ≤ (c.push b).best ∧ b.height ≤ (c.push b).best ∧
          ((c.push b).best = c.best ∨ (c.push b).best = b.height) := by
        rw [hp]
        split
        · rename_i h
          exact ⟨UInt64.le_of_lt h, UInt64.le_refl _, .inr rfl⟩
        · rename_i h
          exact ⟨UInt64.le_refl _, UInt64.not_lt.mp h, .inl rfl⟩
      refine ⟨UInt64.le_trans hm.1 h1, ?_, ?_⟩
      · intro b' hb'
        rcases List.mem_cons.mp hb' with rfl | hb'
        · exact UInt64.le_trans hm.2.1 h1
        · exact h2 b' hb'
      · rcases h3 with h3 | ⟨b', hb', h3⟩
        · rcases hm.2.2 with hm | hm
          · exact .inl (h3.trans hm)
          · exact .inr ⟨b, by simp, (h3.trans hm).symm⟩
        · exact .inr ⟨b', by simp [hb'], h3⟩
  exact ⟨(key bs _).2.1, (key bs _).2.2⟩

/-! ### The error cache -/

/-- The maps of one cached error. -/
structure ErrInv (c : ErrCache) (es : List TxErr) : Prop where
  errs : c.errs = lastK c.k es
  tx : ∀ t e, c.byTx t = some e → e ∈ lastK c.k es ∧ e.txId = t
  uhs : ∀ u e, c.byUhs u = some e → e ∈ lastK c.k es ∧ u ∈ e.uhsIds

/-- What is left of the cache when there is room for one more error. -/
def ErrCache.room (c : ErrCache) : ErrCache :=
  if c.k ≠ 0 ∧ c.errs.length = c.k then
      match c.errs with
      | [] => c
      | old :: rest =>
        { c with
          errs := rest
          byTx := c.byTx.erase old.txId
          byUhs := old.uhsIds.foldl (fun m u => m.erase u) c.byUhs }
    else c

/-- The errors left when there is room for one more. -/
def roomK (k : Nat) (l : List TxErr) : List TxErr :=
  if k ≠ 0 ∧ (lastK k l).length = k then (lastK k l).tail else lastK k l

theorem room_spec {c : ErrCache} {es : List TxErr} (hi : ErrInv c es) :
    c.room.k = c.k ∧ c.room.errs = roomK c.k es ∧
    (∀ t e, c.room.byTx t = some e → e ∈ roomK c.k es ∧ e.txId = t) ∧
    (∀ u e, c.room.byUhs u = some e → e ∈ roomK c.k es ∧ u ∈ e.uhsIds) := by
  unfold ErrCache.room roomK
  rw [← hi.errs]
  by_cases hf : c.k ≠ 0 ∧ c.errs.length = c.k
  · rw [if_pos hf, if_pos hf]
    cases he : c.errs with
    | nil => rw [he] at hf; simp at hf; omega
    | cons old rest =>
      have hmem : ∀ e, e ∈ lastK c.k es → e = old ∨ e ∈ rest := by
        intro e h
        rw [← hi.errs, he] at h
        simpa using h
      refine ⟨rfl, rfl, ?_, ?_⟩
      · intro t e h
        simp only [Map.erase] at h
        split at h
        · simp at h
        · rename_i hne
          obtain ⟨h1, h2⟩ := hi.tx t e h
          rcases hmem e h1 with rfl | h1
          · exact absurd h2.symm hne
          · exact ⟨h1, h2⟩
      · intro u e h
        simp only [foldl_erase] at h
        split at h
        · simp at h
        · rename_i hne
          obtain ⟨h1, h2⟩ := hi.uhs u e h
          rcases hmem e h1 with rfl | h1
          · exact absurd h2 hne
          · exact ⟨h1, h2⟩
  · rw [if_neg hf, if_neg hf]
    exact ⟨rfl, rfl, fun t e h => by rw [hi.errs]; exact hi.tx t e h,
      fun u e h => by rw [hi.errs]; exact hi.uhs u e h⟩

theorem push1_eq (c : ErrCache) (e : TxErr) : c.push1 e =
    { c.room with
      errs := c.room.errs ++ [e]
      byTx := c.room.byTx.insert e.txId e
      byUhs := e.uhsIds.foldl (fun m u => m.insert u e) c.room.byUhs } := rfl

theorem push1_inv {c : ErrCache} {es : List TxErr} (hi : ErrInv c es) (e : TxErr) :
    (c.push1 e).k = c.k ∧ ErrInv (c.push1 e) (es ++ [e]) := by
  obtain ⟨h0, h1, h2, h3⟩ := room_spec hi
  have hlk : lastK c.k (es ++ [e]) = roomK c.k es ++ [e] := lastK_append _ _ _
  refine ⟨h0, ?_⟩
  have hk : (c.push1 e).k = c.k := h0
  constructor
  · rw [hk, hlk, push1_eq]
    simp only [h1]
  · intro t x hx
    rw [hk, hlk]
    rw [push1_eq] at hx
    simp only [Map.insert] at hx
    split at hx
    · rename_i hte
      subst hte
      cases hr : c.room.byTx e.txId with
      | none => rw [hr] at hx; simp at hx; subst hx; simp
      | some y =>
        rw [hr] at hx; simp at hx; subst hx
        have := h2 _ _ hr
        exact ⟨by simp [this.1], this.2⟩
    · have := h2 _ _ hx
      exact ⟨by simp [this.1], this.2⟩
  · intro u x hx
    rw [hk, hlk]
    rw [push1_eq] at hx
    simp only [foldl_insert] at hx
    split at hx
    · rename_i hu
      cases hr : c.room.byUhs u with
      | none => rw [hr] at hx; simp at hx; subst hx; exact ⟨by simp, hu⟩
      | some y =>
        rw [hr] at hx; simp at hx; subst hx
        have := h3 _ _ hr
        exact ⟨by simp [this.1], this.2⟩
    · have := h3 _ _ hx
      exact ⟨by simp [this.1], this.2⟩

theorem push_inv (k : Nat) (es : List TxErr) :
    ((ErrCache.new k).push es).k = k ∧ ErrInv ((ErrCache.new k).push es) es := by
  have key : ∀ (post pre : List TxErr) (c : ErrCache), ErrInv c pre →
      (c.push post).k = c.k ∧ ErrInv (c.push post) (pre ++ post) := by
    intro post
    induction post with
    | nil => intro pre c h; simpa [ErrCache.push] using h
    | cons e post ih =>
      intro pre c h
      obtain ⟨h1, h2⟩ := push1_inv h e
      obtain ⟨h3, h4⟩ := ih _ _ h2
      refine ⟨h3.trans h1, ?_⟩
      simpa [ErrCache.push] using h4
  refine key es [] (.new k) ⟨?_, ?_, ?_⟩ |>.imp id (fun h => by simpa using h)
  · simp [ErrCache.new, lastK]
  · intro t e h; simp [ErrCache.new] at h
  · intro t e h; simp [ErrCache.new] at h

/-- **C27.** Whatever a lookup by transaction id or by output id returns is one of the last `k`
errors, and was pushed for that id. -/
theorem C27_sound (k : Nat) (es : List TxErr) :
    (∀ t e, ((ErrCache.new k).push es).checkTx t = some e → e ∈ lastK k es ∧ e.txId = t) ∧
    (∀ u e, ((ErrCache.new k).push es).checkUhs u = some e → e ∈ lastK k es ∧ u ∈ e.uhsIds) := by
  obtain ⟨h1, h2⟩ := push_inv k es
  refine ⟨fun t e h => ?_, fun u e h => ?_⟩
  · have := h2.tx t e h
    rwa [h1] at this
  · have := h2.uhs u e h
    rwa [h1] at this

theorem roomK_eq (k : Nat) (l : List TxErr) : roomK k l = before k l := by
  unfold roomK before lastK
  by_cases hk : k = 0
  · simp [hk]
  · simp only [hk, if_false, List.length_drop]
    by_cases hl : k ≤ l.length
    · rw [if_pos ⟨hk, by omega⟩, List.tail_drop]
      congr 1
      omega
    · rw [if_neg (by omega)]
      congr 1
      omega

/-- The error that makes room for another. -/
theorem evicted_before {k : Nat} {pre done : List TxErr} {e old : TxErr} {rest : List TxErr}
    (hk : k ≠ 0) (hd : done.length + 1 < k) (hl : (lastK k (pre ++ e :: done)).length = k)
    (h : lastK k (pre ++ e :: done) = old :: rest) : old ∈ before k pre := by
  unfold lastK at h hl
  unfold before
  rw [if_neg hk] at h hl ⊢
  rw [List.length_drop] at hl
  simp only [List.length_append, List.length_cons] at hl h
  have hle : pre.length + (done.length + 1) - k < pre.length := by omega
  have h0 : (List.drop (pre.length + (done.length + 1) - k) (pre ++ e :: done))[0]? = some old := by
    rw [h]; rfl
  rw [List.getElem?_drop, Nat.add_zero, List.getElem?_append_left hle] at h0
  apply List.mem_of_getElem? (i := pre.length + (done.length + 1) - k - (pre.length - (k - 1)))
  rw [List.getElem?_drop, ← h0]
  congr 1
  omega

theorem stays {k : Nat} {pre : List TxErr} {e : TxErr} : ∀ (post done : List TxErr) (c : ErrCache),
    ErrInv c (pre ++ e :: done) → c.k = k → (k = 0 ∨ done.length + post.length < k) →
    (c.byTx e.txId = some e → (∀ x ∈ before k pre, x.txId ≠ e.txId) →
      (c.push post).byTx e.txId = some e) ∧
    (∀ u, c.byUhs u = some e → (∀ x ∈ before k pre, u ∉ x.uhsIds) →
      (c.push post).byUhs u = some e) := by
  intro post
  induction post with
  | nil => intro done c _ _ _; exact ⟨fun h _ => h, fun u h _ => h⟩
  | cons x post ih =>
    intro done c hi hk hlen
    obtain ⟨h1, h2⟩ := push1_inv hi x
    have hroom : (∀ y ∈ before k pre, y.txId ≠ e.txId) → c.byTx e.txId = some e →
        c.room.byTx e.txId = some e := by
      intro hb hc
      unfold ErrCache.room
      split
      · rename_i hf
        cases he : c.errs with
        | nil => simpa using hc
        | cons old rest =>
          have hold : old ∈ before k pre := by
            rw [hi.errs, hk] at he hf
            rcases hlen with h0 | hlen
            · exact absurd h0 hf.1
            · exact evicted_before hf.1 (by simp at hlen; omega) hf.2 he
          have := hb old hold
          simp only [Map.erase]
          rw [if_neg (fun h => this h.symm)]
          exact hc
      · exact hc
    have hroomU : ∀ u, (∀ y ∈ before k pre, u ∉ y.uhsIds) → c.byUhs u = some e →
        c.room.byUhs u = some e := by
      intro u hb hc
      unfold ErrCache.room
      split
      · rename_i hf
        cases he : c.errs with
        | nil => simpa using hc
        | cons old rest =>
          have hold : old ∈ before k pre := by
            rw [hi.errs, hk] at he hf
            rcases hlen with h0 | hlen
            · exact absurd h0 hf.1
            · exact evicted_before hf.1 (by simp at hlen; omega) hf.2 he
          have := hb old hold
          simp only [foldl_erase]
          rw [if_neg this]
          exact hc
      · exact hc
    have h2' : ErrInv (c.push1 x) (pre ++ e :: (done ++ [x])) := by simpa using h2
    obtain ⟨i1, i2⟩ := ih (done ++ [x]) (c.push1 x) h2' (h1.trans hk) (by
      rcases hlen with h | h
      · exact .inl h
      · right; simp at h ⊢; omega)
    constructor
    · intro hc hb
      refine i1 ?_ hb
      rw [push1_eq]
      simp only [Map.insert]
      split
      · rename_i hx
        rw [← hx, hroom hb hc]
        rfl
      · exact hroom hb hc
    · intro u hc hb
      refine i2 u ?_ hb
      rw [push1_eq]
      simp only [foldl_insert, hroomU u hb hc]
      split <;> rfl

/-- C27. Each of the last `k` errors is found by its transaction id and by its output ids, unless an
error with the same id was among the last `k` when it was pushed. -/
theorem C27_found_partial (k : Nat) (pre post : List TxErr) (e : TxErr)
    (hp : k = 0 ∨ post.length < k) :
    ((∀ x ∈ before k pre, x.txId ≠ e.txId) →
      ((ErrCache.new k).push (pre ++ e :: post)).checkTx e.txId = some e) ∧
    (∀ u ∈ e.uhsIds, (∀ x ∈ before k pre, u ∉ x.uhsIds) →
      ((ErrCache.new k).push (pre ++ e :: post)).checkUhs u = some e) := by
  have hsplit : (ErrCache.new k).push (pre ++ e :: post) =
      (((ErrCache.new k).push pre).push1 e).push post := by
    simp [ErrCache.push]
  obtain ⟨h1, h2⟩ := push_inv k pre
  obtain ⟨h3, h4⟩ := push1_inv h2 e
  obtain ⟨r0, r1, r2, r3⟩ := room_spec h2
  obtain ⟨s1, s2⟩ := stays (k := k) (pre := pre) (e := e) post [] _ h4 (h3.trans h1) (by simpa using hp)
  rw [h1, roomK_eq] at r2 r3
  rw [hsplit]
  constructor
  · intro hb
    refine s1 ?_ hb
    rw [push1_eq]
    simp only [Map.insert, if_true]
    cases hr : ((ErrCache.new k).push pre).room.byTx e.txId with
    | none => rfl
    | some y => exact absurd (r2 _ _ hr).2 (hb y (r2 _ _ hr).1)
  · intro u hu hb
    refine s2 u ?_ hb
    rw [push1_eq]
    simp only [foldl_insert, if_pos hu]
    cases hr : ((ErrCache.new k).push pre).room.byUhs u with
    | none => rfl
    | some y => exact absurd (r3 _ _ hr).2 (hb y (r3 _ _ hr).1)

/-- C27. With distinct transaction ids every one of the last `k` errors is found. -/
theorem C27_distinct_partial (k : Nat) (es : List TxErr) (hd : (es.map TxErr.txId).Nodup) :
    ∀ e ∈ lastK k es, ((ErrCache.new k).push es).checkTx e.txId = some e := by
  intro e he
  obtain ⟨i, hi⟩ := List.getElem?_of_mem he
  have hex : ∃ pre post, es = pre ++ e :: post ∧ (k = 0 ∨ post.length < k) := by
    unfold lastK at he
    split at he
    · rename_i hk
      obtain ⟨a, b, rfl⟩ := List.append_of_mem he
      exact ⟨a, b, rfl, .inl hk⟩
    · rename_i hk
      obtain ⟨a, b, hab⟩ := List.append_of_mem he
      refine ⟨es.take (es.length - k) ++ a, b, ?_, .inr ?_⟩
      · rw [List.append_assoc, ← hab, List.take_append_drop]
      · have := congrArg List.length hab
        simp at this
        omega
  obtain ⟨pre, post, rfl, hp⟩ := hex
  refine (C27_found_partial k pre post e hp).1 ?_
  intro x hx hc
  have hx' : x ∈ pre := by
    unfold before at hx
    split at hx
    · exact hx
    · exact List.mem_of_mem_drop hx
  rw [List.map_append, List.nodup_append] at hd
  exact hd.2.2 _ (List.mem_map_of_mem hx') _ (by simp) hc

end Verif.Watchtower
