import Verif.Atomizer.Props

/-! Properties C21 (blocks are consecutive and lose nothing), C60 (stored blocks),
C23 and C24 (shards). -/
namespace Verif.Atomizer

open Verif.Tx

/-! ### C21 -/

/-- The operations on an atomizer. -/
inductive Op where
  | insert (h : UInt64) (tx : CompactTx) (atts : List Nat)
  | complete (oldest : UInt64) (tx : CompactTx)
  | block

/-- What the caller of an operation sees: the error or the block, and `pending_transactions()`
(`src/uhs/atomizer/atomizer/atomizer.cpp:158-160`) afterwards. -/
structure Seen where
  op : Op
  err : Option TxErr
  block : Option Block
  pending : Nat

/-- One operation. -/
def Atm.step (a : Atm) (op : Op) : Option (Atm × Seen) :=
  match op with
  | .insert h tx atts =>
    (a.insert h tx atts).map fun r => (r.1, ⟨op, r.2, none, r.1.complete.length⟩)
  | .complete o tx => (a.insertComplete o tx).map fun r => (r.1, ⟨op, r.2, none, r.1.complete.length⟩)
  | .block => some (a.makeBlock.1, ⟨op, none, some a.makeBlock.2.1, a.makeBlock.1.complete.length⟩)

/-- A sequence of operations. -/
def Atm.run (a : Atm) : List Op → Option (Atm × List Seen)
  | [] => some (a, [])
  | op :: ops => do
    let (a', s) ← a.step op
    let (a'', ss) ← a'.run ops
    some (a'', s :: ss)

/-- The transactions an observer who starts with `n` pending ones sees being confirmed: the number
of pending transactions went up. -/
def confirmedIds : (n : Nat) → List Seen → List Hash
  | _, [] => []
  | n, s :: ss =>
    (match s.op with
      | .insert _ tx _ => if n < s.pending then [tx.id] else []
      | .complete _ tx => if n < s.pending then [tx.id] else []
      | .block => []) ++ confirmedIds s.pending ss

/-- The blocks an observer sees. -/
def blocksSeen (ss : List Seen) : List Block := ss.filterMap Seen.block

theorem insert_complete_shape {a a' : Atm} {h : UInt64} {tx : CompactTx} {atts : List Nat}
    {e : Option TxErr} (hr : a.insert h tx atts = some (a', e)) :
    a'.best = a.best ∧ (a'.complete = a.complete ∨
      (e = none ∧ ∃ t, t.id = tx.id ∧ a'.complete = a.complete ++ [t])) := by
  unfold Atm.insert at hr
  split at hr
  · simp at hr; obtain ⟨rfl, rfl⟩ := hr; exact ⟨rfl, .inl rfl⟩
  · split at hr
    · simp at hr
    · rename_i m hm
      obtain ⟨ent, hent⟩ := note_find (m := m) (tx := tx) (atts := atts)
      simp only [hent, Option.map_some, Option.getD_some] at hr
      split at hr
      · split at hr
        · simp at hr
        · simp at hr; obtain ⟨rfl, rfl⟩ := hr; exact ⟨rfl, .inl rfl⟩
        · simp only [Option.some.injEq, Prod.mk.injEq] at hr
          obtain ⟨rfl, rfl⟩ := hr
          refine ⟨rfl, .inr ⟨rfl, _, ?_, rfl⟩⟩
          have heid := (find_some hent).2
          generalize hq : (a.txs.set (a.offset h) (m.note tx atts))[(gather tx.id _ 0 [] 0).2]?.getD [] = m'
          cases hq' : TxMap.find m' tx.id with
          | none => exact heid
          | some e' => exact (find_some hq').2
      · simp at hr; obtain ⟨rfl, rfl⟩ := hr; exact ⟨rfl, .inl rfl⟩

theorem insertComplete_shape {a a' : Atm} {o : UInt64} {tx : CompactTx} {e : Option TxErr}
    (hr : a.insertComplete o tx = some (a', e)) :
    a'.best = a.best ∧ ((e ≠ none ∧ a' = a) ∨ (e = none ∧ a'.complete = a.complete ++ [tx])) := by
  unfold Atm.insertComplete at hr
  split at hr
  · simp at hr; obtain ⟨rfl, rfl⟩ := hr; exact ⟨rfl, .inl ⟨by simp, rfl⟩⟩
  · split at hr
    · simp at hr
    · simp at hr; obtain ⟨rfl, rfl⟩ := hr; exact ⟨rfl, .inl ⟨by simp, rfl⟩⟩
    · simp at hr; obtain ⟨rfl, rfl⟩ := hr; exact ⟨rfl, .inr ⟨rfl, rfl⟩⟩

/-- **C21.** Blocks carry consecutive heights; the blocks in order followed by what is pending are
exactly the transactions that were pending or seen being confirmed, in that order; and a block
leaves nothing pending. -/
theorem C21_blocks (ops : List Op) : ∀ (a a' : Atm) (ss : List Seen), a.run ops = some (a', ss) →
    (∀ (i : Nat) (b : Block), (blocksSeen ss)[i]? = some b →
      b.height = a.best + UInt64.ofNat (i + 1)) ∧
    (((blocksSeen ss).flatMap Block.txs ++ a'.complete).map CompactTx.id =
      a.complete.map CompactTx.id ++ confirmedIds a.complete.length ss) ∧
    (∀ s ∈ ss, s.block.isSome → s.pending = 0) := by
  induction ops with
  | nil =>
    intro a a' ss h
    simp [Atm.run] at h
    obtain ⟨rfl, rfl⟩ := h
    simp [blocksSeen, confirmedIds]
  | cons op ops ih =>
    intro a a' ss h
    simp only [Atm.run, Option.bind_eq_bind, Option.bind_eq_some_iff] at h
    obtain ⟨⟨a1, s⟩, h1, ⟨a2, ss'⟩, h2, h3⟩ := h
    simp at h3
    obtain ⟨rfl, rfl⟩ := h3
    obtain ⟨i1, i2, i3⟩ := ih a1 a2 ss' h2
    cases op with
    | insert ht tx atts =>
      simp only [Atm.step, Option.map_eq_some_iff] at h1
      obtain ⟨⟨a1', e⟩, hr, h1⟩ := h1
      simp at h1
      obtain ⟨rfl, rfl⟩ := h1
      obtain ⟨hb, hsh⟩ := insert_complete_shape hr
      refine ⟨fun i b hi => ?_, ?_, ?_⟩
      · rw [← hb]; exact i1 i b (by simpa [blocksSeen] using hi)
      · have : blocksSeen (⟨.insert ht tx atts, e, none, a1'.complete.length⟩ :: ss') = blocksSeen ss' := rfl
        rw [this, i2]
        simp only [confirmedIds]
        rcases hsh with hsh | ⟨_, t, hid, hsh⟩
        · simp [hsh]
        · simp [hsh, hid]
      · intro s hs
        rcases List.mem_cons.mp hs with rfl | hs
        · simp
        · exact i3 s hs
    | complete o tx =>
      simp only [Atm.step, Option.map_eq_some_iff] at h1
      obtain ⟨⟨a1', e⟩, hr, h1⟩ := h1
      simp at h1
      obtain ⟨rfl, rfl⟩ := h1
      obtain ⟨hb, hsh⟩ := insertComplete_shape hr
      refine ⟨fun i b hi => ?_, ?_, ?_⟩
      · rw [← hb]; exact i1 i b (by simpa [blocksSeen] using hi)
      · have : blocksSeen (⟨.complete o tx, e, none, a1'.complete.length⟩ :: ss') = blocksSeen ss' := rfl
        rw [this, i2]
        simp only [confirmedIds]
        rcases hsh with ⟨_, hsh⟩ | ⟨_, hsh⟩
        · simp [hsh]
        · simp [hsh]
      · intro s hs
        rcases List.mem_cons.mp hs with rfl | hs
        · simp
        · exact i3 s hs
    | block =>
      simp [Atm.step] at h1
      obtain ⟨rfl, rfl⟩ := h1
      have hbs : blocksSeen (⟨.block, none, some a.makeBlock.2.1, a.makeBlock.1.complete.length⟩ :: ss')
          = a.makeBlock.2.1 :: blocksSeen ss' := rfl
      refine ⟨fun i b hi => ?_, ?_, ?_⟩
      · rw [hbs] at hi
        cases i with
        | zero => simp at hi; subst hi; rfl
        | succ i =>
          have := i1 i b (by simpa using hi)
          rw [this]
          show a.best + 1 + UInt64.ofNat (i + 1) = a.best + UInt64.ofNat (i + 1 + 1)
          rw [UInt64.ofNat_add (i + 1) 1, UInt64.add_assoc, UInt64.add_comm 1]
          rfl
      · rw [hbs]
        simp only [List.flatMap_cons, List.append_assoc, List.map_append, confirmedIds]
        rw [← List.map_append, i2]
        simp [Atm.makeBlock]
      · intro s hs
        rcases List.mem_cons.mp hs with rfl | hs
        · intro _; rfl
        · exact i3 s hs

/-- C21. `insert_complete` adds exactly the given transaction when it reports no error, and changes
nothing when it reports one. -/
theorem C21_insert_complete {a a' : Atm} {o : UInt64} {tx : CompactTx} {e : Option TxErr}
    (hr : a.insertComplete o tx = some (a', e)) :
    (e ≠ none ∧ a' = a) ∨ (e = none ∧ a'.complete = a.complete ++ [tx] ∧ a'.best = a.best) := by
  obtain ⟨hb, h | h⟩ := insertComplete_shape hr
  · exact .inl h
  · exact .inr ⟨h.1, h.2, hb⟩

/-- A run with two blocks: the second one holds both transactions. -/
example : ((Atm.new 0 1).run [.block, .insert 1 payOn [0], .complete 1 pay, .block]).map
    (fun r => (blocksSeen r.2, confirmedIds 0 r.2)) =
    some ([⟨1, []⟩, ⟨2, [payOn, pay]⟩], [payOn.id, pay.id]) := by decide

/-! ### C60: stored blocks -/

/-- A sequence of log entries. -/
def SM.run (s : SM) : List Req → Option (SM × List (Req × Option Resp))
  | [] => some (s, [])
  | r :: rs => do
    let (s', a) ← s.commit r
    let (s'', as) ← s'.run rs
    some (s'', (r, a) :: as)

/-- The blocks that were made and not pruned since, from requests and answers alone. -/
def retained (bs : List Block) : List (Req × Option Resp) → List Block
  | [] => bs
  | (_, some (.made b _)) :: l => retained (bs ++ [b]) l
  | (.prune h, _) :: l => retained (bs.filter fun b => decide (h ≤ b.height)) l
  | _ :: l => retained bs l

/-- How many blocks were made. -/
def madeCount (l : List (Req × Option Resp)) : Nat :=
  (l.filter fun p => match p.2 with | some (.made _ _) => true | _ => false).length

structure Stored (s : SM) (bs : List Block) : Prop where
  same : s.blocks = bs.map fun b => (b.height, b)
  below : ∀ b ∈ bs, b.height.toNat ≤ s.atm.best.toNat

theorem notifyAll_stored (ms : List Agg) : ∀ (s s' : SM) (es : List TxErr),
    s.notifyAll ms = some (s', es) → s'.blocks = s.blocks ∧ s'.atm.best = s.atm.best := by
  induction ms with
  | nil => intro s s' es h; simp [SM.notifyAll] at h; obtain ⟨rfl, _⟩ := h; exact ⟨rfl, rfl⟩
  | cons m ms ih =>
    intro s s' es h
    unfold SM.notifyAll at h
    split at h
    · simp at h
    · rename_i a e he
      split at h
      · simp at h
      · rename_i s1 es1 h1
        simp at h
        obtain ⟨rfl, _⟩ := h
        obtain ⟨i1, i2⟩ := ih _ _ _ h1
        exact ⟨i1, i2.trans (insertComplete_shape he).1⟩

theorem run_stored (rs : List Req) : ∀ (s s' : SM) (bs : List Block) (l : List (Req × Option Resp)),
    Stored s bs → s.run rs = some (s', l) → s.atm.best.toNat + madeCount l < 2 ^ 64 →
    Stored s' (retained bs l) := by
  induction rs with
  | nil =>
    intro s s' bs l hs h _
    simp [SM.run] at h
    obtain ⟨rfl, rfl⟩ := h
    exact hs
  | cons r rs ih =>
    intro s s' bs l hs h hlt
    simp only [SM.run, Option.bind_eq_bind, Option.bind_eq_some_iff] at h
    obtain ⟨⟨s1, a⟩, h1, ⟨s2, l'⟩, h2, h3⟩ := h
    simp at h3
    obtain ⟨rfl, rfl⟩ := h3
    cases r with
    | notify aggs =>
      simp only [SM.commit] at h1
      split at h1
      · simp at h1
      · rename_i s' es hs'
        simp only [Option.some.injEq, Prod.mk.injEq] at h1
        obtain ⟨rfl, h1⟩ := h1
        obtain ⟨e1, e2⟩ := notifyAll_stored _ _ _ _ hs'
        have hst : Stored s' bs := ⟨e1 ▸ hs.same, fun b hb => e2 ▸ hs.below b hb⟩
        split at h1
        · subst h1
          have hfin := ih _ _ _ l' hst h2 (by rw [e2]; simpa [madeCount] using hlt)
          simpa [retained] using hfin
        · subst h1
          have hfin := ih _ _ _ l' hst h2 (by rw [e2]; simpa [madeCount] using hlt)
          simpa [retained] using hfin
    | makeBlock =>
      simp only [SM.commit, Option.some.injEq, Prod.mk.injEq] at h1
      obtain ⟨rfl, rfl⟩ := h1
      have hb1 : (s.atm.best + 1).toNat = s.atm.best.toNat + 1 := by
        rw [UInt64.toNat_add]
        simp [madeCount] at hlt ⊢
        omega
      have hnf : (s.blocks.find? fun p => p.1 == s.atm.makeBlock.2.1.height) = none := by
        rw [List.find?_eq_none]
        intro p hp
        rw [hs.same] at hp
        obtain ⟨b, hb, rfl⟩ := List.mem_map.mp hp
        have := hs.below b hb
        simp only [beq_iff_eq]
        intro hc
        have hc' : b.height = s.atm.best + 1 := hc
        rw [hc', hb1] at this
        omega
      have hst : Stored { s with
          atm := s.atm.makeBlock.1
          blocks := if (s.blocks.find? fun p => p.1 == s.atm.makeBlock.2.1.height).isSome then s.blocks
            else s.blocks ++ [(s.atm.makeBlock.2.1.height, s.atm.makeBlock.2.1)] }
          (bs ++ [s.atm.makeBlock.2.1]) := by
        refine ⟨?_, ?_⟩
        · rw [hnf]; simp [hs.same]
        · intro b hb
          rcases List.mem_append.mp hb with hb | hb
          · have := hs.below b hb
            show _ ≤ (s.atm.best + 1).toNat
            omega
          · simp at hb; subst hb; exact Nat.le_refl _
      have hfin := ih _ _ _ l' hst h2 (by
        show (s.atm.best + 1).toNat + _ < _
        rw [hb1]
        have : madeCount ((Req.makeBlock, some (.made s.atm.makeBlock.2.1 s.atm.makeBlock.2.2)) :: l') = madeCount l' + 1 := by
          simp [madeCount]
        omega)
      simpa [retained] using hfin
    | getBlock h =>
      simp only [SM.commit, Option.some.injEq, Prod.mk.injEq] at h1
      obtain ⟨rfl, rfl⟩ := h1
      cases hf : s.blocks.find? fun p => p.1 == h with
      | none =>
        rw [hf] at hlt
        have hfin := ih _ _ _ l' hs h2 (by simpa [madeCount] using hlt)
        simpa [retained] using hfin
      | some p =>
        rw [hf] at hlt
        have hfin := ih _ _ _ l' hs h2 (by simpa [madeCount] using hlt)
        simpa [retained] using hfin
    | prune h =>
      simp only [SM.commit, Option.some.injEq, Prod.mk.injEq] at h1
      obtain ⟨rfl, rfl⟩ := h1
      have hst : Stored { s with blocks := s.blocks.filter fun p => ¬ p.2.height < h }
          (bs.filter fun b => decide (h ≤ b.height)) := by
        refine ⟨?_, fun b hb => hs.below b (List.mem_filter.mp hb).1⟩
        show s.blocks.filter _ = _
        rw [hs.same, List.filter_map]
        congr 1
        apply List.filter_congr
        intro b _
        simp [UInt64.not_lt]
      have hfin := ih _ _ _ l' hst h2 (by simpa [madeCount] using hlt)
      simpa [retained] using hfin

/-- **C60.** `get_block` answers with the block made at that height if it was made and not pruned
since, and with nothing otherwise. -/
theorem C60_get_block (depth : Nat) (rs : List Req) (s : SM) (l : List (Req × Option Resp))
    (hr : (SM.new depth).run rs = some (s, l)) (hlt : madeCount l < 2 ^ 64) (h : UInt64) :
    s.commit (.getBlock h) =
      some (s, ((retained [] l).find? fun b => b.height == h).map Resp.block) := by
  have hs := run_stored rs (SM.new depth) s [] l ⟨rfl, by simp⟩ hr (by simpa [SM.new, Atm.new] using hlt)
  simp only [SM.commit, hs.same, List.find?_map]
  congr 2
  rw [Option.map_map]
  rfl

example : ((SM.new 1).run [.makeBlock, .notify [⟨pay, 1⟩], .makeBlock, .makeBlock, .prune 2,
    .getBlock 1, .getBlock 2]).map (fun r => (r.2.map Prod.snd).drop 5) =
    some [none, some (.block ⟨2, [pay]⟩)] := by decide

/-! ### C23 -/

/-- What happens to a shard. -/
inductive ShardOp where
  | block (b : Block)
  | reopen

/-- A sequence of events; the blocks for which `digest_block` returned true, in order. -/
def Shard.run (s : Shard) : List ShardOp → Shard × List Block
  | [] => (s, [])
  | .block b :: ops =>
    let r := s.digestBlock b
    let r' := r.1.run ops
    (r'.1, if r.2 then b :: r'.2 else r'.2)
  | .reopen :: ops => (Shard.openDb s.range s.disk).run ops

/-- The shard holds, in its range, what the ledger `L` says, and its snapshot is current. -/
structure Holds (r : UInt8 × UInt8) (L : Ledger) (h : Nat) (s : Shard) : Prop where
  range : s.range = r
  height : s.disk.height = some s.best
  best : s.best.toNat = h
  coins : ∀ y, owns r y = true → (s.disk.coins y = true ↔ L y)
  snap : s.snap = s.disk.coins
  snapHeight : s.snapHeight = s.best

theorem run_holds (r : UInt8 × UInt8) (ops : List ShardOp) : ∀ (s : Shard) (L : Ledger) (h : Nat),
    Holds r L h s → h + ops.length < 2 ^ 64 →
    let acc := (s.run ops).2
    Holds r (L.after (txsOf acc)) (h + acc.length) (s.run ops).1 ∧
    (∀ (i : Nat) (b : Block), acc[i]? = some b → b.height.toNat = h + i + 1) ∧
    (∀ b ∈ acc, ShardOp.block b ∈ ops) := by
  induction ops with
  | nil =>
    intro s L h hs _
    exact ⟨hs, by simp [Shard.run], by simp [Shard.run]⟩
  | cons op ops ih =>
    intro s L h hs hl
    simp only [List.length_cons] at hl
    cases op with
    | reopen =>
      have ho : Holds r L h (Shard.openDb s.range s.disk) := by
        unfold Shard.openDb
        rw [hs.height]
        exact ⟨hs.range, hs.height, hs.best, hs.coins, rfl, rfl⟩
      obtain ⟨h1, h2, h3⟩ := ih _ L h ho (by omega)
      exact ⟨h1, h2, fun b hb => List.mem_cons_of_mem _ (h3 b hb)⟩
    | block b =>
      by_cases hh : b.height ≠ s.best + 1
      · have hd : s.digestBlock b = (s, false) := by simp [Shard.digestBlock, hh]
        simp only [Shard.run, hd]
        obtain ⟨h1, h2, h3⟩ := ih _ L h hs (by omega)
        exact ⟨h1, h2, fun b hb => List.mem_cons_of_mem _ (h3 b hb)⟩
      · have hh' : b.height = s.best + 1 := Classical.not_not.mp hh
        have hb1 : (s.best + 1).toNat = h + 1 := by
          rw [UInt64.toNat_add, hs.best]
          simp
          omega
        have hd : s.digestBlock b = (({ s with
            disk := ⟨applyTxs s.range s.disk.coins b.txs, some (s.best + 1)⟩
            best := s.best + 1 } : Shard).updateSnapshot, true) := by
          simp [Shard.digestBlock, hh']
        have hn : Holds r (L.after b.txs) (h + 1) (s.digestBlock b).1 := by
          rw [hd]
          refine ⟨hs.range, rfl, hb1, ?_, rfl, rfl⟩
          intro y hy
          show applyTxs s.range s.disk.coins b.txs y = true ↔ _
          rw [hs.range]
          exact applyTxs_spec r _ _ _ (fun z hz => hs.coins z hz) y hy
        obtain ⟨h1, h2, h3⟩ := ih _ _ _ hn (by omega)
        have hrun : s.run (.block b :: ops) =
            (((s.digestBlock b).1.run ops).1, b :: ((s.digestBlock b).1.run ops).2) := by
          simp [Shard.run, hd]
        rw [hrun]
        refine ⟨?_, ?_, ?_⟩
        · have e1 : txsOf (b :: ((s.digestBlock b).1.run ops).2) =
              b.txs ++ txsOf ((s.digestBlock b).1.run ops).2 := by simp [txsOf]
          have e2 : h + (b :: ((s.digestBlock b).1.run ops).2).length =
              h + 1 + ((s.digestBlock b).1.run ops).2.length := by simp; omega
          simp only [e1, e2, after_append]
          exact h1
        · intro i b' hi
          cases i with
          | zero => simp at hi; subst hi; rw [hh', hb1]
          | succ i =>
            have := h2 i b' (by simpa using hi)
            omega
        · intro b' hb'
          rcases List.mem_cons.mp hb' with rfl | hb'
          · simp
          · exact List.mem_cons_of_mem _ (h3 b' hb')

/-- **C23.** Whatever blocks arrive, in whatever order and however often, and whenever the process
restarts: the accepted blocks are delivered blocks with heights 1, 2, ..., n; the height is n; and
the ids stored in the shard's range are exactly the seed changed by those blocks. -/
theorem C23_state (r : UInt8 × UInt8) (seed : Hash → Bool) (ops : List ShardOp)
    (hl : ops.length < 2 ^ 64) :
    let res := (Shard.openDb r ⟨seed, none⟩).run ops
    (∀ (i : Nat) (b : Block), res.2[i]? = some b → b.height.toNat = i + 1) ∧
    (∀ b ∈ res.2, ShardOp.block b ∈ ops) ∧
    res.1.best.toNat = res.2.length ∧
    (∀ y, owns r y = true → (res.1.disk.coins y = true ↔
      Ledger.after (fun x => seed x = true) (txsOf res.2) y)) ∧
    res.1.snap = res.1.disk.coins ∧ res.1.snapHeight = res.1.best := by
  have h0 : Holds r (fun x => seed x = true) 0 (Shard.openDb r ⟨seed, none⟩) :=
    ⟨rfl, rfl, rfl, fun _ _ => Iff.rfl, rfl, rfl⟩
  obtain ⟨h1, h2, h3⟩ := run_holds r ops _ _ 0 h0 (by omega)
  refine ⟨fun i b hi => ?_, h3, ?_, h1.coins, h1.snap, h1.snapHeight⟩
  · have := h2 i b hi; omega
  · have := h1.best; omega

/-- C23. A block is accepted exactly when it is the next one; otherwise nothing changes. -/
theorem C23_accept (s : Shard) (b : Block) :
    ((s.digestBlock b).2 = true ↔ b.height = s.best + 1) ∧
      ((s.digestBlock b).2 = false → (s.digestBlock b).1 = s) := by
  unfold Shard.digestBlock
  by_cases h : b.height = s.best + 1 <;> simp [h]

example : ((Shard.openDb (0, 255) ⟨fun x => decide (x = coinA), none⟩).run
    [.block ⟨2, [payOn]⟩, .block ⟨1, [pay]⟩, .block ⟨1, [pay']⟩, .reopen, .block ⟨2, [payOn]⟩]).2 =
    [⟨1, [pay]⟩, ⟨2, [payOn]⟩] := by decide

/-! #### Snapshots held by readers

`m_snp` is a `shared_ptr` whose deleter releases the LevelDB snapshot (`src/uhs/atomizer/shard/shard.cpp:177-185`);
`digest_transaction` copies it under the lock (`src/uhs/atomizer/shard/shard.cpp:108-114`) and reads through the copy. -/

/-- The snapshots not yet released with their contents, the current one, and the ids the readers
hold. -/
structure Snaps where
  live : List (Nat × (Hash → Bool))
  current : Nat
  next : Nat
  readers : List (Nat × Nat)

/-- Release a snapshot whose last owner is gone. -/
def Snaps.collect (s : Snaps) : Snaps :=
  { s with live := s.live.filter fun p => p.1 == s.current || s.readers.any fun q => q.2 == p.1 }

/-- What writer and readers do: `update_snapshot` after a write, copying the pointer, and dropping
the copy. A reader is a number. -/
inductive SnapOp where
  | update (coins : Hash → Bool)
  | acquire (reader : Nat)
  | release (reader : Nat)

/-- One step. -/
def Snaps.step (s : Snaps) : SnapOp → Snaps
  | .update c =>
    ({ s with live := (s.next, c) :: s.live, current := s.next, next := s.next + 1 } : Snaps).collect
  | .acquire t => { s with readers := (t, s.current) :: s.readers }
  | .release t => ({ s with readers := s.readers.filter fun q => q.1 != t } : Snaps).collect

/-- The content behind a snapshot. -/
def Snaps.content (s : Snaps) (i : Nat) : Option (Hash → Bool) :=
  (s.live.find? fun p => p.1 == i).map Prod.snd

theorem content_collect (s : Snaps) (i : Nat) (h : i = s.current ∨ ∃ q ∈ s.readers, q.2 = i) :
    s.collect.content i = s.content i := by
  unfold Snaps.content Snaps.collect
  congr 1
  rw [List.find?_filter]
  congr 1
  funext p
  by_cases hp : p.1 == i
  · have hp' : p.1 = i := by simpa using hp
    rcases h with h | ⟨q, hq, h⟩
    · simp [hp', h]
    · have : (s.readers.any fun q => q.2 == p.1) = true := by
        rw [List.any_eq_true]; exact ⟨q, hq, by simp [h, hp']⟩
      rw [this]; simp; rfl
  · simp [hp]

theorem collect_keys (s : Snaps) (h : ∀ p ∈ s.live, p.1 < s.next) : ∀ p ∈ s.collect.live, p.1 < s.next := by
  intro p hp
  exact h p (List.mem_filter.mp hp).1

/-- Readers hold snapshots that exist, and ids are never used twice. -/
structure Snaps.Ok (s : Snaps) : Prop where
  cur : s.current < s.next
  readers : ∀ q ∈ s.readers, q.2 < s.next
  live : ∀ p ∈ s.live, p.1 < s.next

theorem Snaps.Ok.step {s : Snaps} (h : s.Ok) (op : SnapOp) : (s.step op).Ok := by
  cases op with
  | update c =>
    refine ⟨?_, ?_, ?_⟩
    · simp [Snaps.step, Snaps.collect]
    · intro q hq
      have := h.readers q hq
      simp [Snaps.step, Snaps.collect]; omega
    · intro p hp
      have hp' := (List.mem_filter.mp hp).1
      rcases List.mem_cons.mp hp' with rfl | hp'
      · simp [Snaps.step, Snaps.collect]
      · have := h.live p hp'
        simp [Snaps.step, Snaps.collect]; omega
  | acquire t =>
    refine ⟨h.cur, ?_, h.live⟩
    intro q hq
    rcases List.mem_cons.mp hq with rfl | hq
    · exact h.cur
    · exact h.readers q hq
  | release t =>
    exact ⟨h.cur, fun q hq => h.readers q (List.mem_filter.mp hq).1, collect_keys _ h.live⟩

/-- C23. While a reader holds a snapshot, no step of the writer or of other readers changes or
releases what it reads. -/
theorem C23_snapshot_held (s : Snaps) (h : s.Ok) (ops : List SnapOp) (t i : Nat) (c : Hash → Bool)
    (hh : (t, i) ∈ s.readers) (hc : s.content i = some c) (hn : ∀ op ∈ ops, op ≠ .release t) :
    (ops.foldl Snaps.step s).content i = some c := by
  induction ops generalizing s with
  | nil => exact hc
  | cons op ops ih =>
    have hlt := h.readers _ hh
    simp only at hlt
    refine ih (s.step op) (h.step op) ?_ ?_ fun op' ho => hn op' (by simp [ho])
    · cases op with
      | update c' => exact hh
      | acquire t' => exact List.mem_cons_of_mem _ hh
      | release t' =>
        refine List.mem_filter.mpr ⟨hh, ?_⟩
        have : t' ≠ t := fun he => hn (.release t') (by simp) (by rw [he])
        simp [Ne.symm this]
    · cases op with
      | update c' =>
        show Snaps.content (Snaps.collect _) i = _
        rw [content_collect { live := (s.next, c') :: s.live, current := s.next, next := s.next + 1, readers := s.readers }
          i (.inr ⟨(t, i), hh, rfl⟩)]
        rw [← hc]
        unfold Snaps.content
        have : (s.next == i) = false := by simp; omega
        simp [this]
      | acquire t' => exact hc
      | release t' =>
        show Snaps.content (Snaps.collect _) i = _
        rw [content_collect _ i (.inr ⟨(t, i), ?_, rfl⟩)]
        · exact hc
        · refine List.mem_filter.mpr ⟨hh, ?_⟩
          have : t' ≠ t := fun he => hn (.release t') (by simp) (by rw [he])
          simp [Ne.symm this]

/-- A freshly opened database with one snapshot. -/
def Snaps.init (c : Hash → Bool) : Snaps := ⟨[(0, c)], 0, 1, []⟩

/-- The content of the newest snapshot. -/
def newest (c : Hash → Bool) : List SnapOp → (Hash → Bool)
  | [] => c
  | .update c' :: ops => newest c' ops
  | _ :: ops => newest c ops

theorem snaps_current (ops : List SnapOp) : ∀ (s : Snaps) (c : Hash → Bool), s.Ok →
    s.content s.current = some c →
    (ops.foldl Snaps.step s).Ok ∧
      (ops.foldl Snaps.step s).content (ops.foldl Snaps.step s).current = some (newest c ops) := by
  induction ops with
  | nil => intro s c h hc; exact ⟨h, hc⟩
  | cons op ops ih =>
    intro s c h hc
    cases op with
    | update c' =>
      refine ih _ c' (h.step _) ?_
      show Snaps.content (Snaps.collect _) s.next = _
      rw [content_collect { live := (s.next, c') :: s.live, current := s.next, next := s.next + 1, readers := s.readers }
        s.next (.inl rfl)]
      simp [Snaps.content]
    | acquire t => exact ih _ c (h.step _) hc
    | release t =>
      refine ih _ c (h.step _) ?_
      show Snaps.content (Snaps.collect _) s.current = _
      rw [content_collect { live := s.live, current := s.current, next := s.next, readers := s.readers.filter fun q => q.1 != t }
        s.current (.inl rfl)]
      exact hc

/-- C23. A reader that copies the pointer at any moment keeps reading exactly what had been written
by then, whatever writer and other readers do until it drops its copy. -/
theorem C23_snapshot (c : Hash → Bool) (before after : List SnapOp) (t : Nat)
    (hn : ∀ op ∈ after, op ≠ .release t) :
    (after.foldl Snaps.step ((before.foldl Snaps.step (.init c)).step (.acquire t))).content
      (before.foldl Snaps.step (.init c)).current = some (newest c before) := by
  have h0 : (Snaps.init c).Ok := ⟨by simp [Snaps.init], by simp [Snaps.init], by simp [Snaps.init]⟩
  obtain ⟨h1, h2⟩ := snaps_current before _ c h0 (by simp [Snaps.init, Snaps.content])
  exact C23_snapshot_held _ (h1.step _) after t _ _ (List.mem_cons_self ..) h2 hn

example : ((([.acquire 5, .update (fun _ => true), .update (fun _ => false)] : List SnapOp).foldl
    Snaps.step (.init fun x => decide (x = coinA))).content 0).map (· coinA) = some true := by
  decide

/-! ### C24 -/

/-- **C24.** A shard that answers with a notification lists exactly the positions of the inputs in
its range, each of which is unspent in the snapshot of the reported height; the transaction has at
least one input. -/
theorem C24_attests (s : Shard) (tx : CompactTx) (n : Notif) (h : s.digestTx tx = .inr n) :
    n.tx = tx ∧ n.height = s.snapHeight ∧ n.height ≠ 0 ∧ tx.inputs ≠ [] ∧ n.atts.Nodup ∧
    (∀ i, i ∈ n.atts ↔ ∃ x, tx.inputs[i]? = some x ∧ owns s.range x = true) ∧
    (∀ x ∈ tx.inputs, owns s.range x = true → s.snap x = true) := by
  unfold Shard.digestTx at h
  split at h
  · simp at h
  · rename_i h0
    split at h
    · simp at h
    · rename_i hne
      simp only at h
      split at h
      · simp at h
      · rename_i hd
        simp at h
        subst h
        obtain ⟨s1, s2, s3⟩ := scanInputs_spec s.range s.snap tx.inputs 0
        have hd := Classical.not_not.mp hd
        rw [s2, List.filter_eq_nil_iff] at hd
        have hall : ∀ x ∈ tx.inputs, owns s.range x = true → s.snap x = true := by
          intro x hx ho
          have := hd x hx
          simpa [ho] using this
        refine ⟨rfl, rfl, h0, hne, s3, ?_, hall⟩
        intro i
        rw [s1 i]
        constructor
        · rintro ⟨_, x, hx, ho, _⟩
          exact ⟨x, by simpa using hx, ho⟩
        · rintro ⟨x, hx, ho⟩
          exact ⟨Nat.zero_le _, x, by simpa using hx, ho, hall x (List.mem_of_getElem? hx) ho⟩

/-- C24. A shard that has seen a block and is given a transaction with inputs answers with an error
exactly when some input in its range is not unspent, and the error lists precisely those. -/
theorem C24_reports (s : Shard) (tx : CompactTx) (h0 : s.snapHeight ≠ 0) (hne : tx.inputs ≠ []) :
    (s.digestTx tx = .inl ⟨tx.id, .inputsDne (tx.inputs.filter fun x => owns s.range x && !s.snap x)⟩ ↔
      ∃ x ∈ tx.inputs, owns s.range x = true ∧ s.snap x = false) ∧
    ((¬ ∃ x ∈ tx.inputs, owns s.range x = true ∧ s.snap x = false) →
      ∃ n, s.digestTx tx = .inr n) := by
  obtain ⟨_, s2, _⟩ := scanInputs_spec s.range s.snap tx.inputs 0
  have key : (∃ x ∈ tx.inputs, owns s.range x = true ∧ s.snap x = false) ↔
      (scanInputs s.range s.snap tx.inputs 0).2 ≠ [] := by
    rw [s2, Ne, List.filter_eq_nil_iff]
    constructor
    · rintro ⟨x, hx, ho, hs⟩ hc
      exact hc x hx (by simp [ho, hs])
    · intro hc
      apply Classical.byContradiction
      intro hn
      apply hc
      intro x hx hh
      simp at hh
      exact hn ⟨x, hx, hh.1, hh.2⟩
  rw [key]
  unfold Shard.digestTx
  simp only [h0, hne, if_false]
  constructor
  · by_cases hc : (scanInputs s.range s.snap tx.inputs 0).2 ≠ []
    · rw [if_pos hc, s2]
      simp only [true_iff]
      rw [← s2]; exact hc
    · rw [if_neg hc]
      simp [hc]
  · intro hc
    rw [if_neg hc]
    exact ⟨_, rfl⟩

/-- C24. Without a block, or without inputs, the answer is an error. -/
theorem C24_refuses (s : Shard) (tx : CompactTx) (h : s.snapHeight = 0 ∨ tx.inputs = []) :
    ∃ e, s.digestTx tx = .inl e := by
  unfold Shard.digestTx
  rcases h with h | h
  · simp [h]
  · split
    · exact ⟨_, rfl⟩
    · simp

example : (((Shard.openDb (0, 1) ⟨fun x => decide (x = coinA), none⟩).digestBlock ⟨1, []⟩).1.digestTx twinA) =
    .inr ⟨twinA, [0], 1⟩ := by decide

end Verif.Atomizer
