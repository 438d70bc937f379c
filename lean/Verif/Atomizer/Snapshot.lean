import Verif.Atomizer.Blocks
import Verif.Tx.Lemmas

/-! Property C22: snapshots of the atomizer. -/
namespace Verif.Atomizer

open Verif.Tx
open Verif.Serial

/-! ### Model -/

/-- The field types of `atomizer::serialize`, `src/uhs/atomizer/atomizer/atomizer.cpp:174-182`, with `m_spent` and `m_txs` as
declared in `src/uhs/atomizer/atomizer/atomizer.hpp:119-131`. -/
def tAtm : Ty :=
  .fields tU64 (.fields tU64 (.fields (.vec tCompactTx) (.fields (.vec (.uset tHash))
    (.vec (.umap tCompactTx (.uset (.int 4)))))))

/-- `operator<<(snapshot)`, `src/uhs/atomizer/atomizer/format.cpp:24-34`: the length and bytes of the consensus library's own
record, the atomizer and the blocks. -/
def tSnapshot : Ty := .fields .buf (.fields tAtm (.umap tU64 tBlock))

/-- A compact transaction as written. -/
abbrev TxW := Bytes × List Bytes × List Bytes × List (Bytes × Bytes)
/-- An atomizer as written. -/
abbrev AtmW := Nat × Nat × List TxW × List (List Bytes) × List (List (TxW × List Nat))
/-- A block as written. -/
abbrev BlockW := Nat × List TxW

/-- The fields of an atomizer as written. -/
def Atm.wire (a : Atm) : AtmW :=
  (a.depth, a.best.toNat, a.complete.map CompactTx.wire,
    a.spent.map (fun g => g.map Subtype.val),
    a.txs.map fun (m : TxMap) => List.map (fun e => (e.1.wire, e.2)) m)

/-- `deserialize`, `src/uhs/atomizer/atomizer/atomizer.cpp:184-193`. (Keys of `m_txs` compare by id only in the C++; the model
of the decoder compares them whole. The two agree on maps whose ids are distinct, which is what the
encoder is given.) -/
def Atm.ofWire (v : AtmW) : Option Atm := do
  let complete ← v.2.2.1.mapM CompactTx.ofWire
  let spent ← v.2.2.2.1.mapM fun g => g.mapM (toArr 32)
  let txs ← v.2.2.2.2.mapM fun m => m.mapM fun e => do some (← CompactTx.ofWire e.1, e.2)
  some ⟨txs, complete, spent, UInt64.ofNat v.2.1, v.1⟩

/-- `operator<<(block)`, `src/uhs/atomizer/atomizer/format.cpp:14-17`. -/
def Block.wire (b : Block) : BlockW := (b.height.toNat, b.txs.map CompactTx.wire)
/-- `operator>>(block)`, `src/uhs/atomizer/atomizer/format.cpp:19-22`. -/
def Block.ofWire (v : BlockW) : Option Block := do
  some ⟨UInt64.ofNat v.1, ← v.2.mapM CompactTx.ofWire⟩

/-- The parts of a snapshot file. -/
def SM.fileWire (s : SM) (record : Bytes) : Bytes × AtmW × List (Nat × BlockW) :=
  (record, s.atm.wire, s.blocks.map fun p => (p.1.toNat, p.2.wire))

/-- The inverse of `fileWire`, keeping the counter. -/
def SM.ofFileWire (s : SM) (v : Bytes × AtmW × List (Nat × BlockW)) : Option SM := do
  let blocks ← v.2.2.mapM fun p => do some (UInt64.ofNat p.1, ← Block.ofWire p.2)
  let atm ← Atm.ofWire v.2.1
  some { s with atm := atm, blocks := blocks }

/-- The bytes `create_snapshot` writes to the file, `src/uhs/atomizer/atomizer/state_machine.cpp:218-242`; `record` is the
consensus library's serialized `nuraft::snapshot`. -/
def SM.snapshotFile (s : SM) (record : Bytes) : Bytes :=
  enc tSnapshot (s.fileWire record)

/-- `read_snapshot` and `apply_snapshot`, `src/uhs/atomizer/atomizer/state_machine.cpp:189-197,278-332`, or the constructor,
`src/uhs/atomizer/atomizer/state_machine.cpp:23-40`: atomizer and blocks are replaced, `m_tx_notify_count` is not. `none` is
an exit of the process. -/
def SM.restore (s : SM) (file : Bytes) : Option SM :=
  match dec tSnapshot file with
  | .ok v _ => s.ofFileWire v
  | _ => none

/-! ### Specification -/

/-- Every container fits the 64-bit length prefixes and every index 32 bits: true of anything in
memory. -/
structure SM.Fits (s : SM) : Prop where
  depth : s.atm.depth < 2 ^ 64
  complete : s.atm.complete.length < 2 ^ 64 ∧ ∀ t ∈ s.atm.complete, t.Fits
  spent : s.atm.spent.length < 2 ^ 64 ∧ ∀ g ∈ s.atm.spent, g.length < 2 ^ 64
  txs : s.atm.txs.length < 2 ^ 64 ∧ ∀ m ∈ s.atm.txs, m.length < 2 ^ 64 ∧
    ∀ e ∈ m, e.1.Fits ∧ e.2.length < 2 ^ 64 ∧ ∀ n ∈ e.2, n < 2 ^ 32
  blocks : s.blocks.length < 2 ^ 64 ∧ ∀ p ∈ s.blocks, p.2.txs.length < 2 ^ 64 ∧ ∀ t ∈ p.2.txs, t.Fits

/-- What can happen to a state machine between two points: log entries, and (in the unit tests)
direct calls of `atomizer::insert`. -/
inductive Ev where
  | req (r : Req)
  | insert (h : UInt64) (tx : CompactTx) (atts : List Nat)

/-- What the caller sees. -/
inductive Ans where
  | resp (r : Option Resp)
  | err (e : Option TxErr)
  deriving DecidableEq

/-- A sequence of events and the answers. -/
def SM.play (s : SM) : List Ev → Option (SM × List Ans)
  | [] => some (s, [])
  | .req r :: es => do
    let (s', a) ← s.commit r
    let (s'', as) ← s'.play es
    some (s'', .resp a :: as)
  | .insert h tx atts :: es => do
    let (a', e) ← s.atm.insert h tx atts
    let (s'', as) ← SM.play { s with atm := a' } es
    some (s'', .err e :: as)

/-! ### Proofs -/

/-- No container holds a key twice. -/
structure Uniq (s : SM) : Prop where
  spent : ∀ g ∈ s.atm.spent, g.Nodup
  ids : ∀ m ∈ s.atm.txs, (List.map (fun e => e.1.id) m).Nodup
  atts : ∀ m ∈ s.atm.txs, ∀ e ∈ m, e.2.Nodup
  blocks : (s.blocks.map Prod.fst).Nodup

theorem note_ids (m : TxMap) (tx : CompactTx) (atts : List Nat)
    (h : (List.map (fun e => e.1.id) m).Nodup) :
    (List.map (fun e : CompactTx × List Nat => e.1.id) (m.note tx atts)).Nodup := by
  unfold TxMap.note
  split
  · rename_i hf
    rw [List.map_append, List.nodup_append]
    refine ⟨h, by simp, ?_⟩
    intro a ha b hb
    simp at hb
    subst hb
    rintro rfl
    obtain ⟨e, he, hid⟩ := List.mem_map.mp ha
    unfold TxMap.find at hf
    rw [List.find?_eq_none] at hf
    exact hf e he (by simp [hid])
  · rw [List.map_map]
    have : (fun e : CompactTx × List Nat => e.1.id) ∘
        (fun e => if e.1.id = tx.id then (e.1, unite e.2 atts) else e) = fun e => e.1.id := by
      funext e
      simp only [Function.comp]
      split <;> rfl
    rw [this]
    exact h

theorem note_atts (m : TxMap) (tx : CompactTx) (atts : List Nat) (h : ∀ e ∈ m, e.2.Nodup) :
    ∀ e ∈ m.note tx atts, e.2.Nodup := by
  unfold TxMap.note
  split
  · intro e he
    rcases List.mem_append.mp he with he | he
    · exact h e he
    · simp at he; subst he; exact unite_nodup _ _ List.nodup_nil
  · intro e he
    obtain ⟨e', he', rfl⟩ := List.mem_map.mp he
    split
    · exact unite_nodup _ _ (h e' he')
    · exact h e' he'

theorem uniq_addSpent {s : SM} (h : Uniq s) (a : Atm) (hs : a.spent = s.atm.spent) (tx : CompactTx) :
    ∀ g ∈ (a.addSpent tx).spent, g.Nodup := by
  unfold Atm.addSpent
  simp only [hs]
  have := h.spent
  cases hsp : s.atm.spent with
  | nil => simp
  | cons g gs =>
    rw [hsp] at this
    intro g' hg'
    rcases List.mem_cons.mp hg' with rfl | hg'
    · exact unite_nodup _ _ (this g (by simp))
    · exact this g' (by simp [hg'])

theorem uniq_insertComplete {s : SM} (h : Uniq s) {o : UInt64} {tx : CompactTx} {a : Atm}
    {e : Option TxErr} (hr : s.atm.insertComplete o tx = some (a, e)) (n : Nat) :
    Uniq { s with atm := a, count := n } := by
  unfold Atm.insertComplete at hr
  split at hr
  · simp at hr; obtain ⟨rfl, _⟩ := hr; exact ⟨h.spent, h.ids, h.atts, h.blocks⟩
  · split at hr
    · simp at hr
    · simp at hr; obtain ⟨rfl, _⟩ := hr; exact ⟨h.spent, h.ids, h.atts, h.blocks⟩
    · simp at hr; obtain ⟨rfl, _⟩ := hr
      exact ⟨uniq_addSpent h s.atm rfl tx, h.ids, h.atts, h.blocks⟩

theorem uniq_notifyAll (ms : List Agg) : ∀ (s s' : SM) (es : List TxErr), Uniq s →
    s.notifyAll ms = some (s', es) → Uniq s' := by
  induction ms with
  | nil => intro s s' es h hr; simp [SM.notifyAll] at hr; obtain ⟨rfl, _⟩ := hr; exact h
  | cons m ms ih =>
    intro s s' es h hr
    unfold SM.notifyAll at hr
    split at hr
    · simp at hr
    · rename_i a e he
      split at hr
      · simp at hr
      · rename_i s1 es1 h1
        simp at hr
        obtain ⟨rfl, _⟩ := hr
        exact ih _ _ _ (uniq_insertComplete h he _) h1

theorem uniq_commit {s s' : SM} {r : Req} {a : Option Resp} (h : Uniq s)
    (hr : s.commit r = some (s', a)) : Uniq s' := by
  cases r with
  | notify ms =>
    simp only [SM.commit] at hr
    split at hr
    · simp at hr
    · rename_i s1 es h1
      simp at hr
      obtain ⟨rfl, _⟩ := hr
      exact uniq_notifyAll ms _ _ _ h h1
  | makeBlock =>
    simp only [SM.commit, Option.some.injEq, Prod.mk.injEq] at hr
    obtain ⟨rfl, _⟩ := hr
    refine ⟨?_, ?_, ?_, ?_⟩
    · intro g hg
      rcases List.mem_cons.mp hg with rfl | hg
      · exact List.nodup_nil
      · exact h.spent g (List.mem_of_mem_take hg)
    · intro m hm
      rcases List.mem_cons.mp hm with rfl | hm
      · exact List.nodup_nil
      · exact h.ids m (List.mem_of_mem_take hm)
    · intro m hm
      rcases List.mem_cons.mp hm with rfl | hm
      · simp
      · exact h.atts m (List.mem_of_mem_take hm)
    · show (List.map Prod.fst (ite _ _ _)).Nodup
      split
      · exact h.blocks
      · rename_i hn
        rw [List.map_append, List.nodup_append]
        refine ⟨h.blocks, by simp, ?_⟩
        intro a ha b hb
        simp at hb
        subst hb
        rintro rfl
        obtain ⟨p, hp, hpe⟩ := List.mem_map.mp ha
        apply hn
        rw [List.find?_isSome]
        exact ⟨p, hp, by simp [hpe]⟩
  | getBlock ht =>
    simp only [SM.commit, Option.some.injEq, Prod.mk.injEq] at hr
    obtain ⟨rfl, _⟩ := hr
    exact h
  | prune ht =>
    simp only [SM.commit, Option.some.injEq, Prod.mk.injEq] at hr
    obtain ⟨rfl, _⟩ := hr
    exact ⟨h.spent, h.ids, h.atts, h.blocks.sublist (List.Sublist.map _ List.filter_sublist)⟩

theorem uniq_insert {s : SM} {ht : UInt64} {tx : CompactTx} {atts : List Nat} {a : Atm}
    {e : Option TxErr} (h : Uniq s) (hr : s.atm.insert ht tx atts = some (a, e)) :
    Uniq { s with atm := a } := by
  unfold Atm.insert at hr
  split at hr
  · simp at hr; obtain ⟨rfl, _⟩ := hr; exact h
  · split at hr
    · simp at hr
    · rename_i m hm
      have hmm := List.mem_of_getElem? hm
      have hids : ∀ m' ∈ s.atm.txs.set (s.atm.offset ht) (m.note tx atts),
          (List.map (fun e : CompactTx × List Nat => e.1.id) m').Nodup := by
        intro m' hm'
        rcases List.mem_or_eq_of_mem_set hm' with hm' | rfl
        · exact h.ids m' hm'
        · exact note_ids _ _ _ (h.ids m hmm)
      have hatts : ∀ m' ∈ s.atm.txs.set (s.atm.offset ht) (m.note tx atts),
          ∀ e ∈ m', e.2.Nodup := by
        intro m' hm'
        rcases List.mem_or_eq_of_mem_set hm' with hm' | rfl
        · exact h.atts m' hm'
        · exact note_atts _ _ _ (h.atts m hmm)
      simp only at hr
      split at hr
      · split at hr
        · simp at hr
        · simp at hr; obtain ⟨rfl, _⟩ := hr; exact ⟨h.spent, hids, hatts, h.blocks⟩
        · simp only [Option.some.injEq, Prod.mk.injEq] at hr
          obtain ⟨rfl, _⟩ := hr
          refine ⟨uniq_addSpent h _ rfl _, ?_, ?_, h.blocks⟩
          · intro m' hm'
            obtain ⟨m'', hm'', rfl⟩ := List.mem_map.mp hm'
            exact (hids m'' hm'').sublist (List.Sublist.map _ List.filter_sublist)
          · intro m' hm'
            obtain ⟨m'', hm'', rfl⟩ := List.mem_map.mp hm'
            intro e he
            exact hatts m'' hm'' e (List.mem_filter.mp he).1
      · simp at hr; obtain ⟨rfl, _⟩ := hr; exact ⟨h.spent, hids, hatts, h.blocks⟩

theorem uniq_play (es : List Ev) : ∀ (s s' : SM) (as : List Ans), Uniq s →
    s.play es = some (s', as) → Uniq s' := by
  induction es with
  | nil => intro s s' as h hr; simp [SM.play] at hr; obtain ⟨rfl, _⟩ := hr; exact h
  | cons e es ih =>
    intro s s' as h hr
    cases e with
    | req r =>
      simp only [SM.play, Option.bind_eq_bind, Option.bind_eq_some_iff] at hr
      obtain ⟨⟨s1, a⟩, h1, ⟨s2, as'⟩, h2, h3⟩ := hr
      simp at h3
      obtain ⟨rfl, _⟩ := h3
      exact ih _ _ _ (uniq_commit h h1) h2
    | insert ht tx atts =>
      simp only [SM.play, Option.bind_eq_bind, Option.bind_eq_some_iff] at hr
      obtain ⟨⟨a1, e⟩, h1, ⟨s2, as'⟩, h2, h3⟩ := hr
      simp at h3
      obtain ⟨rfl, _⟩ := h3
      exact ih _ _ _ (uniq_insert h h1) h2

theorem uniq_new (depth : Nat) : Uniq (SM.new depth) := by
  refine ⟨?_, ?_, ?_, List.nodup_nil⟩
  · intro g hg; rw [List.eq_of_mem_replicate hg]; exact List.nodup_nil
  · intro g hg; rw [List.eq_of_mem_replicate hg]; exact List.nodup_nil
  · intro g hg; rw [List.eq_of_mem_replicate hg]; simp

theorem nodup_map_inj {α β : Type} {f : α → β} (hf : ∀ a b, f a = f b → a = b) {l : List α}
    (h : l.Nodup) : (l.map f).Nodup := by
  rw [List.Nodup, List.pairwise_map]
  exact h.imp fun hne heq => hne (hf _ _ heq)

theorem txs_wf {l : List CompactTx} (h1 : l.length < 2 ^ 64) (h2 : ∀ t ∈ l, t.Fits) :
    WF (.vec tCompactTx) (l.map CompactTx.wire) := by
  refine ⟨lt_of_len (List.length_map _) h1, ?_⟩
  intro v hv
  obtain ⟨t, ht, rfl⟩ := List.mem_map.mp hv
  exact t.wire_wf (h2 t ht)

theorem atm_wf {s : SM} (h : Uniq s) (hf : s.Fits) : WF tAtm s.atm.wire := by
  refine ⟨?_, u64_lt _, txs_wf hf.complete.1 hf.complete.2, ?_, ?_⟩
  · show s.atm.depth < 256 ^ 8
    rw [pow256_8]; exact hf.depth
  · refine ⟨lt_of_len (List.length_map _) hf.spent.1, ?_⟩
    intro v hv
    obtain ⟨g, hg, rfl⟩ := List.mem_map.mp hv
    refine ⟨lt_of_len (List.length_map _) (hf.spent.2 g hg), ?_, ?_⟩
    · exact nodup_map_inj (fun a b h => Subtype.ext h) (h.spent g hg)
    · intro x hx
      obtain ⟨y, _, rfl⟩ := List.mem_map.mp hx
      exact y.2
  · refine ⟨lt_of_len (List.length_map _) hf.txs.1, ?_⟩
    intro v hv
    obtain ⟨m, hm, rfl⟩ := List.mem_map.mp hv
    obtain ⟨f1, f2⟩ := hf.txs.2 m hm
    refine ⟨lt_of_len (List.length_map _) f1, ?_, ?_⟩
    · change ((List.map (fun e : CompactTx × List Nat => (e.1.wire, e.2)) m).map Prod.fst).Nodup
      rw [List.map_map, List.Nodup, List.pairwise_map]
      have := h.ids m hm
      rw [List.Nodup, List.pairwise_map] at this
      refine this.imp fun hne heq => hne ?_
      have := congrArg Prod.fst heq
      exact Subtype.ext this
    · intro p hp
      obtain ⟨e, he, rfl⟩ := List.mem_map.mp hp
      obtain ⟨e1, e2, e3⟩ := f2 e he
      refine ⟨e.1.wire_wf e1, e2, h.atts m hm e he, ?_⟩
      intro n hn
      have h32 : (256 : Nat) ^ 4 = 2 ^ 32 := by decide
      exact Nat.lt_of_lt_of_eq (e3 n hn) h32.symm

theorem blocks_wf {s : SM} (h : Uniq s) (hf : s.Fits) :
    WF (.umap tU64 tBlock) (s.blocks.map fun p => (p.1.toNat, p.2.wire)) := by
  refine ⟨lt_of_len (List.length_map _) hf.blocks.1, ?_, ?_⟩
  · change ((s.blocks.map fun p => (p.1.toNat, p.2.wire)).map Prod.fst).Nodup
    rw [List.map_map, List.Nodup, List.pairwise_map]
    have := h.blocks
    rw [List.Nodup, List.pairwise_map] at this
    refine this.imp fun hne heq => hne (UInt64.toNat_inj.mp heq)
  · intro p hp
    obtain ⟨q, hq, rfl⟩ := List.mem_map.mp hp
    exact ⟨u64_lt _, u64_lt _, txs_wf (hf.blocks.2 q hq).1 (hf.blocks.2 q hq).2⟩

theorem Atm.ofWire_wire (a : Atm) : Atm.ofWire a.wire = some a := by
  obtain ⟨txs, complete, spent, best, depth⟩ := a
  simp only [Atm.ofWire, Atm.wire]
  rw [mapM_inverse _ _ CompactTx.ofWire_wire,
    mapM_inverse (fun g : List Hash => g.map Subtype.val) _ (fun g => mapM_inverse _ (toArr 32) toArr_val g),
    mapM_inverse (fun (m : TxMap) => List.map (fun e => (e.1.wire, e.2)) m) _
      (fun m => mapM_inverse _ _ (fun e : CompactTx × List Nat => by
        simp [CompactTx.ofWire_wire]) m)]
  simp

theorem Block.ofWire_wire (b : Block) : Block.ofWire b.wire = some b := by
  obtain ⟨h, txs⟩ := b
  simp only [Block.ofWire, Block.wire]
  rw [mapM_inverse _ _ CompactTx.ofWire_wire]
  simp

theorem restore_file {s : SM} (h : Uniq s) (hf : s.Fits) (r : Bytes) (hr : r.length ≤ maxBuf)
    (junk : Bytes) (t : SM) :
    t.restore (s.snapshotFile r ++ junk) = some { s with count := t.count } := by
  have hrt := roundtrip tSnapshot (s.fileWire r) ⟨hr, atm_wf h hf, blocks_wf h hf⟩ junk
  unfold SM.restore SM.snapshotFile
  rw [hrt]
  show SM.ofFileWire t (s.fileWire r) = _
  unfold SM.ofFileWire SM.fileWire
  simp only
  rw [mapM_inverse (fun p : UInt64 × Block => (p.1.toNat, p.2.wire)) _
    (fun p => by rw [Block.ofWire_wire]; simp)]
  rw [Atm.ofWire_wire]
  rfl

theorem notifyAll_count (ms : List Agg) : ∀ (s : SM) (c : Nat),
    ∃ c', SM.notifyAll { s with count := c } ms =
      (s.notifyAll ms).map fun r => ({ r.1 with count := c' }, r.2) := by
  induction ms with
  | nil => intro s c; exact ⟨c, rfl⟩
  | cons m ms ih =>
    intro s c
    unfold SM.notifyAll
    simp only
    split
    · exact ⟨0, rfl⟩
    · rename_i a e he
      obtain ⟨c', hc'⟩ := ih { s with atm := a, count := s.count + 1 } (c + 1)
      refine ⟨c', ?_⟩
      simp only at hc'
      rw [hc']
      cases SM.notifyAll { s with atm := a, count := s.count + 1 } ms <;> rfl

theorem commit_count (s : SM) (c : Nat) (r : Req) :
    ∃ c', SM.commit { s with count := c } r =
      (s.commit r).map fun x => ({ x.1 with count := c' }, x.2) := by
  cases r with
  | notify ms =>
    obtain ⟨c', hc'⟩ := notifyAll_count ms s c
    refine ⟨c', ?_⟩
    simp only [SM.commit]
    rw [hc']
    cases s.notifyAll ms <;> rfl
  | makeBlock => exact ⟨c, rfl⟩
  | getBlock h => exact ⟨c, rfl⟩
  | prune h => exact ⟨c, rfl⟩

theorem play_count (es : List Ev) : ∀ (s : SM) (c : Nat),
    ∃ c', SM.play { s with count := c } es =
      (s.play es).map fun x => ({ x.1 with count := c' }, x.2) := by
  induction es with
  | nil => intro s c; exact ⟨c, rfl⟩
  | cons e es ih =>
    intro s c
    cases e with
    | req r =>
      obtain ⟨c1, h1⟩ := commit_count s c r
      simp only [SM.play, h1]
      cases hc : s.commit r with
      | none => exact ⟨0, rfl⟩
      | some x =>
        obtain ⟨c2, h2⟩ := ih x.1 c1
        refine ⟨c2, ?_⟩
        simp only [Option.map_some, Option.bind_eq_bind, Option.bind_some, h2]
        cases x.1.play es <;> rfl
    | insert ht tx atts =>
      simp only [SM.play]
      cases hc : s.atm.insert ht tx atts with
      | none => exact ⟨0, rfl⟩
      | some x =>
        obtain ⟨c2, h2⟩ := ih { s with atm := x.1 } c
        refine ⟨c2, ?_⟩
        simp only [Option.bind_eq_bind, Option.bind_some, h2]
        cases SM.play { s with atm := x.1 } es <;> rfl

/-! ### C22 -/

/-- **C22.** Take a state machine at any point of any history, write its snapshot, and read the file
back in any other node (whatever that node held before): the node answers every later sequence of
log entries and insertions exactly as the original does. -/
theorem C22_snapshot (depth : Nat) (past : List Ev) (s : SM) (as : List Ans)
    (hpast : (SM.new depth).play past = some (s, as)) (hf : s.Fits) (record : Bytes)
    (hrec : record.length ≤ maxBuf) (node : SM) :
    ∃ s', node.restore (s.snapshotFile record) = some s' ∧ s'.atm = s.atm ∧ s'.blocks = s.blocks ∧
      ∀ future, (s'.play future).map Prod.snd = (s.play future).map Prod.snd := by
  have hu := uniq_play past _ _ _ (uniq_new depth) hpast
  have hr := restore_file hu hf record hrec [] node
  rw [List.append_nil] at hr
  refine ⟨_, hr, rfl, rfl, ?_⟩
  intro future
  obtain ⟨c', hc'⟩ := play_count future s node.count
  rw [hc']
  cases s.play future <;> rfl

/-- C22. The count of notifications is not part of a snapshot: a restored node reports its own. -/
theorem C22_count_lost_violated : ∃ (s node s' : SM), (SM.new 1).commit (.notify [⟨pay, 0⟩]) = some (s, none) ∧
    s.count = 1 ∧ node = SM.new 1 ∧ node.restore (s.snapshotFile []) = some s' ∧ s'.count = 0 := by
  have h : (SM.new 1).play [.req (.notify [⟨pay, 0⟩])] =
      some (⟨⟨[[], []], [pay], [pay.inputs, []], 0, 1⟩, [], 1⟩, [.resp none]) := by decide
  have hu := uniq_play _ _ _ _ (uniq_new 1) h
  have hf : SM.Fits ⟨⟨[[], []], [pay], [pay.inputs, []], 0, 1⟩, [], 1⟩ := by
    refine ⟨by decide, ⟨by decide, ?_⟩, ⟨by decide, ?_⟩, ⟨by decide, ?_⟩, ⟨by decide, ?_⟩⟩
    · intro t ht; simp at ht; subst ht
      exact ⟨by decide, by decide, by decide, by decide⟩
    · intro g hg; simp at hg; rcases hg with rfl | rfl <;> decide
    · intro m hm; simp at hm; subst hm; exact ⟨by decide, by simp⟩
    · simp
  have hr := restore_file hu hf [] (Nat.zero_le _) [] (SM.new 1)
  rw [List.append_nil] at hr
  exact ⟨_, _, _, by decide, rfl, rfl, hr, rfl⟩

/-- A history with a pending, a confirmed and a stored transaction. -/
example : (((SM.new 1).play [.insert 0 twinA [0], .req (.notify [⟨pay, 0⟩]), .req .makeBlock,
    .req (.notify [⟨payOn, 1⟩])]).map fun r => (r.1.atm.complete, r.1.blocks.length)) =
    some ([payOn], 1) := by decide

end Verif.Atomizer
