import Verif.Watchtower.Props
import Verif.Atomizer.Props

/-! The answers of the watchtower (C26, C27) and the order in which it sees blocks (C63). -/
namespace Verif.Watchtower

open Verif.Tx Verif.Atomizer

/-- What reaches a watchtower. -/
inductive Ev where
  | block (b : Block)
  | errors (es : List TxErr)

/-- One event. -/
def Tower.step (w : Tower) : Ev → Tower
  | .block b => w.addBlock b
  | .errors es => w.addErrors es

/-- The blocks among the events. -/
def blocks (evs : List Ev) : List Block :=
  evs.filterMap fun | .block b => some b | .errors _ => none

/-- The errors among the events. -/
def errors (evs : List Ev) : List TxErr :=
  evs.flatMap fun | .block _ => [] | .errors es => es

theorem run_parts (evs : List Ev) : ∀ w : Tower, ∃ es, (∀ e ∈ es, e ∈ errors evs) ∧
    evs.foldl Tower.step w = ⟨w.bc.pushAll (blocks evs), w.ec.push es⟩ := by
  induction evs with
  | nil => intro w; exact ⟨[], by simp, rfl⟩
  | cons ev evs ih =>
    intro w
    obtain ⟨es, h1, h2⟩ := ih (w.step ev)
    cases ev with
    | block b =>
      refine ⟨es, by simpa [errors] using h1, ?_⟩
      rw [List.foldl_cons, h2]
      rfl
    | errors es0 =>
      refine ⟨(es0.filter fun e => !w.repeated e) ++ es, ?_, ?_⟩
      · intro e he
        simp only [errors, List.flatMap_cons]
        rcases List.mem_append.mp he with he | he
        · exact List.mem_append.mpr (.inl (List.mem_filter.mp he).1)
        · exact List.mem_append.mpr (.inr (h1 e he))
      · rw [List.foldl_cons, h2]
        simp [Tower.step, Tower.addErrors, ErrCache.push, blocks]

theorem flatMap_unique {α β} (f : α → List β) : ∀ (l : List α), (l.flatMap f).Nodup →
    ∀ p ∈ l, ∀ q ∈ l, ∀ u, u ∈ f p → u ∈ f q → p = q := by
  intro l
  induction l with
  | nil => intro _ p hp; simp at hp
  | cons a l ih =>
    intro hn p hp q hq u hu hv
    rw [List.flatMap_cons, List.nodup_append] at hn
    rcases List.mem_cons.mp hp with hp' | hp' <;> rcases List.mem_cons.mp hq with hq' | hq'
    · rw [hp', hq']
    · subst hp'; exact absurd rfl (hn.2.2 u hu u (List.mem_flatMap.mpr ⟨q, hq', hv⟩))
    · subst hq'; exact absurd rfl (hn.2.2 u hv u (List.mem_flatMap.mpr ⟨p, hp', hu⟩))
    · exact ih hn.2.1 p hp' q hq' u hu hv

theorem spender_mem {l : List (UInt64 × CompactTx)} (hl : Ledger l) {h : UInt64} {tx u : Hash} :
    spender l u = some (h, tx) ↔ ∃ t, (h, t) ∈ l ∧ t.id = tx ∧ u ∈ t.inputs := by
  constructor
  · intro hs
    unfold spender at hs
    cases hf : l.find? fun p => decide (u ∈ p.2.inputs) with
    | none => rw [hf] at hs; simp at hs
    | some p =>
      rw [hf] at hs
      simp at hs
      have := List.find?_some hf
      exact ⟨p.2, by rw [← hs.1]; exact List.mem_of_find?_eq_some hf, hs.2, by simpa using this⟩
  · rintro ⟨t, h1, h2, h3⟩
    unfold spender
    cases hf : l.find? fun p => decide (u ∈ p.2.inputs) with
    | none =>
      rw [List.find?_eq_none] at hf
      exact absurd h3 (by simpa using hf _ h1)
    | some p =>
      have h4 : u ∈ p.2.inputs := by simpa using List.find?_some hf
      have := flatMap_unique (fun p => p.2.inputs) l hl.spentOnce p (List.mem_of_find?_eq_some hf) (h, t) h1 u h4 h3
      subst this
      simp [h2]

theorem creator_mem {l : List (UInt64 × CompactTx)} (hl : Ledger l) {h : UInt64} {tx u : Hash} :
    creator l u = some (h, tx) ↔ ∃ t, (h, t) ∈ l ∧ t.id = tx ∧ u ∈ t.uhsOutputs := by
  constructor
  · intro hs
    unfold creator at hs
    cases hf : l.find? fun p => decide (u ∈ p.2.uhsOutputs) with
    | none => rw [hf] at hs; simp at hs
    | some p =>
      rw [hf] at hs
      simp at hs
      have := List.find?_some hf
      exact ⟨p.2, by rw [← hs.1]; exact List.mem_of_find?_eq_some hf, hs.2, by simpa using this⟩
  · rintro ⟨t, h1, h2, h3⟩
    unfold creator
    cases hf : l.find? fun p => decide (u ∈ p.2.uhsOutputs) with
    | none =>
      rw [List.find?_eq_none] at hf
      exact absurd h3 (by simpa using hf _ h1)
    | some p =>
      have h4 : u ∈ p.2.uhsOutputs := by simpa using List.find?_some hf
      have := flatMap_unique (fun p => p.2.uhsOutputs) l hl.createdOnce p (List.mem_of_find?_eq_some hf) (h, t) h1 u h4 h3
      subst this
      simp [h2]

/-- The blocks `l` say that transaction `tx` spends `u` at height `h`. -/
def SpentBy (l : List (UInt64 × CompactTx)) (tx u : Hash) (h : UInt64) : Prop :=
  ∃ t, (h, t) ∈ l ∧ t.id = tx ∧ u ∈ t.inputs

/-- The blocks `l` say that transaction `tx` created `u` at height `h` and nothing spends it. -/
def UnspentBy (l : List (UInt64 × CompactTx)) (tx u : Hash) (h : UInt64) : Prop :=
  (∃ t, (h, t) ∈ l ∧ t.id = tx ∧ u ∈ t.uhsOutputs) ∧ ∀ p ∈ l, u ∉ p.2.inputs

theorem lastK_ledger {bs : List Block} (k : Nat) (h : Ledger (entries bs)) :
    Ledger (entries (lastK k bs)) := by
  unfold lastK
  split
  · exact h
  · rw [← List.take_append_drop (bs.length - k) bs, entries_append] at h
    exact h.drop

theorem no_error {k : Nat} {es : List TxErr} {tx : Hash} (h : ∀ e ∈ es, e.txId ≠ tx) :
    ((ErrCache.new k).push es).checkTx tx = none := by
  cases hc : ((ErrCache.new k).push es).checkTx tx with
  | none => rfl
  | some e =>
    obtain ⟨h1, h2⟩ := (C27_sound k es).1 tx e hc
    have : e ∈ es := by
      unfold lastK at h1
      split at h1
      · exact h1
      · exact List.mem_of_mem_drop h1
    exact absurd h2 (h e this)

/-- C26. A query about a transaction for which no error was reported gets exactly one answer for each
output id, in order: spent when one of the last blocks holds the transaction with that input, unspent
when one of them holds it with that output and none spends the output, and no history otherwise.
Missing from the full claim: an output of the transaction that another one spent is answered with
"no history" (`C26_spent_output_violated`), and transactions with an error get several answers
(`C26_two_answers_violated`). -/
theorem C26_answers_partial (kb ke : Nat) (evs : List Ev) (tx : Hash) (us : List Hash)
    (hl : Ledger (entries (blocks evs))) (he : ∀ e ∈ errors evs, e.txId ≠ tx) :
    ∃ f : Hash → Answer, (evs.foldl Tower.step (.new kb ke)).query tx us = us.map f ∧ ∀ u,
      (f u).uhs = u ∧
      (∀ h, (f u).status = .spent ∧ (f u).height = h ↔ SpentBy (entries (lastK kb (blocks evs))) tx u h) ∧
      (∀ h, (f u).status = .unspent ∧ (f u).height = h ↔
        UnspentBy (entries (lastK kb (blocks evs))) tx u h) ∧
      ((f u).status = .spent ∨ (f u).status = .unspent ∨ (f u).status = .noHistory) := by
  obtain ⟨es, h1, h2⟩ := run_parts evs (.new kb ke)
  rw [h2]
  have hne : ((ErrCache.new ke).push es).checkTx tx = none :=
    no_error fun e hm => he e (h1 e hm)
  have hL := lastK_ledger kb hl
  generalize hw : (⟨(BlockCache.new kb).pushAll (blocks evs), (ErrCache.new ke).push es⟩ : Tower) = w
  have hbc : ∀ u, w.bc.checkSpent u = spender (entries (lastK kb (blocks evs))) u ∧
      w.bc.checkUnspent u = if (spender (entries (lastK kb (blocks evs))) u).isSome then none
        else creator (entries (lastK kb (blocks evs))) u := by
    subst hw
    exact C26_block_cache kb (blocks evs) hl
  generalize entries (lastK kb (blocks evs)) = L at hbc hL
  have hq : (Tower.mk ((Tower.new kb ke).bc.pushAll (blocks evs)) ((Tower.new kb ke).ec.push es)).query
      tx us = us.flatMap (w.status1 tx false false w.bc.best) := by
    subst hw
    have hne' : (Tower.mk ((Tower.new kb ke).bc.pushAll (blocks evs))
      ((Tower.new kb ke).ec.push es)).ec.checkTx tx = none := hne
    unfold Tower.query
    rw [hne']
    rfl
  let f : Hash → Answer := fun u =>
    match spender L u with
    | some (h, t) => if t = tx then ⟨.spent, h, u⟩ else ⟨.noHistory, w.bc.best, u⟩
    | none =>
      match creator L u with
      | some (h, t) => if t = tx then ⟨.unspent, h, u⟩ else ⟨.noHistory, w.bc.best, u⟩
      | none => ⟨.noHistory, w.bc.best, u⟩
  refine ⟨f, ?_, ?_⟩
  · rw [hq]
    have : ∀ u, w.status1 tx false false w.bc.best u = [f u] := by
      intro u
      unfold Tower.status1 Tower.fromBlocks
      rw [(hbc u).1, (hbc u).2]
      simp only [f]
      cases hs : spender L u with
      | some p =>
        obtain ⟨h, t⟩ := p
        by_cases ht : t = tx <;> simp [ht]
      | none =>
        cases hc : creator L u with
        | some p =>
          obtain ⟨h, t⟩ := p
          by_cases ht : t = tx <;> simp [ht]
        | none => simp
    have hfun : w.status1 tx false false w.bc.best = fun u => [f u] := funext this
    rw [hfun, List.map_eq_flatMap]
  · intro u
    unfold SpentBy UnspentBy
    simp only [← spender_mem hL, ← creator_mem hL, ← spender_none]
    cases hs : spender L u with
    | some p =>
      obtain ⟨h, t⟩ := p
      by_cases ht : t = tx
      · simp [f, hs, ht]
      · simp [f, hs, ht]
    | none =>
      cases hc : creator L u with
      | some p =>
        obtain ⟨h, t⟩ := p
        by_cases ht : t = tx
        · simp [f, hs, hc, ht]
        · simp [f, hs, hc, ht]
      | none => simp [f, hs, hc]

/-- Two blocks, the second spending the output of the first. -/
def twoBlocks : List Ev := [.block ⟨1, [pay]⟩, .block ⟨2, [payOn]⟩]

/-- The hypotheses of `C26_answers_partial` and of `C26_block_cache` hold of a real history. -/
theorem twoBlocks_ledger : Ledger (entries (blocks twoBlocks)) where
  spentOnce := by decide
  createdOnce := by decide
  order := by decide
  order' := by decide

example : (twoBlocks.foldl Tower.step (.new 0 0)).query payOn.id [coinB, fill 32 4, coinA] =
    [⟨.spent, 2, coinB⟩, ⟨.unspent, 2, fill 32 4⟩, ⟨.noHistory, 2, coinA⟩] := by decide

example : (twoBlocks.foldl Tower.step (.new 1 0)).query pay.id [coinA] =
    [⟨.noHistory, 2, coinA⟩] := by decide

/-- C26. Asked about an output by the transaction that created it, the watchtower answers "no
history" although its blocks hold both the creation and the spend. -/
theorem C26_spent_output_violated :
    (twoBlocks.foldl Tower.step (.new 0 0)).query pay.id [coinB] = [⟨.noHistory, 2, coinB⟩] ∧
    (twoBlocks.foldl Tower.step (.new 0 0)).bc.checkSpent coinB = some (2, payOn.id) := by decide

/-- C26. A transaction for which an error was reported before its block arrived gets two answers for
the same output, one that it is rejected and one that it is confirmed. -/
theorem C26_two_answers_violated :
    ([.errors [⟨pay.id, .inputsSpent [coinA]⟩], .block ⟨1, [pay]⟩].foldl Tower.step (.new 0 0)).query
      pay.id [coinA, coinB] =
      [⟨.invalidInput, 1, coinA⟩, ⟨.spent, 1, coinA⟩, ⟨.txRejected, 1, coinB⟩, ⟨.unspent, 1, coinB⟩] := by
  decide

/-- C27. An error pushed while an older one for the same transaction is cached is lost when the older
one goes: with room for two, it is still among the last two but cannot be found. -/
theorem C27_violated :
    let e1 : TxErr := ⟨pay.id, .sync⟩
    let e2 : TxErr := ⟨pay.id, .inputsSpent [coinA]⟩
    let e3 : TxErr := ⟨payOn.id, .sync⟩
    e2 ∈ lastK 2 [e1, e2, e3] ∧ ((ErrCache.new 2).push [e1, e2, e3]).checkTx pay.id = none := by
  decide

example : (∀ x ∈ before 2 [(⟨pay.id, .sync⟩ : TxErr), ⟨payOn.id, .sync⟩], x.txId ≠ pay.id) := by
  decide

/-- C27. A transaction that no block holds and that was rejected with a cached error is answered once
for each output id: an internal error if the reason was a shard out of step or too old an
attestation, otherwise "invalid input" for an id that a cached error names and "rejected" for the
others. -/
theorem C27_answers (kb ke : Nat) (evs : List Ev) (e : TxErr) (us : List Hash)
    (hl : Ledger (entries (blocks evs))) (hb : ∀ b ∈ blocks evs, ∀ t ∈ b.txs, t.id ≠ e.txId)
    (he : (evs.foldl Tower.step (.new kb ke)).ec.checkTx e.txId = some e) :
    (evs.foldl Tower.step (.new kb ke)).query e.txId us = us.map fun u =>
      ⟨if e.info = .sync ∨ e.info = .stxoRange then .internalError
        else if ((evs.foldl Tower.step (.new kb ke)).ec.checkUhs u).isSome then .invalidInput
        else .txRejected, (evs.foldl Tower.step (.new kb ke)).bestHeight, u⟩ := by
  obtain ⟨es, h1, h2⟩ := run_parts evs (.new kb ke)
  rw [h2] at he ⊢
  generalize hw : (⟨(Tower.new kb ke).bc.pushAll (blocks evs), (Tower.new kb ke).ec.push es⟩ : Tower) = w at he ⊢
  have hbc : ∀ u, w.bc.checkSpent u = spender (entries (lastK kb (blocks evs))) u ∧
      w.bc.checkUnspent u = if (spender (entries (lastK kb (blocks evs))) u).isSome then none
        else creator (entries (lastK kb (blocks evs))) u := by
    subst hw
    exact C26_block_cache kb (blocks evs) hl
  have hL := lastK_ledger kb hl
  have hid : ∀ p ∈ entries (lastK kb (blocks evs)), p.2.id ≠ e.txId := by
    intro p hp
    unfold entries at hp
    obtain ⟨b, hb1, hb2⟩ := List.mem_flatMap.mp hp
    obtain ⟨t, ht, rfl⟩ := List.mem_map.mp hb2
    refine hb b ?_ t ht
    unfold lastK at hb1
    split at hb1
    · exact hb1
    · exact List.mem_of_mem_drop hb1
  generalize entries (lastK kb (blocks evs)) = L at hbc hL hid
  have hno : ∀ u, w.fromBlocks e.txId u = [] := by
    intro u
    unfold Tower.fromBlocks
    rw [(hbc u).1, (hbc u).2]
    cases hs : spender L u with
    | some p =>
      obtain ⟨h, t⟩ := p
      obtain ⟨t', k1, k2, _⟩ := (spender_mem hL).mp hs
      have : t ≠ e.txId := by rw [← k2]; exact hid _ k1
      simp [this]
    | none =>
      cases hc : creator L u with
      | none => simp
      | some p =>
        obtain ⟨h, t⟩ := p
        obtain ⟨t', k1, k2, _⟩ := (creator_mem hL).mp hc
        have : t ≠ e.txId := by rw [← k2]; exact hid _ k1
        simp [this]
  unfold Tower.query Tower.statuses
  rw [he, List.map_eq_flatMap]
  simp only
  congr 1
  funext u
  unfold Tower.status1
  rw [hno u]
  obtain ⟨id, info⟩ := e
  unfold Tower.bestHeight
  cases info <;> simp <;> split <;> rfl

/-- C27. An error about an output that a cached block shows the same transaction to have spent or
created is ignored: a confirmed transaction does not become rejected. Any other error is cached. -/
theorem C27_repeated (kb ke : Nat) (evs : List Ev) (e : TxErr) (hl : Ledger (entries (blocks evs))) :
    ((∃ u ∈ e.uhsIds, ∃ h, SpentBy (entries (lastK kb (blocks evs))) e.txId u h ∨
        UnspentBy (entries (lastK kb (blocks evs))) e.txId u h) →
      (evs.foldl Tower.step (.new kb ke)).addErrors [e] = evs.foldl Tower.step (.new kb ke)) ∧
    ((∀ u ∈ e.uhsIds, ∀ h, ¬ SpentBy (entries (lastK kb (blocks evs))) e.txId u h ∧
        ¬ UnspentBy (entries (lastK kb (blocks evs))) e.txId u h) →
      ((evs.foldl Tower.step (.new kb ke)).addErrors [e]).ec =
        (evs.foldl Tower.step (.new kb ke)).ec.push [e]) := by
  obtain ⟨es, h1, h2⟩ := run_parts evs (.new kb ke)
  have hbc : ∀ u, (evs.foldl Tower.step (.new kb ke)).bc.checkSpent u =
        spender (entries (lastK kb (blocks evs))) u ∧
      (evs.foldl Tower.step (.new kb ke)).bc.checkUnspent u =
        if (spender (entries (lastK kb (blocks evs))) u).isSome then none
        else creator (entries (lastK kb (blocks evs))) u := by
    rw [h2]
    exact C26_block_cache kb (blocks evs) hl
  have hL := lastK_ledger kb hl
  generalize evs.foldl Tower.step (.new kb ke) = w at hbc
  generalize entries (lastK kb (blocks evs)) = L at hbc hL
  have hrep : w.repeated e = true ↔ ∃ u ∈ e.uhsIds, ∃ h, SpentBy L e.txId u h ∨ UnspentBy L e.txId u h := by
    unfold Tower.repeated SpentBy UnspentBy
    rw [List.any_eq_true]
    simp only [← spender_mem hL, ← creator_mem hL, ← spender_none]
    apply exists_congr
    intro u
    apply and_congr_right
    intro _
    rw [(hbc u).1, (hbc u).2]
    cases hs : spender L u with
    | some p =>
      obtain ⟨h, t⟩ := p
      simp
      exact ⟨fun h => (Subtype.ext h).symm, fun h => by rw [h]⟩
    | none =>
      cases hc : creator L u with
      | some p =>
        obtain ⟨h, t⟩ := p
        simp
        exact ⟨fun h => (Subtype.ext h).symm, fun h => by rw [h]⟩
      | none => simp
  constructor
  · intro h
    have := hrep.mpr h
    simp [Tower.addErrors, this, ErrCache.push]
  · intro h
    have : w.repeated e = false := by
      cases hr : w.repeated e with
      | false => rfl
      | true =>
        obtain ⟨u, hu, k, hk⟩ := hrep.mp hr
        rcases hk with hk | hk
        · exact absurd hk (h u hu k).1
        · exact absurd hk (h u hu k).2
    simp [Tower.addErrors, this]

example : SpentBy (entries (lastK 1 (blocks twoBlocks))) payOn.id coinB 2 :=
  ⟨payOn, by decide, rfl, by decide⟩

/-! ### C63 -/

/-- What the archiver of a chain answers to the requests of a handler that has seen `last`; `false`
where it does not have the block yet. -/
def archiverAnswers (chain : UInt64 → Block) (last : UInt64) : List Bool → List (Option Block)
  | [] => []
  | true :: as => some (chain (last + 1)) :: archiverAnswers chain (last + 1) as
  | false :: as => none :: archiverAnswers chain last as

/-- The first `n` blocks of a chain. -/
def firstBlocks (chain : UInt64 → Block) (n : Nat) : List Block :=
  (List.range n).map fun i => chain (UInt64.ofNat (i + 1))

/-- The watchtower has seen exactly the first blocks of the chain, up to its last height, each once
and in order. -/
def Follows (chain : UInt64 → Block) (kb : Nat) (c : Ctl) : Prop :=
  c.tower.bc = (BlockCache.new kb).pushAll (firstBlocks chain c.last.toNat)

theorem follows_add {chain : UInt64 → Block} {kb : Nat} {c : Ctl} (hf : Follows chain kb c)
    (hc : ∀ h, (chain h).height = h) (hlt : c.last.toNat + 1 < 2 ^ 64) {b : Block}
    (hb : b = chain (c.last + 1)) : Follows chain kb ⟨b.height, c.tower.addBlock b⟩ ∧
      b.height.toNat = c.last.toNat + 1 := by
  have hn : (c.last + 1).toNat = c.last.toNat + 1 := by
    rw [UInt64.toNat_add]; simp; omega
  subst hb
  refine ⟨?_, by rw [hc, hn]⟩
  unfold Follows
  simp only [hc, hn]
  show c.tower.bc.push _ = _
  rw [hf]
  simp [firstBlocks, List.range_succ, BlockCache.pushAll]

/-- **C63.** Whatever block of the chain arrives and however the archiver delays its answers, the
watchtower sees the blocks of the chain one by one, each exactly once; when the handler returns the
last one is the block that arrived. -/
theorem C63_follows (chain : UInt64 → Block) (kb : Nat) (hc : ∀ h, (chain h).height = h) (h : UInt64)
    (as : List Bool) : ∀ c : Ctl, Follows chain kb c → c.last.toNat + as.length + 1 < 2 ^ 64 →
    (∃ c', c.handle (chain h) (archiverAnswers chain c.last as) = .inl c' ∧ Follows chain kb c') ∨
    (∃ c' rest, c.handle (chain h) (archiverAnswers chain c.last as) = .inr (c', rest) ∧
      Follows chain kb c' ∧ c'.last = h) := by
  induction as with
  | nil =>
    intro c hf hlt
    unfold archiverAnswers Ctl.handle
    by_cases hh : (chain h).height ≠ c.last + 1
    · rw [if_pos hh]
      exact .inl ⟨c, rfl, hf⟩
    · rw [if_neg hh]
      have hh := Classical.not_not.mp hh
      rw [hc] at hh
      exact .inr ⟨_, _, rfl, (follows_add hf hc (by simpa using hlt) (by rw [hh])).1, hc h⟩
  | cons a as ih =>
    intro c hf hlt
    by_cases hh : (chain h).height ≠ c.last + 1
    · cases a with
      | false =>
        have := ih c hf (by simp at hlt; omega)
        unfold archiverAnswers Ctl.handle
        rw [if_pos hh]
        exact this
      | true =>
        obtain ⟨f1, f2⟩ := follows_add hf hc (b := chain (c.last + 1)) (by omega) rfl
        rw [hc] at f2
        have := ih ⟨(chain (c.last + 1)).height, c.tower.addBlock (chain (c.last + 1))⟩ f1 (by
          simp only [hc, f2]; simp at hlt; omega)
        simp only [hc] at this
        unfold archiverAnswers Ctl.handle
        rw [if_pos hh]
        simp only [hc]
        exact this
    · have hh := Classical.not_not.mp hh
      have hh' := hh
      rw [hc] at hh'
      right
      cases a <;>
      · unfold archiverAnswers Ctl.handle
        rw [if_neg (by simpa using hh)]
        exact ⟨_, _, rfl, (follows_add hf hc (by omega) (by rw [hh'])).1, hc h⟩

/-- C63. So the caches of a watchtower that has reached a height answer from the last `k` blocks of
the chain up to that height. -/
theorem C63_answers (chain : UInt64 → Block) (kb : Nat) (c : Ctl) (hf : Follows chain kb c)
    (hl : Ledger (entries (firstBlocks chain c.last.toNat))) (u : Hash) :
    c.tower.bc.checkSpent u = spender (entries (lastK kb (firstBlocks chain c.last.toNat))) u := by
  rw [hf]
  exact (C26_block_cache kb _ hl u).1

theorem C63_start (chain : UInt64 → Block) (kb ke : Nat) : Follows chain kb (.new kb ke) := rfl

/-- C63. A block ahead of the watchtower is taken in as soon as the archiver has answered with each
of the blocks between. -/
theorem C63_returns (chain : UInt64 → Block) (hc : ∀ h, (chain h).height = h) (h : UInt64)
    (as : List Bool) : ∀ c : Ctl, c.last.toNat < h.toNat →
    h.toNat - c.last.toNat - 1 ≤ (as.filter id).length →
    ∃ c' rest, c.handle (chain h) (archiverAnswers chain c.last as) = .inr (c', rest) := by
  induction as with
  | nil =>
    intro c h1 h2
    have hl := h.toNat_lt
    have : h = c.last + 1 := by
      apply UInt64.toNat_inj.mp
      rw [UInt64.toNat_add]
      simp at h2 ⊢
      omega
    unfold archiverAnswers Ctl.handle
    rw [if_neg (by rw [hc]; simpa using this)]
    exact ⟨_, _, rfl⟩
  | cons a as ih =>
    intro c h1 h2
    have hl := h.toNat_lt
    have hn : (c.last + 1).toNat = c.last.toNat + 1 := by
      rw [UInt64.toNat_add]; simp; omega
    by_cases hh : (chain h).height ≠ c.last + 1
    · have hne : h.toNat ≠ c.last.toNat + 1 := by
        intro he
        apply hh
        rw [hc]
        exact UInt64.toNat_inj.mp (by omega)
      cases a with
      | false =>
        unfold archiverAnswers Ctl.handle
        rw [if_pos hh]
        exact ih c h1 (by simpa using h2)
      | true =>
        have := ih ⟨(chain (c.last + 1)).height, c.tower.addBlock (chain (c.last + 1))⟩
          (by simp only [hc, hn]; omega) (by simp only [hc, hn]; simp at h2; omega)
        simp only [hc] at this
        unfold archiverAnswers Ctl.handle
        rw [if_pos hh]
        simp only [hc]
        exact this
    · cases a <;>
      · unfold archiverAnswers Ctl.handle
        rw [if_neg hh]
        exact ⟨_, _, rfl⟩

/-- C63. A block that the watchtower has already seen makes the handler loop: it never returns,
whatever the archiver answers. -/
theorem C63_old_block_violated (chain : UInt64 → Block) (hc : ∀ h, (chain h).height = h) (h : UInt64)
    (as : List Bool) : ∀ c : Ctl, h.toNat ≤ c.last.toNat → c.last.toNat + as.length + 1 < 2 ^ 64 →
    ∃ c', c.handle (chain h) (archiverAnswers chain c.last as) = .inl c' := by
  induction as with
  | nil =>
    intro c h1 h2
    unfold archiverAnswers Ctl.handle
    rw [if_pos ?_]
    · exact ⟨_, rfl⟩
    · rw [hc]
      intro he
      have := congrArg UInt64.toNat he
      rw [UInt64.toNat_add] at this
      simp at this h2
      omega
  | cons a as ih =>
    intro c h1 h2
    have hn : (c.last + 1).toNat = c.last.toNat + 1 := by
      rw [UInt64.toNat_add]; simp at h2 ⊢; omega
    have hh : (chain h).height ≠ c.last + 1 := by
      rw [hc]
      intro he
      have := congrArg UInt64.toNat he
      omega
    cases a with
    | false =>
      unfold archiverAnswers Ctl.handle
      rw [if_pos hh]
      exact ih c h1 (by simp at h2; omega)
    | true =>
      have := ih ⟨(chain (c.last + 1)).height, c.tower.addBlock (chain (c.last + 1))⟩
        (by simp only [hc, hn]; omega) (by simp only [hc, hn]; simp at h2; omega)
      simp only [hc] at this
      unfold archiverAnswers Ctl.handle
      rw [if_pos hh]
      simp only [hc]
      exact this

example : ∃ c', (Ctl.new 2 2).handle ⟨2, []⟩
    (archiverAnswers (fun h => ⟨h, []⟩) 0 [false, true, true]) = .inr (c', [some ⟨2, []⟩]) ∧ c'.last = 2 :=
  ⟨_, rfl, rfl⟩

end Verif.Watchtower
