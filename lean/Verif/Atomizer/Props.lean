import Verif.Atomizer.Trace
import Verif.Tx.Props

/-! Properties C19 and C20: the atomizer and its shards together. -/
namespace Verif.Atomizer

open Verif.Tx

/-! #### Concrete data for the examples -/

/-- A coin that exists from the start. -/
def coinA : Hash := fill 32 1
/-- The output of `pay`. -/
def coinB : Hash := fill 32 2
/-- Spends `coinA`. -/
def pay : CompactTx := ⟨fill 32 11, [coinA], [coinB], []⟩
/-- Also spends `coinA`. -/
def pay' : CompactTx := ⟨fill 32 12, [coinA], [fill 32 3], []⟩
/-- Spends the output of `pay`. -/
def payOn : CompactTx := ⟨fill 32 13, [coinB], [fill 32 4], []⟩

/-- One shard for everything, cache depth 1. -/
def exP : Params where
  depth := 1
  range := fun _ => (0, 255)
  attested := fun _ => true
  genesis := fun x => decide (x = coinA)
  submitted := fun t => t = pay ∨ t = pay' ∨ t = payOn
  direct := fun t => t = payOn

example : IdsCommit exP := by
  rintro a b (rfl | rfl | rfl) (rfl | rfl | rfl) h <;> first | rfl | (exact absurd h (by decide))

/-- A run: an empty block reaches the shard, `pay` and `pay'` are attested at height 1, `pay` is
confirmed in block 2 and its output is spent in block 3, `pay'` is refused. -/
theorem exRun : ∃ w, Reach exP w ∧ w.chain.map Block.txs = [[], [pay], [payOn]] ∧ pay' ∈ w.aggs.map Agg.tx := by
  have r := Reach.init (P := exP)
  have r := r.step _ _ (Step.block _ _ _ _ (by decide) rfl)
  have r := r.step _ _ (Step.digest _ 0 ⟨1, []⟩ (by decide))
  have r := r.step _ _ (Step.attest _ 0 pay ⟨pay, [0], 1⟩ (.inl rfl) rfl)
  have r := r.step _ _ (Step.attest _ 0 pay' ⟨pay', [0], 1⟩ (.inr (.inl rfl)) rfl)
  have r := r.step _ _ (Step.notify _ 0 ⟨pay, [0], 1⟩ (by decide))
  have r := r.step _ _ (Step.notify _ 0 ⟨pay', [0], 1⟩ (by decide))
  have r := r.step _ _ (Step.propose _ 0)
  have r := r.step _ _ (Step.commit _ [⟨pay, 1⟩, ⟨pay', 1⟩] _ _ (by decide) rfl)
  have r := r.step _ _ (Step.block _ _ _ _ (by decide) rfl)
  have r := r.step _ _ (Step.digest _ 0 ⟨2, [pay]⟩ (by decide))
  have r := r.step _ _ (Step.attest _ 0 payOn ⟨payOn, [0], 2⟩ (.inr (.inr rfl)) rfl)
  have r := r.step _ _ (Step.insert _ ⟨payOn, [0], 2⟩ _ _ (by decide) rfl rfl)
  have r := r.step _ _ (Step.commit _ [⟨pay', 1⟩] _ _ (by decide) rfl)
  have r := r.step _ _ (Step.block _ _ _ _ (by decide) rfl)
  exact ⟨_, r, by decide, by decide⟩

/-- **C19.** Every transaction of the chain spends only ids that are unspent when its turn comes. -/
theorem C19_legal {P : Params} (hc : IdsCommit P) {w : World} (h : Reach P w) :
    Legal P.start (txsOf w.chain) := by
  have hl := (reach_inv hc h).legal
  intro i t hi x hx
  have hlt := (List.getElem?_eq_some_iff.mp hi).1
  have := hl i t (by rw [confirmed, List.getElem?_append_left hlt]; exact hi) x hx
  rwa [confirmed, List.take_append_of_le_length (by omega)] at this

/-- C19. No id is an input of two transactions of the chain unless it was created again in
between. -/
theorem C19_no_double_spend {P : Params} (hc : IdsCommit P) {w : World} (h : Reach P w) :
    NoDoubleSpend (txsOf w.chain) :=
  legal_noDoubleSpend (C19_legal hc h)

/-- **C20.** A step that confirms `t` happens after each input of `t` was attested by a
notification for `t` whose height is within the cache depth of the current height. -/
theorem C20_attested_partial {P : Params} (hc : IdsCommit P) {w w' : World} (h : Reach P w)
    (hs : Step P w w') (new : List CompactTx)
    (hn : w'.sm.atm.complete = w.sm.atm.complete ++ new) (t : CompactTx) (ht : t ∈ new) :
    AllNotified w.notifs t (w.chain.length - P.depth) w.chain.length := by
  obtain ⟨_, ⟨new', h1, _, h2⟩ | h1⟩ := traced_step hc (reach_inv hc h) (reach_traced hc h) hs
  · rw [h1] at hn
    have := List.append_cancel_left hn
    subst this
    exact h2 t ht
  · rw [h1] at hn
    have := List.append_eq_nil_iff.mp hn.symm
    rw [this.2] at ht
    simp at ht

/-- C20. Only confirmed transactions enter blocks: a block holds what was waiting. -/
theorem C20_block_contents {P : Params} {w w' : World} (hs : Step P w w') :
    w'.chain = w.chain ∨ ∃ b, w'.chain = w.chain ++ [b] ∧ b.txs = w.sm.atm.complete ∧
      w'.sm.atm.complete = [] := by
  cases hs with
  | block sm b errs hl h =>
    simp only [SM.commit, Option.some.injEq, Prod.mk.injEq, Resp.made.injEq] at h
    obtain ⟨rfl, rfl, _⟩ := h
    exact .inr ⟨_, rfl, rfl, rfl⟩
  | _ => exact .inl rfl

/-- C20. A transaction with inputs is confirmed a second time only after each of its inputs was
created again. -/
theorem C20_once {P : Params} (hc : IdsCommit P) {w : World} (h : Reach P w) (i j : Nat)
    (t : CompactTx) (hij : i < j) (hi : (txsOf w.chain)[i]? = some t)
    (hj : (txsOf w.chain)[j]? = some t) (x : Hash) (hx : x ∈ t.inputs) :
    ∃ (k : Nat) (c : CompactTx), i < k ∧ k < j ∧ (txsOf w.chain)[k]? = some c ∧
      x ∈ c.uhsOutputs :=
  C19_no_double_spend hc h i j t t x hij hi hj hx hx

/-- C20 does not hold for notifications that no correct shard sends: the atomizer counts the
attestations without comparing the indexes with the inputs, so an index that is no input at all
completes a transaction. -/
theorem C20_index_unchecked_violated :
    ∃ a e, (Atm.new 0 1).insert 0 pay [7] = some (a, e) ∧ a.complete = [pay] ∧
      ((Pool.new.notify (fun _ => true) ⟨pay, [7], 1⟩).complete = [⟨pay, 1⟩]) :=
  ⟨_, _, rfl, by decide, by decide⟩

/-- Two transactions with one id, as a dishonest sentinel could sign. -/
def twinA : CompactTx := ⟨fill 32 21, [coinA, coinB], [], []⟩
/-- See `twinA`. -/
def twinB : CompactTx := ⟨fill 32 21, [fill 32 8, fill 32 9], [], []⟩

/-- C20 needs ids that commit to the inputs: pending transactions are compared by id only, so
attestations of `twinB`'s inputs confirm `twinA`, none of whose inputs was ever attested beyond the
first. -/
theorem C20_id_mixed_violated :
    (((Pool.new.notify (fun _ => true) ⟨twinA, [0], 1⟩).notify (fun _ => true)
      ⟨twinB, [1], 1⟩).complete = [⟨twinA, 1⟩]) ∧ twinA.inputs ≠ twinB.inputs :=
  ⟨by decide, by decide⟩

/-! ### C61: sentinel attestations -/

/-- **C61.** When notifications pass through `tx_notify` only, every transaction of every block
carries at least `threshold` distinct authorised keys with a valid signature over the transaction. -/
theorem C61_sentinels_signed {P : Params} (c : Crypto) (keys : List PubKey) (threshold : Nat)
    (ha : P.attested = fun t => checkAttestations c t keys threshold) (hd : ∀ t, ¬ P.direct t)
    {w : World} (h : Reach P w) (b : Block) (hb : b ∈ w.chain) (t : CompactTx) (ht : t ∈ b.txs)
    (hf : t.Fits) :
    ∃ ks : List PubKey, ks.Nodup ∧ threshold ≤ ks.length ∧ ∀ k ∈ ks, k ∈ keys ∧
      ∃ s : Sig, c.verify k.val (t.hash c).val s.val = true := by
  have hs := (reach_signed h).chain b hb t ht
  rcases hs with hs | hs
  · rw [ha] at hs
    obtain ⟨⟨ks, h1, h2, h3⟩, h4⟩ := (C10_threshold c t hf keys threshold).mp hs
    refine ⟨ks, h1, h2, fun k hk => ?_⟩
    obtain ⟨s, hs⟩ := (h3 k).mp hk
    exact ⟨(h4 k s hs).1, s, (h4 k s hs).2.2⟩
  · exact absurd hs (hd t)

/-- C61. In general: attested or inserted directly. -/
theorem C61_attested {P : Params} {w : World} (h : Reach P w) (b : Block) (hb : b ∈ w.chain)
    (t : CompactTx) (ht : t ∈ b.txs) : P.attested t = true ∨ P.direct t :=
  (reach_signed h).chain b hb t ht

/-- `pay` signed by a sentinel. -/
def paySigned : CompactTx := { pay with attestations := [(fill 32 7, fill 64 7)] }

/-- That sentinel is the authorised one. -/
def signedP : Params where
  depth := 1
  range := fun _ => (0, 255)
  attested := fun t => checkAttestations toy t [fill 32 7] 1
  genesis := fun _ => true
  submitted := fun _ => True
  direct := fun _ => False

example : ∃ w, Reach signedP w ∧ ∃ b ∈ w.chain, paySigned ∈ b.txs ∧ paySigned.Fits := by
  have r := Reach.init (P := signedP)
  have r := r.step _ _ (Step.block _ _ _ _ (by decide) rfl)
  have r := r.step _ _ (Step.digest _ 0 ⟨1, []⟩ (by decide))
  have r := r.step _ _ (Step.attest _ 0 paySigned ⟨paySigned, [0], 1⟩ trivial rfl)
  have r := r.step _ _ (Step.notify _ 0 ⟨paySigned, [0], 1⟩ (by decide))
  have r := r.step _ _ (Step.propose _ 0)
  have r := r.step _ _ (Step.commit _ [⟨paySigned, 1⟩] _ _ (by decide) rfl)
  have r := r.step _ _ (Step.block _ _ _ _ (by decide) rfl)
  exact ⟨_, r, ⟨2, [paySigned]⟩, by decide, by decide, ⟨by decide, by decide, by decide, by decide⟩⟩

end Verif.Atomizer
