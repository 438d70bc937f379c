import Verif.Money.TwoPhaseInv
import Verif.Money.Props

/-! Property C89: the money of the two-phase system. -/
namespace Verif.Money.TwoPhase

open Verif.Tx Verif.Serial Verif.LockingShard Verif.Coordinator

/-- No two places in the batches have an input in common. -/
def Uncontested (p : Whole) : Prop :=
  ∀ (d d' : Hash) (k k' : Nat) (t t' : CompactTx) (x : Hash), (p.txs d)[k]? = some t →
    (p.txs d')[k']? = some t' → x ∈ t.inputs → x ∈ t'.inputs → d = d' ∧ k = k'

section
variable {c : Crypto} {keys : List PubKey} {threshold : Nat} {honest : PubKey → Prop}
  {signed : FullTx → Prop} {G : List Coin} {p : Whole} {S₀ S : Sys}

/-- At rest, a shard has applied every batch with a part on it that has an outcome. -/
theorem rest_applied (H : Good c signed G p S) (hrest : S.AtRest p) {d : Hash} {k : Nat}
    {t : CompactTx} (h : Chosen p S d k t) {i : Nat} {cf : Cfg} (hi : p.shards[i]? = some cf)
    (hc : Concerns cf t) : AppliedAt S i d := by
  refine Classical.byContradiction fun ha => ?_
  obtain ⟨D, hD, h1, h2⟩ := h
  have hr := punctual_reach _ _ (H.punct d)
  obtain ⟨b, hb, -⟩ := held_of_granted hr hi ha h2 hc
    (((reach_inv _ _ hr).dec D hD |>.exact k t h2).mp h1 i cf hi hc)
  rw [hrest i cf d hi] at hb
  cases hb

/-- At rest, what the shards hold as unspent is what the executed transactions leave. -/
theorem rest_unspent (Dp : Deployed c keys threshold honest signed G p) (H : Good c signed G p S)
    (hrest : S.AtRest p) (x : Hash) :
    S.Unspent p x ↔ (start c G x ∨ ∃ t ∈ S.done p, x ∈ t.uhsOutputs) ∧
      ¬ ∃ t ∈ S.done p, x ∈ t.inputs := by
  have key : ∀ (i : Nat) (cf : Cfg), p.shards[i]? = some cf → cf.owns x = true →
      ((S.shard i).uhs x = true ↔ (start c G x ∨ ∃ t ∈ S.done p, x ∈ t.uhsOutputs) ∧
        ¬ ∃ t ∈ S.done p, x ∈ t.inputs) := by
    intro i cf hi hx
    have hnl : (S.shard i).locked x ≠ true := by
      intro hl
      obtain ⟨d, b, hb, -⟩ := ((H.ref i cf hi).held x).mp hl
      simp [obs, hrest i cf d hi] at hb
    have hm : MadeAt p S i x ↔ ∃ t ∈ S.done p, x ∈ t.uhsOutputs := by
      constructor
      · rintro ⟨d, k, t, h1, -, h3⟩
        exact ⟨t, (mem_done H t).mpr ⟨d, k, h1⟩, h3⟩
      · rintro ⟨t, ht, h3⟩
        obtain ⟨d, k, h1⟩ := (mem_done H t).mp ht
        exact ⟨d, k, t, h1, rest_applied H hrest h1 hi (.inr (.inr ⟨x, h3, hx⟩)), h3⟩
    have hu : UsedAt p S i x ↔ ∃ t ∈ S.done p, x ∈ t.inputs := by
      constructor
      · rintro ⟨d, k, t, h1, -, h3⟩
        exact ⟨t, (mem_done H t).mpr ⟨d, k, h1⟩, h3⟩
      · rintro ⟨t, ht, h3⟩
        obtain ⟨d, k, h1⟩ := (mem_done H t).mp ht
        exact ⟨d, k, t, h1, rest_applied H hrest h1 hi (.inr (.inl ⟨x, h3, hx⟩)), h3⟩
    have := H.coins i cf x hi hx
    rw [hm, hu, Dp.seeded i cf x hi hx] at this
    rw [start, ← this]
    simp [hnl]
  constructor
  · rintro ⟨i, cf, hi, hx, h⟩
    exact (key i cf hi hx).mp h
  · intro h
    obtain ⟨i, cf, hi, hx⟩ := Dp.cover x
    exact ⟨i, cf, hi, hx, (key i cf hi hx).mpr h⟩

/-- **C89.** In a calm run the transactions that were recorded as executed, in the order in which
the outcomes of their batches were recorded, are the compact forms of well-formed transactions that
honest sentinels have signed, each at most once and each spending only coins that exist when its
turn comes.  Missing: runs that are not calm, see `C89_supply_violated`. -/
theorem C89_lawful_partial (Dp : Deployed c keys threshold honest signed G p) (h0 : p.Init S₀)
    (h : p.Run S₀ S) :
    ∃ ts : List FullTx, (∀ t ∈ ts, signed t) ∧
      (S.done p).map (fun t => { t with attestations := [] }) = ts.map (CompactTx.ofFull c) ∧
      Lawful c G ts ∧ (ts.map (txId c)).Nodup := by
  obtain ⟨fs, hs, he, hl⟩ := (good_run Dp (good_init Dp h0) h).money
  obtain ⟨hlaw, I⟩ := legal_lawful (L := start c G) Dp.books (fun _ => Iff.rfl) fs hs hl
  exact ⟨fs, hs, he, hlaw, I.ids⟩

/-- **C89.** In a calm run, whenever no batch is in flight on a shard, the unspent ids of all
shards together are the ids of coins, one each, that are worth what was seeded.  Missing: runs
that are not calm, see `C89_supply_violated`. -/
theorem C89_supply_partial (Dp : Deployed c keys threshold honest signed G p) (h0 : p.Init S₀)
    (h : p.Run S₀ S) (hrest : S.AtRest p) :
    ∃ T : List Coin, (∀ g ∈ T, g ∈ G ∨ ∃ t, signed t ∧ g ∈ created c t) ∧
      (T.map (Input.hash c)).Nodup ∧ worth T = worth G ∧
      ∀ x, S.Unspent p x ↔ ∃ g ∈ T, g.hash c = x := by
  have H := good_run Dp (good_init Dp h0) h
  obtain ⟨fs, hs, he, hl⟩ := H.money
  obtain ⟨-, I⟩ := legal_lawful (L := start c G) Dp.books (fun _ => Iff.rfl) fs hs hl
  refine ⟨coinsAfter c G fs, ?_, I.nodup.map_on ?_, I.worth, ?_⟩
  · intro g hg
    rcases I.origin g hg with h' | ⟨t, ht, h'⟩
    · exact .inl h'
    · exact .inr ⟨t, hs t ht, h'⟩
  · intro a ha b hb hab
    exact hash_inj Dp.books (I.hashed ha) (I.hashed hb) hab
  · intro x
    rw [rest_unspent Dp H hrest x]
    constructor
    · rintro ⟨h1, h2⟩
      rw [← I.ledger, ← he, show bare = fun t : CompactTx => { t with attestations := [] } from rfl,
        after_strip]
      exact after_source _ _ x h1 fun t ht hx => h2 ⟨t, ht, hx⟩
    · rintro ⟨g, hg, rfl⟩
      refine ⟨?_, ?_⟩
      · rcases I.origin g hg with h' | ⟨f, hf, h'⟩
        · exact .inl ⟨g, h', rfl⟩
        · have hm : CompactTx.ofFull c f ∈ (S.done p).map bare := he ▸ List.mem_map_of_mem hf
          obtain ⟨t, ht, e⟩ := List.mem_map.mp hm
          refine .inr ⟨t, ht, ?_⟩
          have ho : (bare t).uhsOutputs = _ := congrArg CompactTx.uhsOutputs e
          rw [← created_uhs] at ho
          change _ ∈ (bare t).uhsOutputs
          rw [ho]
          exact List.mem_map_of_mem h'
      · rintro ⟨t, ht, hx⟩
        obtain ⟨f, hf, -, hi, -⟩ := full_of he ht
        rw [hi, List.mem_map] at hx
        obtain ⟨g', hg', e⟩ := hx
        have := hash_inj Dp.books (.input f g' (hs f hf) hg') (I.hashed hg) e
        exact I.spent f hf g' hg' (this ▸ hg)

theorem chosen_mono {S' : Sys} (hinv : ∀ d, Coordinator.Inv (p.among d) (S.view d))
    (h : p.Step S S') :
    (∀ d k t, Chosen p S d k t → Chosen p S' d k t) ∧
      ∀ i d, AppliedAt S i d → AppliedAt S' i d := by
  have hd : ∀ d D, (S.part d).decision = some D → (S'.part d).decision = some D := by
    intro d D hD
    cases h with
    | of d' w hs =>
    simp only [Sys.put]
    split
    · rename_i e
      subst e
      cases step_effect rfl (inv_alone (hinv d)) hs with
      | silent _ _ hd _ => rw [hd]; exact hD
      | decided D' _ _ hn _ _ _ =>
        have hv : (S.view d).decision = (S.part d).decision := rfl
        rw [hv, hD] at hn
        cases hn
      | served i c q s' a _ _ _ he =>
        rw [he]
        simp only [World.setShard, (answered_shard _ _ _ _ _).2.2]
        exact hD
    · exact hD
  refine ⟨fun d k t ⟨D, h1, h2, h3⟩ => ⟨D, hd d D h1, h2, h3⟩, ?_⟩
  intro i d ha
  cases h with
  | of d' w hs =>
  simp only [AppliedAt, Sys.put]
  split
  · rename_i e
    subst e
    have := C17_history_grows _ _ _ hs i
    intro hnil
    rw [hnil] at this
    exact ha (List.prefix_nil.mp this)
  · exact ha

/-- **C89.** In a calm run a coin disappears only by its owner's signature: if the responsible
shard says that an id is unspent, and later says that it is not, then a transaction was recorded as
executed that spends it, and it is the compact form of one that the owner of the coin with this id
has signed.  Missing: runs that are not calm. -/
theorem C89_owner_partial (Dp : Deployed c keys threshold honest signed G p) (h0 : p.Init S₀)
    (h : p.Run S₀ S) {S' : Sys} (h' : p.Run S S') (x : Hash) (hx : S.SaysUnspent p x)
    (hx' : ¬ S'.SaysUnspent p x) :
    ∃ t ∈ S'.done p, ∃ (f : FullTx) (g : Coin), signed f ∧
      { t with attestations := [] } = CompactTx.ofFull c f ∧ g.hash c = x ∧ SpentByOwner c f g := by
  have H := good_run Dp (good_init Dp h0) h
  have H' := good_run Dp H h'
  have hmono : ∀ i x, MadeAt p S i x → MadeAt p S' i x := by
    intro i x
    clear hx hx' H'
    induction h' with
    | refl => exact id
    | step S1 S2 hr hs hc ih =>
      intro hm
      obtain ⟨d, k, t, h1, h2, h3⟩ := ih hm
      obtain ⟨m1, m2⟩ := chosen_mono (fun d => reach_inv _ _ (punctual_reach _ _
        ((good_run Dp H hr).punct d))) hs
      exact ⟨d, k, t, m1 d k t h1, m2 i d h2, h3⟩
  obtain ⟨i, cf, hi, ho, hun⟩ := hx
  have hun : (S.shard i).uhs x = true ∨ (S.shard i).locked x = true := by
    simpa [checkUnspent] using hun
  obtain ⟨hsrc, -⟩ := (H.coins i cf x hi ho).mp hun
  have hsrc' : p.seeds i x = true ∨ MadeAt p S' i x := hsrc.imp id (hmono i x)
  have hused : UsedAt p S' i x := by
    refine Classical.byContradiction fun hno => hx' ⟨i, cf, hi, ho, ?_⟩
    have := (H'.coins i cf x hi ho).mpr ⟨hsrc', hno⟩
    simpa [checkUnspent] using this
  obtain ⟨d, k, t, h1, -, h3⟩ := hused
  have ht := (mem_done H' t).mpr ⟨d, k, h1⟩
  obtain ⟨fs, hs, he, -⟩ := H'.money
  have hm : bare t ∈ fs.map (CompactTx.ofFull c) := he ▸ List.mem_map_of_mem ht
  obtain ⟨f, hf, e⟩ := List.mem_map.mp hm
  rw [show t.inputs = f.inputs.map (Input.hash c) from (congrArg CompactTx.inputs e).symm,
    List.mem_map] at h3
  obtain ⟨g, hg, rfl⟩ := h3
  exact ⟨t, ht, f, g, hs f hf, e.symm, rfl, spent_by_owner (Dp.books.checked f (hs f hf)) hg⟩

/-- **C89.** In a calm run no id is spent twice: two different places in the list of executed
transactions have no input in common.  Missing: runs that are not calm. -/
theorem C89_once_partial (Dp : Deployed c keys threshold honest signed G p) (h0 : p.Init S₀)
    (h : p.Run S₀ S) (i j : Nat) (a b : CompactTx) (x : Hash) (hij : i < j)
    (ha : (S.done p)[i]? = some a) (hb : (S.done p)[j]? = some b) (hxa : x ∈ a.inputs) :
    x ∉ b.inputs := by
  intro hxb
  obtain ⟨ts, hts, he, hl⟩ := (good_run Dp (good_init Dp h0) h).money
  have hL : ∀ x, start c G x ↔ ∃ g ∈ G, g.hash c = x := fun _ => Iff.rfl
  have hget : ∀ (k : Nat) (t : CompactTx), (S.done p)[k]? = some t → x ∈ t.inputs →
      ∃ f g, ts[k]? = some f ∧ g ∈ f.inputs ∧ g.hash c = x := by
    intro k t hk hx
    have hk' := congrArg (fun l : List CompactTx => l[k]?) he
    simp only [List.getElem?_map, hk, Option.map_some] at hk'
    obtain ⟨f, hf, hft⟩ := Option.map_eq_some_iff.mp hk'.symm
    rw [show t.inputs = f.inputs.map (Input.hash c) from (congrArg CompactTx.inputs hft).symm,
      List.mem_map] at hx
    obtain ⟨g, hg, hgx⟩ := hx
    exact ⟨f, g, hf, hg, hgx⟩
  obtain ⟨fa, ga, hfa, hga, hgax⟩ := hget i a ha hxa
  obtain ⟨fb, gb, hfb, hgb, hgbx⟩ := hget j b hb hxb
  have hsa := hts fa (List.mem_of_getElem? hfa)
  have hsb := hts fb (List.mem_of_getElem? hfb)
  have heq := hash_inj Dp.books (.input fa ga hsa hga) (.input fb gb hsb hgb) (hgax.trans hgbx.symm)
  obtain ⟨hlaw, -⟩ := legal_lawful Dp.books hL ts hts hl
  obtain ⟨-, I⟩ := legal_lawful Dp.books hL (ts.take j) (fun t ht => hts t (List.mem_of_mem_take ht))
    (by rw [List.map_take]; exact legal_take hl j)
  refine I.spent fa ?_ ga hga (heq ▸ (hlaw j fb hfb).2 gb hgb)
  apply List.mem_iff_getElem?.mpr
  exact ⟨i, by rw [List.getElem?_take_of_lt hij]; exact hfa⟩

/-- **C89.** A loud abort needs a contested input: as long as no two places in the batches have an
input in common, no step is a loud abort. -/
theorem C89_uncontested (hdis : Uncontested p) (h : p.Reach S) (S' : Sys) : ¬ LoudAbort p S S' := by
  rintro ⟨i, cf, d, b, j, t, x, hi, hb, -, ht, -, -, hx, d', j', hne, b', t', hb', ht', -, -, hx'⟩
  have hpos : ∀ (d : Hash) (b : Prepared) (j : Nat) (t : CompactTx),
      (S.shard i).prepared d = some b → b.txs[j]? = some t →
      ∃ k : Nat, (p.txs d)[k]? = some t ∧ j = place cf (p.txs d) k := by
    intro d b j t hb hj
    have hbt : b.txs = (p.txs d).filter (relevant cf) :=
      (reach_inv _ _ (batch_reach h d)).prep i cf b hi hb
    rw [hbt] at hj
    have hlt : j < (idxsOf cf (p.txs d)).length := by
      rw [idxs_length]; exact (List.getElem?_eq_some_iff.mp hj).1
    obtain ⟨u, h1, h2, h3⟩ := idxs_of cf (p.txs d) _ j (List.getElem?_eq_getElem hlt)
    have := filter_place cf (p.txs d) _ u h1 h2
    rw [← h3, hj, Option.some.injEq] at this
    exact ⟨_, this ▸ h1, h3⟩
  obtain ⟨k, h1, h2⟩ := hpos d b j t hb ht
  obtain ⟨k', h1', h2'⟩ := hpos d' b' j' t' hb' ht'
  obtain ⟨rfl, rfl⟩ := hdis d d' k k' t t' x h1 h1' hx hx'
  rcases hne with hne | hne
  · exact hne rfl
  · omega

end

/-! #### The assumptions can be met, and something happens -/

/-- One shard for all ids. -/
def exShard : Cfg := ⟨(0, 255), mixC, exKeys, 2, 4⟩
/-- The ids of the seeded coins. -/
def exSeeds : HSet := fun x => decide (x = fill 32 14 ∨ x = fill 32 183)
/-- The ids of three batches. -/
def b1 : Hash := fill 32 1
def b2 : Hash := fill 32 2
def b3 : Hash := fill 32 3
/-- `buy` in two batches (it was sent twice), `cheat` in a third. -/
def exTwice : Whole where
  shards := [exShard]
  seeds := fun _ => exSeeds
  txs d := if d = b1 then [cBuy] else if d = b2 then [cBuy] else if d = b3 then [cCheat] else []

/-- The start of a system. -/
def fresh (p : Whole) : Sys where
  shard i := match p.shards[i]? with
    | some cf => State.init cf (p.seeds i)
    | none => State.init ⟨(0, 0), mixC, [], 0, 0⟩ fun _ => false
  rep := ⟨fun _ => none, fun _ => none, fun _ => false⟩
  part d :=
    { shard := fun _ => State.init ⟨(0, 0), mixC, [], 0, 0⟩ fun _ => false
      rep := ⟨fun _ => none, fun _ => none, fun _ => false⟩
      execs := [⟨(Dtx.new p.shards).addAll p.shards (p.txs d), .start⟩]
      sent := fun _ _ => False
      voted := fun _ _ => False
      ackApply := fun _ => False
      ackDiscard := fun _ => False
      firstVote := fun _ => none
      decision := none
      history := fun _ => [] }
  order := []

theorem fresh_init (p : Whole) : p.Init (fresh p) where
  shards i cf h := by simp [fresh, h]
  batches d := {
    execs := rfl
    rep := ⟨rfl, rfl, rfl⟩
    shards := fun i => by simp only [Sys.view, fresh]; split <;> exact ⟨rfl, rfl⟩
    sent := fun _ _ => id
    voted := fun _ _ => id
    acks := fun _ => ⟨id, id⟩
    records := ⟨fun _ => rfl, rfl, fun _ => rfl⟩ }
  order := rfl


theorem exShardDeployed (txs : Hash → List CompactTx)
    (htx : ∀ d, ∀ t ∈ txs d, t = cBuy ∨ t = cBuyOn ∨ t = cCheat ∨ t = cFake) :
    Deployed mixC exKeys 2 (fun k => k ≠ fill 32 8) exSigned [seed0, seed1]
      ⟨[exShard], fun _ => exSeeds, txs⟩ where
  books := exBooks
  sentinels := by
    have h := exDeployed.sentinels
    have hsub : ∀ t, (∃ d, t ∈ txs d) ∧ checkAttestations mixC t exKeys 2 = true →
        exMoney.submitted t ∧ exMoney.attested t = true := by
      rintro t ⟨⟨d, hd⟩, ha⟩
      exact ⟨htx d t hd, ha⟩
    exact ⟨h.enough, fun ctx k s hs => h.unforged ctx k s (hsub ctx hs),
      fun ctx hs => h.fits ctx (hsub ctx hs), fun t ctx ht hs => h.noCollision t ctx ht (hsub ctx hs)⟩
  check := by
    intro cf hcf t
    rw [List.mem_singleton.mp hcf]
    rfl
  cover x := ⟨0, exShard, rfl, by
    have := (firstByte x).toNat_lt
    simp only [exShard, Cfg.owns, inRange, Bool.and_eq_true]
    exact ⟨decide_eq_true (UInt8.le_iff_toNat_le.mpr (Nat.zero_le _)),
      decide_eq_true (UInt8.le_iff_toNat_le.mpr (Nat.le_of_lt_succ this))⟩⟩
  seeded := by
    intro i cf x _ _
    exact exDeployed.seeded x

/-- All shards have answered when the only one has. -/
theorem all0 (e : Exec) {got : Nat → Option (List Bool)} (h : e.dtx.idxs.length = 1)
    (hg : (got 0).isSome = true) : ∀ i, e.involves i → (got i).isSome = true := by
  rintro i ⟨is, hi, -⟩
  have := (List.getElem?_eq_some_iff.mp hi).1
  rw [h] at this
  rw [show i = 0 by omega]
  exact hg

/-- At rest: the batches that were executed are gone, nobody has heard of the others. -/
theorem atRest {p : Whole} {S : Sys} (h : p.Reach S) (hone : p.shards.length = 1)
    (h1 : ((S.shard 0).prepared b1).isNone = true) (h2 : ((S.shard 0).prepared b2).isNone = true)
    (h3 : ((S.shard 0).prepared b3).isNone = true)
    (ho : ∀ d, d ≠ b1 → d ≠ b2 → d ≠ b3 → (S.part d).history 0 = [] ∧
      (S.part d).firstVote 0 = none) : S.AtRest p := by
  intro i cf d hi
  have hi := (List.getElem?_eq_some_iff.mp hi).1
  rw [show i = 0 by omega]
  by_cases e1 : d = b1
  · rw [e1]; exact Option.isNone_iff_eq_none.mp h1
  · by_cases e2 : d = b2
    · rw [e2]; exact Option.isNone_iff_eq_none.mp h2
    · by_cases e3 : d = b3
      · rw [e3]; exact Option.isNone_iff_eq_none.mp h3
      · obtain ⟨g1, g2⟩ := ho d e1 e2 e3
        have := first_prepared _ _ (batch_reach h d) 0 g1
        rw [show (S.view d).firstVote 0 = (S.part d).firstVote 0 from rfl, g2] at this
        exact Option.map_eq_none_iff.mp this.symm

theorem exTwice_txs : ∀ d, ∀ t ∈ exTwice.txs d, t = cBuy ∨ t = cBuyOn ∨ t = cCheat ∨ t = cFake := by
  intro d t ht
  simp only [exTwice] at ht
  split at ht
  · exact .inl (List.mem_singleton.mp ht)
  · split at ht
    · exact .inl (List.mem_singleton.mp ht)
    · split at ht
      · exact .inr (.inr (.inl (List.mem_singleton.mp ht)))
      · simp at ht

set_option maxRecDepth 8000 in
/-- C89 fails in general.  A transaction `buy` is in two batches.  The shard locks its input for the
first, refuses it in the second, and when the second is applied - and `buy` undone there - makes
the input available again, though the first still holds it
(`src/uhs/twophase/locking_shard/locking_shard.cpp:169-176`).  So a third batch can spend it by
`cheat`, and then the first is applied.  Both transactions are executed, and the unspent coins are
worth 24, where 14 were seeded. -/
theorem C89_supply_violated : ∃ (c : Crypto) (keys : List PubKey) (threshold : Nat)
    (honest : PubKey → Prop) (signed : FullTx → Prop) (G : List Coin) (p : Whole) (S : Sys),
    Deployed c keys threshold honest signed G p ∧ p.Reach S ∧ S.AtRest p ∧
    (∃ a b x, S.done p = [a, b] ∧ a ≠ b ∧ x ∈ a.inputs ∧ x ∈ b.inputs) ∧
    ∃ T : List Coin, (T.map (Input.hash c)).Nodup ∧
      (∀ g ∈ T, (g ∈ G ∨ ∃ t, signed t ∧ g ∈ created c t) ∧ S.Unspent p (g.hash c)) ∧
      worth G < worth T := by
  refine ⟨mixC, exKeys, 2, fun k => k ≠ fill 32 8, exSigned, [seed0, seed1], exTwice, ?_⟩
  have r := Whole.Reach.init (p := exTwice) _ (fresh_init exTwice)
  have r := r.step _ _ (.of _ b1 _ (Step.prepareCb _ 0 _ _ false rfl rfl rfl))
  have r := r.step _ _ (.of _ b1 _ (Step.sendLock _ 0 _ _ 0 _ rfl rfl ⟨_, rfl, by decide⟩ rfl))
  have r := r.step _ _ (.of _ b1 _ (Step.deliver _ 0 _ _ _ _ rfl (Or.inl ⟨rfl, rfl⟩) rfl))
  have r := r.step _ _ (.of _ b2 _ (Step.prepareCb _ 0 _ _ false rfl rfl rfl))
  have r := r.step _ _ (.of _ b2 _ (Step.sendLock _ 0 _ _ 0 _ rfl rfl ⟨_, rfl, by decide⟩ rfl))
  have r := r.step _ _ (.of _ b2 _ (Step.deliver _ 0 _ _ _ _ rfl (Or.inl ⟨rfl, rfl⟩) rfl))
  have r := r.step _ _ (.of _ b2 _ (Step.recvVote _ 0 _ _ 0 [false] rfl rfl (Or.inl ⟨rfl, by decide +kernel⟩)))
  have r := r.step _ _ (.of _ b2 _ (Step.decide _ 0 _ _ [false] rfl rfl (all0 _ rfl rfl) rfl))
  have r := r.step _ _ (.of _ b2 _ (Step.commitCb _ 0 _ _ false rfl rfl rfl))
  have r := r.step _ _ (.of _ b2 _ (Step.sendApply _ 0 _ _ 0 _ _ rfl rfl rfl (by decide) rfl))
  have r := r.step _ _ (.of _ b2 _ (Step.deliver _ 0 _ _ _ _ rfl (Or.inl ⟨rfl, rfl⟩) rfl))
  have r := r.step _ _ (.of _ b3 _ (Step.prepareCb _ 0 _ _ false rfl rfl rfl))
  have r := r.step _ _ (.of _ b3 _ (Step.sendLock _ 0 _ _ 0 _ rfl rfl ⟨_, rfl, by decide⟩ rfl))
  have r := r.step _ _ (.of _ b3 _ (Step.deliver _ 0 _ _ _ _ rfl (Or.inl ⟨rfl, rfl⟩) rfl))
  have r := r.step _ _ (.of _ b3 _ (Step.recvVote _ 0 _ _ 0 [true] rfl rfl (Or.inl ⟨rfl, by decide +kernel⟩)))
  have r := r.step _ _ (.of _ b3 _ (Step.decide _ 0 _ _ [true] rfl rfl (all0 _ rfl rfl) rfl))
  have r := r.step _ _ (.of _ b3 _ (Step.commitCb _ 0 _ _ false rfl rfl rfl))
  have r := r.step _ _ (.of _ b3 _ (Step.sendApply _ 0 _ _ 0 _ _ rfl rfl rfl (by decide) rfl))
  have r := r.step _ _ (.of _ b3 _ (Step.deliver _ 0 _ _ _ _ rfl (Or.inl ⟨rfl, rfl⟩) rfl))
  have r := r.step _ _ (.of _ b1 _ (Step.recvVote _ 0 _ _ 0 [true] rfl rfl (Or.inl ⟨rfl, by decide +kernel⟩)))
  have r := r.step _ _ (.of _ b1 _ (Step.decide _ 0 _ _ [true] rfl rfl (all0 _ rfl rfl) rfl))
  have r := r.step _ _ (.of _ b1 _ (Step.commitCb _ 0 _ _ false rfl rfl rfl))
  have r := r.step _ _ (.of _ b1 _ (Step.sendApply _ 0 _ _ 0 _ _ rfl rfl rfl (by decide) rfl))
  have r := r.step _ _ (.of _ b1 _ (Step.deliver _ 0 _ _ _ _ rfl (Or.inl ⟨rfl, rfl⟩) rfl))
  refine ⟨_, exShardDeployed _ exTwice_txs, r, atRest r rfl (by decide +kernel)
    (by decide +kernel) (by decide +kernel) ?_, ⟨cCheat, cBuy, fill 32 14, ?_, by decide +kernel,
    by decide +kernel, by decide +kernel⟩, created mixC buy ++ created mixC cheat ++ [seed1],
    by decide +kernel, ?_, by decide +kernel⟩
  · intro d h1 h2 h3
    simp only [Sys.put, if_neg h1, if_neg h2, if_neg h3]
    exact ⟨rfl, rfl⟩
  · decide +kernel
  · intro g hg
    refine ⟨?_, 0, exShard, rfl, ?_, ?_⟩
    · rcases List.mem_append.mp hg with hg | hg
      · rcases List.mem_append.mp hg with hg | hg
        · exact .inr ⟨buy, .inl rfl, hg⟩
        · exact .inr ⟨cheat, .inr (.inr rfl), hg⟩
      · exact .inl (List.mem_cons_of_mem _ hg)
    · revert g; decide +kernel
    · revert g; decide +kernel

/-! A calm run -/

theorem run_reach {p : Whole} {S₀ S : Sys} (h0 : p.Init S₀) (r : p.Run S₀ S) : p.Reach S := by
  induction r with
  | refl => exact .init _ h0
  | step S1 S2 _ hs _ ih => exact ih.step _ _ hs

theorem run_silent {p : Whole} {S₀ S : Sys} (r : p.Run S₀ S) (d : Hash) {w : World}
    (hs : Step (p.batch d) (S.view d) w) (h : w.shard = S.shard) : p.Run S₀ (S.put d w) := by
  have hsh : ∀ i, (S.put d w).shard i = S.shard i := fun i => congrFun h i
  refine r.step _ _ (.of _ d _ hs) ⟨?_, ?_⟩
  · rintro d' ⟨i, -, h1, h2⟩
    have h2 : ((S.put d w).shard i).prepared d' ≠ none := h2
    rw [hsh] at h2
    exact h2 h1
  · rintro ⟨i, cf, d', b, j, t, x, -, hb, hn, -⟩
    rw [hsh, hb] at hn
    cases hn

theorem run_deliver {p : Whole} (hdis : Uncontested p) {S₀ S : Sys} (h0 : p.Init S₀)
    (r : p.Run S₀ S) (d : Hash) (i : Nat) (cf : Cfg) (q : Req) (s' : State) (a : Resp)
    (hi : p.shards[i]? = some cf) (hq : (S.view d).sent i q)
    (hst : step cf (S.shard i) q = some (s', a))
    (hh : (S.part d).history i = [] ∨ ∃ fs, q = .apply fs d) :
    p.Run S₀ (S.put d (((S.view d).answered d i q a).setShard i s')) := by
  have hr := run_reach h0 r
  have hst' : Step (p.batch d) (S.view d) (((S.view d).answered d i q a).setShard i s') :=
    Step.deliver _ i cf q s' a hi hq hst
  refine r.step _ _ (.of _ d _ hst') ⟨?_, C89_uncontested hdis hr _⟩
  rintro d' ⟨j, hne, h1, h2⟩
  replace h1 : (S.shard j).prepared d' = none := h1
  replace h2 : ((((S.view d).answered d i q a).setShard i s').shard j).prepared d' ≠ none := h2
  replace hne : (S.part d').history j ≠ [] := hne
  simp only [World.setShard, (answered_shard _ _ _ _ _).1] at h2
  split at h2
  · rename_i e
    subst e
    by_cases hd : d' = d
    · subst hd
      rcases hh with hh | ⟨fs, rfl⟩
      · exact hne hh
      · exact h2 (step_unprepared cf _ _ _ _ _ hst h1 (by intro _ h; cases h))
    · have hf := sent_foreign ((reach_inv _ _ (batch_reach hr d)).sent j q hq).1 (d := d')
        (fun e => hd e.symm)
      rw [(foreign_keeps cf _ _ q a d' hf hst).1] at h2
      exact h2 h1
  · exact h2 h1

/-- `buy` in one batch, `buyOn` and money from nowhere in another. -/
def exCalm : Whole where
  shards := [exShard]
  seeds := fun _ => exSeeds
  txs d := if d = b1 then [cBuy] else if d = b2 then [cBuyOn, cFake] else []

theorem exCalm_txs : ∀ d, ∀ t ∈ exCalm.txs d, t = cBuy ∨ t = cBuyOn ∨ t = cCheat ∨ t = cFake := by
  intro d t ht
  simp only [exCalm] at ht
  split at ht
  · exact .inl (List.mem_singleton.mp ht)
  · split at ht
    · simp only [List.mem_cons, List.not_mem_nil, or_false] at ht
      rcases ht with h | h
      · exact .inr (.inl h)
      · exact .inr (.inr (.inr h))
    · simp at ht

theorem exCalm_uncontested : Uncontested exCalm := by
  have key : ∀ (d : Hash) (k : Nat) (t : CompactTx), (exCalm.txs d)[k]? = some t →
      (d = b1 ∧ k = 0 ∧ t = cBuy) ∨ (d = b2 ∧ k = 0 ∧ t = cBuyOn) ∨
        (d = b2 ∧ k = 1 ∧ t = cFake) := by
    intro d k t h
    simp only [exCalm] at h
    split at h
    · rename_i e
      match k, h with
      | 0, h => simp only [List.getElem?_cons_zero, Option.some.injEq] at h; exact .inl ⟨e, rfl, h.symm⟩
    · split at h
      · rename_i e
        match k, h with
        | 0, h =>
          simp only [List.getElem?_cons_zero, Option.some.injEq] at h
          exact .inr (.inl ⟨e, rfl, h.symm⟩)
        | 1, h =>
          simp only [List.getElem?_cons_succ, List.getElem?_cons_zero, Option.some.injEq] at h
          exact .inr (.inr ⟨e, rfl, h.symm⟩)
      · simp at h
  have no : ∀ x ∈ cBuy.inputs, x ∉ cBuyOn.inputs := by decide +kernel
  intro d d' k k' t t' x h h' hx hx'
  rcases key d k t h with ⟨rfl, rfl, rfl⟩ | ⟨rfl, rfl, rfl⟩ | ⟨rfl, rfl, rfl⟩ <;>
    rcases key d' k' t' h' with ⟨rfl, rfl, rfl⟩ | ⟨rfl, rfl, rfl⟩ | ⟨rfl, rfl, rfl⟩
  · exact ⟨rfl, rfl⟩
  · exact absurd hx' (no x hx)
  · simp [cFake] at hx'
  · exact absurd hx (no x hx')
  · exact ⟨rfl, rfl⟩
  · simp [cFake] at hx'
  · simp [cFake] at hx
  · simp [cFake] at hx
  · exact ⟨rfl, rfl⟩

set_option maxRecDepth 8000 in
/-- `buy` is executed, then `buyOn`, and money from nowhere is refused. -/
theorem exCalmRun : ∃ S, exCalm.Run (fresh exCalm) S ∧ S.AtRest exCalm ∧
    S.done exCalm = [cBuy, cBuyOn] ∧ (fresh exCalm).SaysUnspent exCalm (fill 32 14) ∧
    ¬ S.SaysUnspent exCalm (fill 32 14) := by
  have h0 := fresh_init exCalm
  have r := Whole.Run.refl (p := exCalm) (S := fresh exCalm)
  have r := run_silent r b1 (Step.prepareCb _ 0 _ _ false rfl rfl rfl) rfl
  have r := run_silent r b1 (Step.sendLock _ 0 _ _ 0 _ rfl rfl ⟨_, rfl, by decide⟩ rfl) rfl
  have r := run_deliver exCalm_uncontested h0 r b1 0 _ _ _ _ rfl (Or.inl ⟨rfl, rfl⟩) rfl
    (.inl rfl)
  have r := run_silent r b1 (Step.recvVote _ 0 _ _ 0 [true] rfl rfl (Or.inl ⟨rfl, by decide +kernel⟩)) rfl
  have r := run_silent r b1 (Step.decide _ 0 _ _ [true] rfl rfl (all0 _ rfl rfl) rfl) rfl
  have r := run_silent r b1 (Step.commitCb _ 0 _ _ false rfl rfl rfl) rfl
  have r := run_silent r b1 (Step.sendApply _ 0 _ _ 0 _ _ rfl rfl rfl (by decide) rfl) rfl
  have r := run_deliver exCalm_uncontested h0 r b1 0 _ _ _ _ rfl (Or.inl ⟨rfl, rfl⟩) rfl
    (.inr ⟨_, rfl⟩)
  have r := run_silent r b2 (Step.prepareCb _ 0 _ _ false rfl rfl rfl) rfl
  have r := run_silent r b2 (Step.sendLock _ 0 _ _ 0 _ rfl rfl ⟨_, rfl, by decide⟩ rfl) rfl
  have r := run_deliver exCalm_uncontested h0 r b2 0 _ _ _ _ rfl (Or.inl ⟨rfl, rfl⟩) rfl
    (.inl rfl)
  have r := run_silent r b2 (Step.recvVote _ 0 _ _ 0 [true, false] rfl rfl (Or.inl ⟨rfl, by decide +kernel⟩)) rfl
  have r := run_silent r b2 (Step.decide _ 0 _ _ [true, false] rfl rfl (all0 _ rfl rfl) rfl) rfl
  have r := run_silent r b2 (Step.commitCb _ 0 _ _ false rfl rfl rfl) rfl
  have r := run_silent r b2 (Step.sendApply _ 0 _ _ 0 _ _ rfl rfl rfl (by decide) rfl) rfl
  have r := run_deliver exCalm_uncontested h0 r b2 0 _ _ _ _ rfl (Or.inl ⟨rfl, rfl⟩) rfl
    (.inr ⟨_, rfl⟩)
  refine ⟨_, r, atRest (run_reach h0 r) rfl (by decide +kernel) (by decide +kernel)
    (by decide +kernel) ?_, by decide +kernel, ⟨0, exShard, rfl, by decide +kernel,
    by decide +kernel⟩, ?_⟩
  · intro d h1 h2 h3
    simp only [Sys.put, if_neg h1, if_neg h2]
    exact ⟨rfl, rfl⟩
  · rintro ⟨i, cf, hi, -, h⟩
    have hi := (List.getElem?_eq_some_iff.mp hi).1
    have hi : i < 1 := hi
    rw [show i = 0 by omega] at h
    revert h
    decide +kernel

/-- So the theorems speak about this run. -/
example : ∃ S T, exCalm.Run (fresh exCalm) S ∧ S.done exCalm = [cBuy, cBuyOn] ∧ worth T = 14 ∧
    ∀ x, S.Unspent exCalm x ↔ ∃ g ∈ T, g.hash mixC = x := by
  obtain ⟨S, r, hrest, hd, -⟩ := exCalmRun
  obtain ⟨T, -, -, hw, hT⟩ :=
    C89_supply_partial (exShardDeployed _ exCalm_txs) (fresh_init exCalm) r hrest
  exact ⟨S, T, r, hd, hw.trans (by decide +kernel), hT⟩

end Verif.Money.TwoPhase
