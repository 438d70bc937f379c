import Verif.Money.Atomizer

/-! Property C88: the money of the atomizer system. -/
namespace Verif.Money

open Verif.Tx Verif.Serial Verif.Atomizer

/-- A deployment of the atomizer system: the coins `G` were seeded into the shards, `tx_notify`
checks attestations (`src/uhs/atomizer/atomizer/atomizer_raft.cpp:55-63`), nobody calls
`atomizer::insert` past it, and sentinels and hashes are as assumed.  What the shards and the
atomizer receive (`P.submitted`) is arbitrary but for forged signatures. -/
structure Deployed (c : Crypto) (keys : List PubKey) (threshold : Nat) (honest : PubKey → Prop)
    (signed : FullTx → Prop) (G : List Coin) (P : Params) : Prop where
  books : Books c signed G
  sentinels : Sentinels c keys threshold honest signed
    fun t => P.submitted t ∧ P.attested t = true
  check : ∀ t, P.attested t = checkAttestations c t keys threshold
  through : ∀ t, ¬ P.direct t
  seeded : ∀ x, P.genesis x = true ↔ ∃ g ∈ G, g.hash c = x

section
variable {c : Crypto} {keys : List PubKey} {threshold : Nat} {honest : PubKey → Prop}
  {signed : FullTx → Prop} {G : List Coin} {P : Params}

theorem chain_full (D : Deployed c keys threshold honest signed G P) {w : World} (h : Reach P w) :
    ∃ ts : List FullTx, (∀ t ∈ ts, signed t) ∧
      (txsOf w.chain).map (fun t => { t with attestations := [] }) = ts.map (CompactTx.ofFull c) ∧
      Legal P.start (ts.map (CompactTx.ofFull c)) := by
  have hr := (reach_trim D.through h).1
  have hfull : ∀ t : CompactTx, sealed P t = true →
      ∃ f, signed f ∧ { t with attestations := [] } = CompactTx.ofFull c f := by
    intro t ht
    obtain ⟨h1, h2⟩ := sealed_iff.mp ht
    exact attested_full D.books D.sentinels ⟨h2, h1⟩ (D.check t ▸ h1)
  have hids : IdsCommit (sealedP P) := by
    intro a b ha hb he
    obtain ⟨f, hf, hfa⟩ := hfull a ha
    obtain ⟨f', hf', hfb⟩ := hfull b hb
    have hid : txId c f = txId c f' := by
      have h1 := congrArg CompactTx.id hfa
      have h2 := congrArg CompactTx.id hfb
      simp only [CompactTx.ofFull] at h1 h2
      rw [← h1, ← h2, he]
    have h1 := congrArg CompactTx.inputs hfa
    have h2 := congrArg CompactTx.inputs hfb
    simp only [CompactTx.ofFull] at h1 h2
    rw [h1, h2, (ids_commit D.books hf hf' hid).1]
  obtain ⟨ts, hts, he⟩ := full_list (c := c) (signed := signed) (txsOf w.chain) (by
    intro t ht
    obtain ⟨b, hb, hbt⟩ := List.mem_flatMap.mp ht
    rcases (reach_signed hr).chain b hb t hbt with h' | h'
    · exact hfull t h'
    · exact absurd h' (D.through t))
  have hleg : Legal P.start (txsOf w.chain) := C19_legal (w := trim P w) hids hr
  exact ⟨ts, hts, he, he ▸ legal_strip hleg⟩

/-- **C88.** The blocks of the atomizer hold the compact forms of well-formed transactions that
honest sentinels have signed, each at most once, in an order in which each spends only coins that
exist.  After any number of them the unspent ids are the ids of the coins then in existence, one
id for each coin. -/
theorem C88_lawful (D : Deployed c keys threshold honest signed G P) {w : World} (h : Reach P w) :
    ∃ ts : List FullTx, (∀ t ∈ ts, signed t) ∧
      (txsOf w.chain).map (fun t => { t with attestations := [] }) = ts.map (CompactTx.ofFull c) ∧
      Lawful c G ts ∧ (ts.map (txId c)).Nodup ∧
      ∀ n, ((coinsAfter c G (ts.take n)).map (Input.hash c)).Nodup ∧
        ∀ x, P.start.after ((txsOf w.chain).take n) x ↔
          ∃ g ∈ coinsAfter c G (ts.take n), g.hash c = x := by
  obtain ⟨ts, hts, he, hl⟩ := chain_full D h
  have hL : ∀ x, P.start x ↔ ∃ g ∈ G, g.hash c = x := D.seeded
  obtain ⟨hlaw, I⟩ := legal_lawful D.books hL ts hts hl
  refine ⟨ts, hts, he, hlaw, I.ids, ?_⟩
  intro n
  obtain ⟨-, I'⟩ := legal_lawful D.books hL (ts.take n) (fun t ht => hts t (List.mem_of_mem_take ht))
    (by rw [List.map_take]; exact legal_take hl n)
  refine ⟨I'.nodup.map_on ?_, ?_⟩
  · intro a ha b hb hab
    exact hash_inj D.books (I'.hashed ha) (I'.hashed hb) hab
  · intro x
    rw [← I'.ledger, List.map_take, ← he, ← List.map_take, after_strip]

/-- **C88.** The amount of money does not change: after any number of blocks the unspent ids are
the ids of coins, one each, that are together worth what was seeded. -/
theorem C88_supply (D : Deployed c keys threshold honest signed G P) {w : World} (h : Reach P w)
    (n : Nat) :
    ∃ S : List Coin, (∀ g ∈ S, g ∈ G ∨ ∃ t, signed t ∧ g ∈ created c t) ∧
      (S.map (Input.hash c)).Nodup ∧ worth S = worth G ∧
      ∀ x, P.start.after (txsOf (w.chain.take n)) x ↔ ∃ g ∈ S, g.hash c = x := by
  obtain ⟨ts, hts, he, hl⟩ := chain_full D h
  have hL : ∀ x, P.start x ↔ ∃ g ∈ G, g.hash c = x := D.seeded
  have hpre : txsOf (w.chain.take n) = (txsOf w.chain).take (txsOf (w.chain.take n)).length := by
    have : txsOf w.chain = txsOf (w.chain.take n) ++ txsOf (w.chain.drop n) := by
      rw [← txsOf_append, List.take_append_drop]
    rw [this, List.take_append_of_le_length (Nat.le_refl _), List.take_length]
  generalize (txsOf (w.chain.take n)).length = m at hpre
  rw [hpre]
  obtain ⟨-, I⟩ := legal_lawful D.books hL (ts.take m) (fun t ht => hts t (List.mem_of_mem_take ht))
    (by rw [List.map_take]; exact legal_take hl m)
  refine ⟨coinsAfter c G (ts.take m), ?_, I.nodup.map_on ?_, I.worth, ?_⟩
  · intro g hg
    rcases I.origin g hg with h' | ⟨t, ht, h'⟩
    · exact .inl h'
    · exact .inr ⟨t, I.signed t ht, h'⟩
  · intro a ha b hb hab
    exact hash_inj D.books (I.hashed ha) (I.hashed hb) hab
  · intro x
    rw [← I.ledger, List.map_take, ← he, ← List.map_take, after_strip]

/-- **C88.** A coin disappears only by its owner's signature: if an id is unspent after `m` blocks
and not after `n`, a block in between has a transaction that spends it, which is the compact form
of one that the owner of the coin with this id has signed. -/
theorem C88_owner (D : Deployed c keys threshold honest signed G P) {w : World} (h : Reach P w)
    (m n : Nat) (hmn : m ≤ n) (x : Hash) (hm : P.start.after (txsOf (w.chain.take m)) x)
    (hn : ¬ P.start.after (txsOf (w.chain.take n)) x) :
    ∃ b ∈ (w.chain.take n).drop m, ∃ t ∈ b.txs, ∃ (f : FullTx) (g : Coin), signed f ∧
      { t with attestations := [] } = CompactTx.ofFull c f ∧ g.hash c = x ∧ SpentByOwner c f g := by
  obtain ⟨ts, hts, he, -⟩ := chain_full D h
  have hsplit : w.chain.take n = w.chain.take m ++ (w.chain.take n).drop m := by
    conv => lhs; rw [← List.take_append_drop m (w.chain.take n)]
    rw [List.take_take, Nat.min_eq_left hmn]
  have hex : ∃ t ∈ txsOf ((w.chain.take n).drop m), x ∈ t.inputs := by
    refine Classical.byContradiction fun hno => hn ?_
    rw [hsplit, txsOf_append, after_append]
    exact after_keeps _ _ x hm fun t ht hx => hno ⟨t, ht, hx⟩
  obtain ⟨t, ht, hx⟩ := hex
  obtain ⟨b, hb, hbt⟩ := List.mem_flatMap.mp ht
  have hmem : ({ t with attestations := [] } : CompactTx) ∈ ts.map (CompactTx.ofFull c) := by
    rw [← he]
    exact List.mem_map_of_mem (f := fun t : CompactTx => { t with attestations := [] })
      (List.mem_flatMap.mpr ⟨b, List.mem_of_mem_take (List.mem_of_mem_drop hb), hbt⟩)
  obtain ⟨f, hf, hft⟩ := List.mem_map.mp hmem
  have hi : t.inputs = f.inputs.map (Input.hash c) := (congrArg CompactTx.inputs hft).symm
  rw [hi, List.mem_map] at hx
  obtain ⟨g, hg, hgx⟩ := hx
  exact ⟨b, hb, t, hbt, f, g, hts f hf, hft.symm, hgx,
    spent_by_owner (D.books.checked f (hts f hf)) hg⟩

/-- **C88.** No id is spent twice, ever: two different places in the chain have no input in
common. -/
theorem C88_once (D : Deployed c keys threshold honest signed G P) {w : World} (h : Reach P w)
    (i j : Nat) (a b : CompactTx) (x : Hash) (hij : i < j) (ha : (txsOf w.chain)[i]? = some a)
    (hb : (txsOf w.chain)[j]? = some b) (hxa : x ∈ a.inputs) : x ∉ b.inputs := by
  intro hxb
  obtain ⟨ts, hts, he, hl⟩ := chain_full D h
  have hL : ∀ x, P.start x ↔ ∃ g ∈ G, g.hash c = x := D.seeded
  have hget : ∀ (k : Nat) (t : CompactTx), (txsOf w.chain)[k]? = some t → x ∈ t.inputs →
      ∃ f g, ts[k]? = some f ∧ g ∈ f.inputs ∧ g.hash c = x := by
    intro k t hk hx
    have hk' := congrArg (fun l : List CompactTx => l[k]?) he
    simp only [List.getElem?_map, hk, Option.map_some] at hk'
    obtain ⟨f, hf, hft⟩ := Option.map_eq_some_iff.mp hk'.symm
    rw [show t.inputs = f.inputs.map (Input.hash c) from (congrArg CompactTx.inputs hft).symm,
      List.mem_map] at hx
    obtain ⟨g, hg, hgx⟩ := hx
    exact ⟨f, g, hf, hg, hgx⟩
  obtain ⟨fa, ga, hfa, hga, hgax⟩ := hget i a ha hxa
  obtain ⟨fb, gb, hfb, hgb, hgbx⟩ := hget j b hb hxb
  have hsa := hts fa (List.mem_of_getElem? hfa)
  have hsb := hts fb (List.mem_of_getElem? hfb)
  have heq := hash_inj D.books (.input fa ga hsa hga) (.input fb gb hsb hgb) (hgax.trans hgbx.symm)
  obtain ⟨hlaw, -⟩ := legal_lawful D.books hL ts hts hl
  obtain ⟨-, I⟩ := legal_lawful D.books hL (ts.take j) (fun t ht => hts t (List.mem_of_mem_take ht))
    (by rw [List.map_take]; exact legal_take hl j)
  refine I.spent fa ?_ ga hga (heq ▸ (hlaw j fb hfb).2 gb hgb)
  apply List.mem_iff_getElem?.mpr
  exact ⟨i, by rw [List.getElem?_take_of_lt hij]; exact hfa⟩

end

/-! #### The assumptions can be met, and something happens -/

/-- A hash of one byte, without collisions on the few strings below; signatures as in `toy`. -/
def mixC : Crypto := { toy with sha := fun b => fill 32 (b.foldl (fun a x => a * 3 + x + 1) 0) }
/-- The commitment of the owner with key `k`. -/
def own (k : UInt8) : Hash := mixC.sha (0 :: (fill 32 k).val)
/-- A witness with key `k`. -/
def wit (k : UInt8) : Bytes := 0 :: ((fill 32 k).val ++ (fill 64 k).val)
/-- A seeded coin worth 10. -/
def seed0 : Coin := ⟨⟨fill 32 1, 0⟩, ⟨own 5, 10⟩⟩
/-- A seeded coin worth 4. -/
def seed1 : Coin := ⟨⟨fill 32 1, 1⟩, ⟨own 6, 4⟩⟩
/-- Spends the first seeded coin. -/
def buy : FullTx := ⟨[seed0], [⟨own 6, 7⟩, ⟨own 5, 3⟩], [wit 5]⟩
/-- Spends an output of `buy` and the second seeded coin. -/
def buyOn : FullTx := ⟨[⟨⟨txId mixC buy, 0⟩, ⟨own 6, 7⟩⟩, seed1], [⟨own 4, 11⟩], [wit 6, wit 6]⟩
/-- Spends the first seeded coin, too. -/
def cheat : FullTx := ⟨[seed0], [⟨own 4, 10⟩], [wit 5]⟩

/-- Signatures of the sentinels 7 and 8. -/
def atts : List (PubKey × Sig) := [(fill 32 7, fill 64 7), (fill 32 8, fill 64 8)]
/-- `buy` as the shards see it. -/
def cBuy : CompactTx := ⟨fill 32 29, [fill 32 14], [fill 32 109, fill 32 44], atts⟩
/-- `buyOn` as the shards see it. -/
def cBuyOn : CompactTx := ⟨fill 32 206, [fill 32 109, fill 32 183], [fill 32 217], atts⟩
/-- `cheat` as the shards see it. -/
def cCheat : CompactTx := ⟨fill 32 98, [fill 32 14], [fill 32 78], atts⟩
/-- Money from nowhere, signed by the dishonest sentinel 8 only. -/
def cFake : CompactTx := ⟨fill 32 77, [], [fill 32 79], [(fill 32 8, fill 64 8)]⟩

/-- Three sentinels, two of which must sign. -/
def exKeys : List PubKey := [fill 32 7, fill 32 8, fill 32 3]
/-- What the honest sentinels sign. -/
def exSigned : FullTx → Prop := fun t => t = buy ∨ t = buyOn ∨ t = cheat
/-- One shard, cache depth 1. -/
def exMoney : Params where
  depth := 1
  range := fun _ => (0, 255)
  attested := fun t => checkAttestations mixC t exKeys 2
  genesis := fun x => decide (x = fill 32 14 ∨ x = fill 32 183)
  submitted := fun t => t = cBuy ∨ t = cBuyOn ∨ t = cCheat ∨ t = cFake
  direct := fun _ => False

/-- The strings hashed in the example. -/
def exPre : List Bytes := [buy, buyOn, cheat].map txIdPreimage ++
  ([buy, buyOn, cheat].flatMap (fun t => t.inputs ++ created mixC t) ++ [seed0, seed1]).map
    fun g => enc tInput g.wire

theorem exBooks : Books mixC exSigned [seed0, seed1] where
  validated := by
    rintro t (rfl | rfl | rfl) <;>
      exact ⟨⟨mixC, fun _ => (fill 32 7, fill 64 7), 2, 2⟩, (fill 32 7, fill 64 7), rfl,
        by decide +kernel⟩
  fits := by
    rintro t (rfl | rfl | rfl) <;>
      exact ⟨by decide, by decide, by decide, by decide +kernel⟩
  distinct := by decide +kernel
  new := by
    have : ∀ g ∈ [seed0, seed1], ∀ t ∈ [buy, buyOn, cheat], g.prevout.txId ≠ txId mixC t := by
      decide +kernel
    rintro g hg t (rfl | rfl | rfl) <;> exact this g hg _ (by simp)
  noCollision := by
    have hm : ∀ a, Hashed mixC exSigned [seed0, seed1] a → a ∈ exPre := by
      have hin : ∀ g, (∃ t ∈ [buy, buyOn, cheat], g ∈ t.inputs ++ created mixC t) ∨
          g ∈ [seed0, seed1] → enc tInput g.wire ∈ exPre := by
        intro g hg
        refine List.mem_append_right _ (List.mem_map_of_mem (f := fun g : Coin => enc tInput g.wire) ?_)
        rcases hg with ⟨t, ht, h⟩ | h
        · exact List.mem_append_left _ (List.mem_flatMap.mpr ⟨t, ht, h⟩)
        · exact List.mem_append_right _ h
      have hs : ∀ t, exSigned t → t ∈ [buy, buyOn, cheat] := by
        rintro t (rfl | rfl | rfl) <;> simp
      intro a ha
      cases ha with
      | tx t ht => exact List.mem_append_left _ (List.mem_map_of_mem (hs t ht))
      | input t g ht hg => exact hin g (.inl ⟨t, hs t ht, List.mem_append_left _ hg⟩)
      | output t g ht hg => exact hin g (.inl ⟨t, hs t ht, List.mem_append_right _ hg⟩)
      | start g hg => exact hin g (.inr hg)
    have hc : ∀ a ∈ exPre, ∀ b ∈ exPre, mixC.sha a = mixC.sha b → a = b := by decide +kernel
    exact fun a b ha hb => hc a (hm a ha) b (hm b hb)

theorem exDeployed : Deployed mixC exKeys 2 (fun k => k ≠ fill 32 8) exSigned [seed0, seed1]
    exMoney where
  books := exBooks
  sentinels := by
    have hseen : ∀ ctx, exMoney.submitted ctx ∧ exMoney.attested ctx = true →
        ctx = cBuy ∨ ctx = cBuyOn ∨ ctx = cCheat := by
      rintro ctx ⟨rfl | rfl | rfl | rfl, h⟩
      · exact .inl rfl
      · exact .inr (.inl rfl)
      · exact .inr (.inr rfl)
      · exact absurd h (by decide +kernel)
    refine ⟨?_, ?_, ?_, ?_⟩
    · intro ks hnd _ hlen
      refine Classical.byContradiction fun hno => ?_
      have hall : ∀ k ∈ ks, k = fill 32 8 := fun k hk =>
        Classical.byContradiction fun h => hno ⟨k, hk, h⟩
      match ks, hnd, hlen with
      | a :: b :: _, hnd, _ =>
        have h1 := hall a (by simp)
        have h2 := hall b (by simp)
        simp [h1, h2] at hnd
    · intro ctx k s hs _ _ _
      rcases hseen ctx hs with rfl | rfl | rfl
      · exact ⟨buy, .inl rfl, by decide +kernel⟩
      · exact ⟨buyOn, .inr (.inl rfl), by decide +kernel⟩
      · exact ⟨cheat, .inr (.inr rfl), by decide +kernel⟩
    · intro ctx hs
      rcases hseen ctx hs with rfl | rfl | rfl <;>
        exact ⟨by decide, by decide, by decide, by decide +kernel⟩
    · intro t ctx ht hs
      have hc : ∀ t ∈ [buy, buyOn, cheat], ∀ ctx ∈ [cBuy, cBuyOn, cCheat],
          mixC.sha (enc tCompactTx (CompactTx.ofFull mixC t).wire) =
            mixC.sha (enc tCompactTx ({ ctx with attestations := [] } : CompactTx).wire) →
          enc tCompactTx (CompactTx.ofFull mixC t).wire =
            enc tCompactTx ({ ctx with attestations := [] } : CompactTx).wire := by decide +kernel
      refine hc t ?_ ctx ?_
      · rcases ht with rfl | rfl | rfl <;> simp
      · rcases hseen ctx hs with rfl | rfl | rfl <;> simp
  check := fun _ => rfl
  through := fun _ h => h
  seeded := by
    intro x
    have h0 : seed0.hash mixC = fill 32 14 := by decide +kernel
    have h1 : seed1.hash mixC = fill 32 183 := by decide +kernel
    simp only [exMoney, decide_eq_true_eq, List.mem_cons, List.not_mem_nil, or_false]
    constructor
    · rintro (rfl | rfl)
      · exact ⟨seed0, .inl rfl, h0⟩
      · exact ⟨seed1, .inr rfl, h1⟩
    · rintro ⟨g, rfl | rfl, rfl⟩
      · exact .inl h0
      · exact .inr h1

/-- A run: both `buy` and `cheat` are attested by the shard, money from nowhere is sent to the
atomizer and ignored, `buy` is confirmed, then `buyOn`, and `cheat` is refused. -/
theorem exMoneyRun : ∃ w, Reach exMoney w ∧ w.chain.map Block.txs = [[], [cBuy], [cBuyOn]] ∧
    cCheat ∈ w.aggs.map Agg.tx ∧ cFake ∈ w.notifs.map Notif.tx := by
  have r := Reach.init (P := exMoney)
  have r := r.step _ _ (Step.block _ _ _ _ (by decide) rfl)
  have r := r.step _ _ (Step.digest _ 0 ⟨1, []⟩ (by decide))
  have r := r.step _ _ (Step.attest _ 0 cBuy ⟨cBuy, [0], 1⟩ (.inl rfl) rfl)
  have r := r.step _ _ (Step.attest _ 0 cCheat ⟨cCheat, [0], 1⟩ (.inr (.inr (.inl rfl))) rfl)
  have r := r.step _ _ (Step.mint _ ⟨cFake, [], 1⟩ (.inr (.inr (.inr rfl))) rfl)
  have r := r.step _ _ (Step.notify _ 0 ⟨cBuy, [0], 1⟩ (by decide))
  have r := r.step _ _ (Step.notify _ 0 ⟨cCheat, [0], 1⟩ (by decide))
  have r := r.step _ _ (Step.notify _ 0 ⟨cFake, [], 1⟩ (by decide))
  have r := r.step _ _ (Step.propose _ 0)
  have r := r.step _ _ (Step.commit _ [⟨cBuy, 1⟩, ⟨cCheat, 1⟩] _ _ (by decide +kernel) rfl)
  have r := r.step _ _ (Step.block _ _ _ _ (by decide) rfl)
  have r := r.step _ _ (Step.digest _ 0 ⟨2, [cBuy]⟩ (by decide +kernel))
  have r := r.step _ _ (Step.attest _ 0 cBuyOn ⟨cBuyOn, [0, 1], 2⟩ (.inr (.inl rfl)) rfl)
  have r := r.step _ _ (Step.notify _ 0 ⟨cBuyOn, [0, 1], 2⟩ (by decide +kernel))
  have r := r.step _ _ (Step.propose _ 0)
  have r := r.step _ _ (Step.commit _ [⟨cBuyOn, 2⟩, ⟨cCheat, 1⟩] _ _ (by decide +kernel) rfl)
  have r := r.step _ _ (Step.block _ _ _ _ (by decide) rfl)
  exact ⟨_, r, by decide +kernel, by decide +kernel, by decide +kernel⟩

/-- In that run all coins are worth 14 at the end. -/
example : worth (coinsAfter mixC [seed0, seed1] [buy, buyOn]) = 14 ∧
    coinsAfter mixC [seed0, seed1] [buy, buyOn] = (created mixC buy).drop 1 ++ created mixC buyOn ∧
    worth [seed0, seed1] = 14 := by decide +kernel

end Verif.Money
