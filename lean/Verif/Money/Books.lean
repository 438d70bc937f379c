import Verif.Money.Spec
import Verif.Tx.Props
import Verif.Atomizer.Lemmas
import Verif.Sentinel.TwoPhase
import Verif.Wallet.Model
import Mathlib.Data.List.Nodup

/-!
The ids of coins, and the coins behind them.

The shards and the atomizer see ids only.  Here a list of ids that is legal for them is shown to
be a lawful list of transactions over whole coins, as long as no two of the byte strings that were
hashed have the same hash.
-/
namespace Verif.Money

open Verif.Tx Verif.Serial Verif.Atomizer

/-- The byte strings of coins and transactions that are hashed in a run: transactions that the
honest sentinels sign (`signed`), the coins these spend and create, and the coins that exist from
the start. -/
inductive Hashed (c : Crypto) (signed : FullTx → Prop) (G : List Coin) : Bytes → Prop where
  | tx (t : FullTx) : signed t → Hashed c signed G (txIdPreimage t)
  | input (t : FullTx) (g : Coin) : signed t → g ∈ t.inputs → Hashed c signed G (enc tInput g.wire)
  | output (t : FullTx) (g : Coin) : signed t → g ∈ created c t →
    Hashed c signed G (enc tInput g.wire)
  | start (g : Coin) : g ∈ G → Hashed c signed G (enc tInput g.wire)

/-- What is assumed of the transactions that honest sentinels sign, and of the coins that exist
from the start: a sentinel's `validate_transaction` agreed to the transactions
(`src/uhs/atomizer/sentinel/controller.cpp:118-128`,
`src/uhs/twophase/sentinel_2pc/controller.cpp:143-155`), they fit in memory, the first coins are
different from each other and were not created by one of the transactions, and there is no
collision among the hashes computed. -/
structure Books (c : Crypto) (signed : FullTx → Prop) (G : List Coin) : Prop where
  validated : ∀ t, signed t → ∃ (cfg : Sentinel.TwoPhase.Cfg) (a : PubKey × Sig), cfg.crypto = c ∧
    Sentinel.TwoPhase.validateTransaction cfg t = some (some a)
  fits : ∀ t, signed t → t.Fits
  distinct : G.Nodup
  new : ∀ g ∈ G, ∀ t, signed t → g.prevout.txId ≠ txId c t
  noCollision : ∀ a b, Hashed c signed G a → Hashed c signed G b → c.sha a = c.sha b → a = b

theorem Books.checked {c : Crypto} {signed : FullTx → Prop} {G : List Coin} (B : Books c signed G)
    (t : FullTx) (h : signed t) : WellFormed c t := by
  obtain ⟨cfg, a, rfl, hv⟩ := B.validated t h
  exact (C08_accepts_iff _ t).mp (Sentinel.TwoPhase.C18_attests_valid cfg t a hv).1

theorem mem_created {c : Crypto} {t : FullTx} {g : Coin} :
    g ∈ created c t ↔ ∃ (i : Nat) (o : Output), t.outputs[i]? = some o ∧
      g = ⟨⟨txId c t, UInt64.ofNat i⟩, o⟩ := by
  simp only [created, List.mem_iff_getElem?, List.getElem?_mapIdx, Option.map_eq_some_iff]
  constructor
  · rintro ⟨i, o, h, rfl⟩; exact ⟨i, o, h, rfl⟩
  · rintro ⟨i, o, h, rfl⟩; exact ⟨i, o, h, rfl⟩

theorem created_txId {c : Crypto} {t : FullTx} {g : Coin} (h : g ∈ created c t) :
    g.prevout.txId = txId c t := by
  obtain ⟨i, o, _, rfl⟩ := mem_created.mp h
  rfl

theorem created_nodup {c : Crypto} {t : FullTx} (h : t.Fits) : (created c t).Nodup := by
  rw [List.nodup_iff_getElem?_ne_getElem?]
  intro i j hij hj heq
  simp only [created, List.length_mapIdx] at hj
  have hl := h.2.1
  simp only [created, List.getElem?_mapIdx, List.getElem?_eq_getElem hj,
    List.getElem?_eq_getElem (Nat.lt_trans hij hj), Option.map_some, Option.some.injEq,
    Input.mk.injEq, OutPoint.mk.injEq, true_and] at heq
  have := congrArg UInt64.toNat heq.1
  simp only [UInt64.toNat_ofNat'] at this
  rw [Nat.mod_eq_of_lt (by omega), Nat.mod_eq_of_lt (by omega)] at this
  omega

theorem created_uhs (c : Crypto) (t : FullTx) :
    (created c t).map (Input.hash c) = (CompactTx.ofFull c t).uhsOutputs := by
  apply List.ext_getElem?
  intro i
  simp only [created, CompactTx.ofFull, List.getElem?_map, List.getElem?_mapIdx, Option.map_map]
  congr 1

theorem hash_inj {c : Crypto} {signed : FullTx → Prop} {G : List Coin} (B : Books c signed G)
    {a b : Coin} (ha : Hashed c signed G (enc tInput a.wire))
    (hb : Hashed c signed G (enc tInput b.wire)) (h : a.hash c = b.hash c) : a = b := by
  have he := B.noCollision _ _ ha hb h
  have : enc tInput a.wire ++ [] = enc tInput b.wire ++ [] := by rw [he]
  exact wire_input_inj (enc_inj _ _ _ a.wire_wf b.wire_wf this).1

theorem inputs_nodup {c : Crypto} {t : FullTx} (h : WellFormed c t) : t.inputs.Nodup :=
  h.no_outpoint_twice.of_map

theorem worth_append (a b : List Coin) : worth (a ++ b) = worth a + worth b := by
  simp [worth, List.sum_append]

theorem worth_perm {a b : List Coin} (h : a.Perm b) : worth a = worth b :=
  (h.map _).sum_nat

theorem worth_split (S : List Coin) (p : Coin → Bool) :
    worth S = worth (S.filter p) + worth (S.filter fun g => !p g) := by
  rw [← worth_append]
  exact worth_perm (List.filter_append_perm p S).symm

theorem worth_created (c : Crypto) (t : FullTx) :
    worth (created c t) = total (t.outputs.map (·.value)) := by
  simp only [worth, total, List.map_map]
  congr 1
  apply List.ext_getElem?
  intro i
  simp only [created, List.getElem?_map, List.getElem?_mapIdx, Option.map_map]
  rfl

/-- A balanced transaction that spends coins of `S` does not change what `S` is worth. -/
theorem worth_spend {c : Crypto} {S : List Coin} {t : FullTx} (hS : S.Nodup) (ht : WellFormed c t)
    (hin : ∀ g ∈ t.inputs, g ∈ S) : worth (spend c S t) = worth S := by
  rw [spend, worth_append, worth_created, ← ht.balanced, worth_split S (fun g => decide (g ∉ t.inputs))]
  congr 1
  have hp : (S.filter fun g => !decide (g ∉ t.inputs)).Perm t.inputs := by
    rw [List.perm_ext_iff_of_nodup (hS.filter _) (inputs_nodup ht)]
    intro g
    simp only [List.mem_filter, decide_not, Bool.not_not, decide_eq_true_eq]
    exact ⟨fun h => h.2, fun h => ⟨hin g h, h⟩⟩
  rw [worth_perm hp]
  simp [worth, total, Function.comp_def]

/-- What is true after some transactions. -/
structure Inv (c : Crypto) (signed : FullTx → Prop) (G : List Coin) (L : Ledger)
    (past : List FullTx) : Prop where
  signed : ∀ t ∈ past, signed t
  nodup : (coinsAfter c G past).Nodup
  ledger : ∀ x, L.after (past.map (CompactTx.ofFull c)) x ↔
    ∃ g ∈ coinsAfter c G past, g.hash c = x
  worth : worth (coinsAfter c G past) = Money.worth G
  origin : ∀ g ∈ coinsAfter c G past, g ∈ G ∨ ∃ t ∈ past, g ∈ created c t
  spent : ∀ t ∈ past, ∀ g ∈ t.inputs, g ∉ coinsAfter c G past
  source : ∀ t ∈ past, ∀ g ∈ t.inputs, g ∈ G ∨ ∃ t' ∈ past, g ∈ created c t'
  ids : (past.map (txId c)).Nodup

theorem coinsAfter_snoc (c : Crypto) (G : List Coin) (ts : List FullTx) (t : FullTx) :
    coinsAfter c G (ts ++ [t]) = spend c (coinsAfter c G ts) t := by
  simp [coinsAfter, List.foldl_append]

theorem inv_nil {c : Crypto} {signed : FullTx → Prop} {G : List Coin} (B : Books c signed G)
    {L : Ledger} (hL : ∀ x, L x ↔ ∃ g ∈ G, g.hash c = x) : Inv c signed G L [] where
  signed := by simp
  nodup := B.distinct
  ledger := hL
  worth := rfl
  origin := fun g hg => .inl hg
  spent := by simp
  source := by simp
  ids := by simp

theorem Inv.hashed {c : Crypto} {signed : FullTx → Prop} {G : List Coin} {L : Ledger}
    {past : List FullTx} (I : Inv c signed G L past) {g : Coin} (hg : g ∈ coinsAfter c G past) :
    Hashed c signed G (enc tInput g.wire) := by
  rcases I.origin g hg with h | ⟨t, ht, h⟩
  · exact .start g h
  · exact .output t g (I.signed t ht) h

theorem ids_commit {c : Crypto} {signed : FullTx → Prop} {G : List Coin} (B : Books c signed G)
    {a b : FullTx} (ha : signed a) (hb : signed b) (h : txId c a = txId c b) :
    a.inputs = b.inputs ∧ a.outputs = b.outputs :=
  C05_id_commits c a b (B.fits a ha) (B.fits b hb)
    (B.noCollision _ _ (.tx a ha) (.tx b hb)) h

/-- One more transaction. -/
theorem inv_snoc {c : Crypto} {signed : FullTx → Prop} {G : List Coin} (B : Books c signed G)
    {L : Ledger} {past : List FullTx} (I : Inv c signed G L past) {t : FullTx} (hs : signed t)
    (hl : ∀ x ∈ (CompactTx.ofFull c t).inputs, L.after (past.map (CompactTx.ofFull c)) x) :
    (∀ g ∈ t.inputs, g ∈ coinsAfter c G past) ∧ Inv c signed G L (past ++ [t]) := by
  have hin : ∀ g ∈ t.inputs, g ∈ coinsAfter c G past := by
    intro g hg
    obtain ⟨g', hg', he⟩ := (I.ledger _).mp (hl (g.hash c) (List.mem_map_of_mem hg))
    exact hash_inj B (I.hashed hg') (.input t g hs hg) he ▸ hg'
  have hnew : ∀ t' ∈ past, txId c t' ≠ txId c t := by
    intro t' ht' he
    have hi := (ids_commit B (I.signed t' ht') hs he).1
    obtain ⟨g, hg⟩ := List.exists_mem_of_ne_nil _ (B.checked t hs).has_input
    exact I.spent t' ht' g (hi ▸ hg) (hin g hg)
  have hsrc : ∀ g, (g ∈ G ∨ ∃ t' ∈ past, g ∈ created c t') → g ∉ created c t := by
    intro g hg hc
    rcases hg with h | ⟨t', ht', h⟩
    · exact B.new g h t hs (created_txId hc)
    · exact hnew t' ht' ((created_txId h).symm.trans (created_txId hc))
  refine ⟨hin, ?_⟩
  constructor
  · intro t' ht'
    rcases List.mem_append.mp ht' with h | h
    · exact I.signed t' h
    · rw [List.mem_singleton.mp h]; exact hs
  · rw [coinsAfter_snoc, spend, List.nodup_append]
    refine ⟨I.nodup.filter _, created_nodup (B.fits t hs), ?_⟩
    intro a ha b hb he
    exact hsrc a (I.origin a (List.mem_filter.mp ha).1) (he ▸ hb)
  · intro x
    rw [List.map_append, after_append, coinsAfter_snoc]
    simp only [List.map_cons, List.map_nil, after_cons, after_nil, Ledger.apply, I.ledger, spend,
      ← created_uhs, List.mem_map, List.mem_append, List.mem_filter, decide_eq_true_eq]
    simp only [CompactTx.ofFull, List.mem_map]
    constructor
    · rintro ⟨⟨g, hg, rfl⟩ | ⟨g, hg, rfl⟩, hn⟩
      · exact ⟨g, .inl ⟨hg, fun h => hn ⟨g, h, rfl⟩⟩, rfl⟩
      · exact ⟨g, .inr hg, rfl⟩
    · rintro ⟨g, ⟨hg, hn⟩ | hg, rfl⟩
      · refine ⟨.inl ⟨g, hg, rfl⟩, ?_⟩
        rintro ⟨g', hg', he⟩
        exact hn (hash_inj B (.input t g' hs hg') (I.hashed hg) he ▸ hg')
      · refine ⟨.inr ⟨g, hg, rfl⟩, ?_⟩
        rintro ⟨g', hg', he⟩
        have := hash_inj B (.input t g' hs hg') (.output t g hs hg) he
        exact hsrc g (I.origin g (this ▸ hin g' hg')) hg
  · rw [coinsAfter_snoc, worth_spend I.nodup (B.checked t hs) hin, I.worth]
  · intro g hg
    rw [coinsAfter_snoc, spend, List.mem_append, List.mem_filter] at hg
    rcases hg with ⟨h, _⟩ | h
    · rcases I.origin g h with h | ⟨t', ht', h⟩
      · exact .inl h
      · exact .inr ⟨t', List.mem_append_left _ ht', h⟩
    · exact .inr ⟨t, by simp, h⟩
  · intro t' ht' g hg
    rw [coinsAfter_snoc, spend, List.mem_append, List.mem_filter]
    rcases List.mem_append.mp ht' with h | h
    · rintro (⟨h', _⟩ | h')
      · exact I.spent t' h g hg h'
      · exact hsrc g (I.source t' h g hg) h'
    · rw [List.mem_singleton.mp h] at hg
      rintro (⟨_, h'⟩ | h')
      · rw [decide_eq_true_eq] at h'
        exact h' hg
      · exact hsrc g (I.origin g (hin g hg)) h'
  · intro t' ht' g hg
    have hold : g ∈ G ∨ ∃ t' ∈ past, g ∈ created c t' := by
      rcases List.mem_append.mp ht' with h | h
      · exact I.source t' h g hg
      · rw [List.mem_singleton.mp h] at hg
        exact I.origin g (hin g hg)
    rcases hold with h | ⟨t'', h1, h2⟩
    · exact .inl h
    · exact .inr ⟨t'', List.mem_append_left _ h1, h2⟩
  · rw [List.map_append, List.nodup_append]
    refine ⟨I.ids, by simp, ?_⟩
    intro a ha b hb
    obtain ⟨t', ht', rfl⟩ := List.mem_map.mp ha
    simp only [List.map_cons, List.map_nil, List.mem_singleton] at hb
    rw [hb]
    exact hnew t' ht'

theorem legal_take {L : Ledger} {ts : List CompactTx} (h : Legal L ts) (n : Nat) :
    Legal L (ts.take n) := by
  intro i t hi x hx
  have hlt : i < n := by
    have := (List.getElem?_eq_some_iff.mp hi).1
    simp only [List.length_take] at this
    omega
  rw [List.getElem?_take_of_lt hlt] at hi
  rw [List.take_take, Nat.min_eq_left (by omega)]
  exact h i t hi x hx

/-- A legal list of the compact forms of signed transactions is a lawful list of transactions. -/
theorem legal_lawful {c : Crypto} {signed : FullTx → Prop} {G : List Coin} (B : Books c signed G)
    {L : Ledger} (hL : ∀ x, L x ↔ ∃ g ∈ G, g.hash c = x) (ts : List FullTx)
    (hs : ∀ t ∈ ts, signed t) (hl : Legal L (ts.map (CompactTx.ofFull c))) :
    Lawful c G ts ∧ Inv c signed G L ts := by
  have hinv : ∀ n, n ≤ ts.length → Inv c signed G L (ts.take n) ∧
      ∀ i t, i < n → ts[i]? = some t → ∀ g ∈ t.inputs, g ∈ coinsAfter c G (ts.take i) := by
    intro n
    induction n with
    | zero => intro _; exact ⟨inv_nil B hL, by omega⟩
    | succ n ih =>
      intro hn
      obtain ⟨I, hi⟩ := ih (by omega)
      have hlt : n < ts.length := by omega
      have hstep := inv_snoc B I (t := ts[n]) (hs _ (List.getElem_mem hlt)) (by
        rw [List.map_take]
        exact hl n _ (by simp [List.getElem?_eq_getElem hlt]))
      have htake : ts.take n ++ [ts[n]] = ts.take (n + 1) := by
        rw [List.take_add_one, List.getElem?_eq_getElem hlt]; rfl
      rw [htake] at hstep
      refine ⟨hstep.2, ?_⟩
      intro i t hin hit
      rcases Nat.lt_succ_iff_lt_or_eq.mp hin with h | rfl
      · exact hi i t h hit
      · rw [List.getElem?_eq_getElem hlt] at hit
        simp only [Option.some.injEq] at hit
        exact hit ▸ hstep.1
  obtain ⟨I, hi⟩ := hinv ts.length (Nat.le_refl _)
  rw [List.take_length] at I
  exact ⟨fun i t hit => ⟨B.checked t (hs t (List.mem_of_getElem? hit)),
    hi i t (List.getElem?_eq_some_iff.mp hit).1 hit⟩, I⟩

/-- The owner of every coin that a well-formed transaction spends has signed it. -/
theorem spent_by_owner {c : Crypto} {t : FullTx} (h : WellFormed c t) {g : Coin}
    (hg : g ∈ t.inputs) : SpentByOwner c t g := by
  obtain ⟨i, hi⟩ := List.mem_iff_getElem?.mp hg
  have hlt : i < t.witness.length := by
    rw [h.one_witness_each]; exact (List.getElem?_eq_some_iff.mp hi).1
  exact ⟨i, t.witness[i], hi, List.getElem?_eq_getElem hlt,
    h.witnessed i g _ hi (List.getElem?_eq_getElem hlt)⟩

/-! ### Attestations -/

/-- What is assumed of the sentinels: among any `threshold` of the keys that are listed there is
one of an honest sentinel; a signature of an honest sentinel on a compact transaction that occurs
(`seen`) is on one that it has signed; what occurs fits in memory, and its hash is not a collision
with the hash of something signed. -/
structure Sentinels (c : Crypto) (keys : List PubKey) (threshold : Nat) (honest : PubKey → Prop)
    (signed : FullTx → Prop) (seen : CompactTx → Prop) : Prop where
  enough : ∀ ks : List PubKey, ks.Nodup → (∀ k ∈ ks, k ∈ keys) → threshold ≤ ks.length →
    ∃ k ∈ ks, honest k
  unforged : ∀ (ctx : CompactTx) (k : PubKey) (s : Sig), seen ctx → (k, s) ∈ ctx.attestations →
    honest k → c.verify k.val (ctx.hash c).val s.val = true →
    ∃ t, signed t ∧ (CompactTx.ofFull c t).hash c = ctx.hash c
  fits : ∀ ctx, seen ctx → ctx.Fits
  noCollision : ∀ (t : FullTx) (ctx : CompactTx), signed t → seen ctx →
    c.sha (enc tCompactTx (CompactTx.ofFull c t).wire) =
      c.sha (enc tCompactTx ({ ctx with attestations := [] } : CompactTx).wire) →
    enc tCompactTx (CompactTx.ofFull c t).wire =
      enc tCompactTx ({ ctx with attestations := [] } : CompactTx).wire

/-- What passes `check_attestations` is the compact form of a transaction that an honest sentinel
has signed. -/
theorem attested_full {c : Crypto} {keys : List PubKey} {threshold : Nat} {honest : PubKey → Prop}
    {signed : FullTx → Prop} {seen : CompactTx → Prop} {G : List Coin} (B : Books c signed G)
    (S : Sentinels c keys threshold honest signed seen) {ctx : CompactTx} (hs : seen ctx)
    (ha : checkAttestations c ctx keys threshold = true) :
    ∃ t, signed t ∧ { ctx with attestations := [] } = CompactTx.ofFull c t := by
  have hf := S.fits ctx hs
  obtain ⟨⟨ks, hnd, hlen, hks⟩, hall⟩ := (C10_threshold c ctx hf keys threshold).mp ha
  obtain ⟨k, hk, hh⟩ := S.enough ks hnd (fun k hk => by
    obtain ⟨s, hs⟩ := (hks k).mp hk
    exact (hall k s hs).1) hlen
  obtain ⟨s, hks⟩ := (hks k).mp hk
  obtain ⟨t, ht, he⟩ := S.unforged ctx k s hs hks hh (hall k s hks).2.2
  refine ⟨t, ht, ?_⟩
  have hft := B.fits t ht
  have := C10_signed_message_commits c (CompactTx.ofFull c t) ctx
    ⟨by simpa [CompactTx.ofFull] using hft.1, by simpa [CompactTx.ofFull] using hft.2.1,
      by simp [CompactTx.ofFull], by simp [CompactTx.ofFull]⟩ hf (S.noCollision t ctx ht hs) he
  obtain ⟨h1, h2, h3⟩ := this
  show CompactTx.mk ctx.id ctx.inputs ctx.uhsOutputs [] = _
  rw [← h1, ← h2, ← h3]
  rfl

/-- The coins of `tools/shard-seeder/shard-seeder.cpp:60-160` were not created by a transaction
that a sentinel signs: the seeding transaction spends a coin whose commitment is zero, and nobody
has a key whose hash is zero. -/
theorem seeded_new {c : Crypto} {t : FullTx} (ht : WellFormed c t) (hf : t.Fits)
    (w : Wallet.Wallet) (idx : UInt64)
    (hz : ∀ pk : PubKey, c.sha (0 :: pk.val) ≠ Wallet.zero)
    (hnc : c.sha (txIdPreimage (Wallet.seedTx w idx)) = c.sha (txIdPreimage t) →
      txIdPreimage (Wallet.seedTx w idx) = txIdPreimage t) :
    (Wallet.seedInput c w idx).prevout.txId ≠ txId c t := by
  intro h
  have hi := (C05_id_commits c (Wallet.seedTx w idx) t
    ⟨by simp [Wallet.seedTx], by simp [Wallet.seedTx], by simp [Wallet.seedTx],
      by simp [Wallet.seedTx]⟩ hf hnc h).1
  have hg : (⟨⟨Wallet.zero, idx⟩, ⟨Wallet.zero, w.seedValue.toUInt64⟩⟩ : Coin) ∈ t.inputs := by
    rw [← hi]; simp [Wallet.seedTx]
  obtain ⟨i, wit, _, _, pk, sig, _, hc, _⟩ := spent_by_owner ht hg
  exact hz pk hc

end Verif.Money
