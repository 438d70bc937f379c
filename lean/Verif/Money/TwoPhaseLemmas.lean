import Verif.Money.Atomizer
import Verif.Coordinator.SystemViews
import Verif.LockingShard.Settle
import Mathlib.Data.List.Pairwise

/-! The coins of the shards of the two-phase system, and the transactions its coordinators
recorded as executed. -/
namespace Verif.Money.TwoPhase

open Verif.Tx Verif.Serial Verif.LockingShard Verif.Coordinator

/-- A deployment of the two-phase system: the coins `G` were seeded into the shards, every id
belongs to some shard, the shards check the attestations of the same sentinels
(`src/uhs/twophase/locking_shard/locking_shard.cpp:104-110`), and sentinels and hashes are as
assumed.  The batches are arbitrary but for forged signatures. -/
structure Deployed (c : Crypto) (keys : List PubKey) (threshold : Nat) (honest : PubKey → Prop)
    (signed : FullTx → Prop) (G : List Coin) (p : Whole) : Prop where
  books : Books c signed G
  sentinels : Sentinels c keys threshold honest signed
    fun t => (∃ d, t ∈ p.txs d) ∧ checkAttestations c t keys threshold = true
  check : ∀ cf ∈ p.shards, ∀ t, cf.attested t = checkAttestations c t keys threshold
  cover : ∀ x, ∃ (i : Nat) (cf : Cfg), p.shards[i]? = some cf ∧ cf.owns x = true
  seeded : ∀ (i : Nat) (cf : Cfg) (x : Hash), p.shards[i]? = some cf → cf.owns x = true →
    (p.seeds i x = true ↔ ∃ g ∈ G, g.hash c = x)

/-- The ids of the coins that exist from the start. -/
def start (c : Crypto) (G : List Coin) : Atomizer.Ledger := fun x => ∃ g ∈ G, g.hash c = x

/-- A compact transaction without its attestations. -/
def bare (t : CompactTx) : CompactTx := { t with attestations := [] }

/-- The outcome recorded for batch `d` is that transaction `k`, which is `t`, is executed. -/
def Chosen (p : Whole) (S : Sys) (d : Hash) (k : Nat) (t : CompactTx) : Prop :=
  ∃ D, (S.part d).decision = some D ∧ D[k]? = some true ∧ (p.txs d)[k]? = some t

/-- Shard `i` has applied the batch. -/
def AppliedAt (S : Sys) (i : Nat) (d : Hash) : Prop := (S.part d).history i ≠ []

/-- A transaction that shard `i` has executed creates `x`. -/
def MadeAt (p : Whole) (S : Sys) (i : Nat) (x : Hash) : Prop :=
  ∃ d k t, Chosen p S d k t ∧ AppliedAt S i d ∧ x ∈ t.uhsOutputs

/-- A transaction that shard `i` has executed spends `x`. -/
def UsedAt (p : Whole) (S : Sys) (i : Nat) (x : Hash) : Prop :=
  ∃ d k t, Chosen p S d k t ∧ AppliedAt S i d ∧ x ∈ t.inputs

/-- What holds in every state of a calm run. -/
structure Good (c : Crypto) (signed : FullTx → Prop) (G : List Coin) (p : Whole) (S : Sys) :
    Prop where
  punct : ∀ d, Punctual (p.among d) (S.view d)
  once : S.order.Nodup
  listed : ∀ d, d ∈ S.order ↔ (S.part d).decision ≠ none
  ref : ∀ (i : Nat) (cf : Cfg), p.shards[i]? = some cf → Refines cf (obs (S.shard i)) (S.shard i)
  coins : ∀ (i : Nat) (cf : Cfg) (x : Hash), p.shards[i]? = some cf → cf.owns x = true →
    ((S.shard i).uhs x = true ∨ (S.shard i).locked x = true ↔
      (p.seeds i x = true ∨ MadeAt p S i x) ∧ ¬ UsedAt p S i x)
  source : ∀ (i : Nat) (cf : Cfg) (x : Hash), p.shards[i]? = some cf → cf.owns x = true →
    UsedAt p S i x → p.seeds i x = true ∨ MadeAt p S i x
  att : ∀ (i : Nat) (cf : Cfg) (d : Hash) (b : Prepared) (j : Nat) (t : CompactTx),
    p.shards[i]? = some cf → (S.shard i).prepared d = some b → b.txs[j]? = some t →
    b.results[j]? = some true → cf.attested t = true
  money : ∃ fs : List FullTx, (∀ f ∈ fs, signed f) ∧
    (S.done p).map bare = fs.map (CompactTx.ofFull c) ∧
    Atomizer.Legal (start c G) (fs.map (CompactTx.ofFull c))

/-! ### Executed transactions -/

theorem mem_executed (ts : List CompactTx) (D : List Bool) (t : CompactTx) :
    t ∈ executed ts D ↔ ∃ k : Nat, ts[k]? = some t ∧ D[k]? = some true := by
  simp only [executed, List.mem_filterMap, Prod.exists]
  constructor
  · rintro ⟨a, b, h, he⟩
    obtain ⟨k, hk⟩ := List.mem_iff_getElem?.mp h
    obtain ⟨h1, h2⟩ := List.getElem?_zip_eq_some.mp hk
    cases b
    · simp at he
    · simp only [if_true, Option.some.injEq] at he
      exact ⟨k, he ▸ h1, h2⟩
  · rintro ⟨k, h1, h2⟩
    exact ⟨t, true, List.mem_of_getElem? (List.getElem?_zip_eq_some.mpr ⟨h1, h2⟩), rfl⟩

theorem executed_pos (ts : List CompactTx) :
    ∀ (D : List Bool), ((executed ts D).map (·.id)).Nodup →
      ∀ (k k' : Nat) (t t' : CompactTx), ts[k]? = some t → D[k]? = some true →
        ts[k']? = some t' → D[k']? = some true → t.id = t'.id → k = k' := by
  induction ts with
  | nil => intro D _ k k' t t' h; simp at h
  | cons a ts ih =>
    intro D hn k k' t t' h1 h2 h3 h4 he
    cases D with
    | nil => simp at h2
    | cons b D =>
      have hcons : executed (a :: ts) (b :: D) = if b then a :: executed ts D else executed ts D := by
        cases b <;> simp [executed]
      rw [hcons] at hn
      have htail : ((executed ts D).map (·.id)).Nodup := by
        cases b
        · simpa using hn
        · simp only [if_true, List.map_cons, List.nodup_cons] at hn; exact hn.2
      have hhead : ∀ (j : Nat) (u : CompactTx), b = true → ts[j]? = some u → D[j]? = some true →
          a.id ≠ u.id := by
        intro j u hb hu hD e
        subst hb
        simp only [if_true, List.map_cons, List.nodup_cons] at hn
        exact hn.1 (e ▸ List.mem_map_of_mem ((mem_executed ts D u).mpr ⟨j, hu, hD⟩))
      cases k with
      | zero =>
        cases k' with
        | zero => rfl
        | succ k' =>
          simp only [List.getElem?_cons_zero, List.getElem?_cons_succ, Option.some.injEq] at h1 h2 h3 h4
          subst h1
          exact absurd he (hhead k' t' h2 h3 h4)
      | succ k =>
        cases k' with
        | zero =>
          simp only [List.getElem?_cons_zero, List.getElem?_cons_succ, Option.some.injEq] at h1 h2 h3 h4
          subst h3
          exact absurd he.symm (hhead k t h4 h1 h2)
        | succ k' =>
          simp only [List.getElem?_cons_succ] at h1 h2 h3 h4
          rw [ih D htail k k' t t' h1 h2 h3 h4 he]

theorem executed_take (ts : List CompactTx) (D : List Bool) (n : Nat) (t : CompactTx) (b : Bool)
    (h : ts[n]? = some t) (hb : D[n]? = some b) :
    executed (ts.take (n + 1)) (D.take (n + 1)) =
      executed (ts.take n) (D.take n) ++ if b then [t] else [] := by
  have h1 : (ts.take (n + 1)).zip (D.take (n + 1)) = (ts.zip D).take (n + 1) :=
    by
    simp only [List.zip, List.take_zipWith]
  have h2 : (ts.take n).zip (D.take n) = (ts.zip D).take n := by
    simp only [List.zip, List.take_zipWith]
  rw [executed, h1, List.take_add_one, List.getElem?_zip_eq_some (z := (t, b)) |>.mpr ⟨h, hb⟩, List.filterMap_append,
    ← h2, executed]
  cases b <;> simp

section
variable {c : Crypto} {signed : FullTx → Prop} {G : List Coin} {p : Whole} {S : Sys}

theorem mem_done (H : Good c signed G p S) (t : CompactTx) :
    t ∈ S.done p ↔ ∃ d k, Chosen p S d k t := by
  simp only [Sys.done, List.mem_flatMap, mem_executed, Chosen]
  constructor
  · rintro ⟨d, hd, k, h1, h2⟩
    obtain ⟨D, hD⟩ := Option.ne_none_iff_exists'.mp ((H.listed d).mp hd)
    rw [hD] at h2
    exact ⟨d, k, D, hD, h2, h1⟩
  · rintro ⟨d, k, D, hD, h2, h1⟩
    exact ⟨d, (H.listed d).mpr (by simp [hD]), k, h1, by rw [hD]; exact h2⟩

/-- Transactions with the same id are in the same place. -/
theorem chosen_pos (H : Good c signed G p S) (hn : ((S.done p).map (·.id)).Nodup) {d d' : Hash}
    {k k' : Nat} {t t' : CompactTx} (h : Chosen p S d k t) (h' : Chosen p S d' k' t')
    (he : t.id = t'.id) : d = d' ∧ k = k' := by
  obtain ⟨D, hD, h1, h2⟩ := h
  obtain ⟨D', hD', h1', h2'⟩ := h'
  have ho : d ∈ S.order := (H.listed d).mpr (by simp [hD])
  have ho' : d' ∈ S.order := (H.listed d').mpr (by simp [hD'])
  rw [Sys.done, List.map_flatMap, List.nodup_flatMap] at hn
  have hm : t.id ∈ (executed (p.txs d) ((S.part d).decision.getD [])).map (·.id) :=
    List.mem_map_of_mem ((mem_executed _ _ _).mpr ⟨k, h2, by rw [hD]; exact h1⟩)
  have hm' : t'.id ∈ (executed (p.txs d') ((S.part d').decision.getD [])).map (·.id) :=
    List.mem_map_of_mem ((mem_executed _ _ _).mpr ⟨k', h2', by rw [hD']; exact h1'⟩)
  have hd : d = d' := by
    refine Classical.byContradiction fun hne => ?_
    have : Std.Symm (Function.onFun List.Disjoint fun a =>
        (executed (p.txs a) ((S.part a).decision.getD [])).map (·.id)) :=
      ⟨fun _ _ hab _ h1 h2 => hab h2 h1⟩
    have := hn.2.forall ho ho' hne
    exact this hm (he ▸ hm')
  subst hd
  rw [hD, Option.some.injEq] at hD'
  subst hD'
  have hnd := hn.1 d ho
  rw [hD] at hnd
  exact ⟨rfl, executed_pos _ _ hnd k k' t t' h2 h1 h2' h1' he⟩

/-- Every executed transaction is the compact form of a signed one. -/
theorem full_of {ds : List CompactTx} {fs : List FullTx}
    (he : ds.map bare = fs.map (CompactTx.ofFull c)) {t : CompactTx} (ht : t ∈ ds) :
    ∃ f ∈ fs, t.id = txId c f ∧ t.inputs = f.inputs.map (Input.hash c) ∧
      t.uhsOutputs = (created c f).map (Input.hash c) := by
  have : bare t ∈ fs.map (CompactTx.ofFull c) := he ▸ List.mem_map_of_mem ht
  obtain ⟨f, hf, e⟩ := List.mem_map.mp this
  exact ⟨f, hf, (congrArg CompactTx.id e).symm, (congrArg CompactTx.inputs e).symm,
    by rw [created_uhs]; exact (congrArg CompactTx.uhsOutputs e).symm⟩

/-- What an executed transaction creates did not exist from the start, and no other executed
transaction creates it. -/
theorem made_once (B : Books c signed G) (H : Good c signed G p S) {d : Hash} {k : Nat}
    {t : CompactTx} (h : Chosen p S d k t) {x : Hash} (hx : x ∈ t.uhsOutputs) :
    ¬ start c G x ∧ ∀ d' k' t', Chosen p S d' k' t' → x ∈ t'.uhsOutputs → d' = d ∧ k' = k := by
  obtain ⟨fs, hs, he, hl⟩ := H.money
  obtain ⟨-, I⟩ := legal_lawful (L := start c G) B (fun _ => Iff.rfl) fs hs hl
  obtain ⟨f, hf, hid, -, hout⟩ := full_of he ((mem_done H t).mpr ⟨d, k, h⟩)
  rw [hout, List.mem_map] at hx
  obtain ⟨g, hg, rfl⟩ := hx
  refine ⟨?_, ?_⟩
  · rintro ⟨g', hg', e⟩
    have := hash_inj B (.start g' hg') (.output f g (hs f hf) hg) e
    subst this
    exact B.new g' hg' f (hs f hf) (created_txId hg)
  · intro d' k' t' h' hx'
    obtain ⟨f', hf', hid', -, hout'⟩ := full_of he ((mem_done H t').mpr ⟨d', k', h'⟩)
    rw [hout', List.mem_map] at hx'
    obtain ⟨g', hg', e⟩ := hx'
    have := hash_inj B (.output f' g' (hs f' hf') hg') (.output f g (hs f hf) hg) e
    subst this
    refine chosen_pos H ?_ h' h (by rw [hid, hid', ← created_txId hg, ← created_txId hg'])
    have : (S.done p).map (·.id) = fs.map (txId c) := by
      have := congrArg (List.map CompactTx.id) he
      simpa [List.map_map, Function.comp_def, bare, CompactTx.ofFull] using this
    rw [this]
    exact I.ids

/-- A shard that has granted a transaction and not applied the batch has it prepared. -/
theorem held_of_granted {d : Hash} (hr : Reach (p.among d) (S.view d)) {i : Nat} {cf : Cfg}
    (hi : p.shards[i]? = some cf) (hh : ¬ AppliedAt S i d) {k : Nat} {t : CompactTx}
    (hk : (p.txs d)[k]? = some t) (hc : Concerns cf t)
    (hg : Granted (p.among d) (S.view d) i cf k) :
    ∃ b, (S.shard i).prepared d = some b ∧ b.txs[place cf (p.txs d) k]? = some t ∧
      b.results[place cf (p.txs d) k]? = some true := by
  obtain ⟨v, hv, hvk⟩ := hg
  have hf := first_prepared _ _ hr i (by simpa [AppliedAt, Sys.view] using hh)
  rw [hv] at hf
  obtain ⟨b, hb, rfl⟩ := Option.map_eq_some_iff.mp hf.symm
  refine ⟨b, hb, ?_, hvk⟩
  rw [(reach_inv _ _ hr).prep i cf b hi hb]
  exact filter_place cf _ k t hk hc

/-- The ledger of ids after transactions, none of which spends `x`. -/
theorem after_source (L : Atomizer.Ledger) (ts : List CompactTx) (x : Hash)
    (h : L x ∨ ∃ t ∈ ts, x ∈ t.uhsOutputs) (hn : ∀ t ∈ ts, x ∉ t.inputs) : L.after ts x := by
  induction ts generalizing L with
  | nil => simpa [Atomizer.after_nil] using h
  | cons t ts ih =>
    rw [Atomizer.after_cons]
    refine ih _ ?_ fun u hu => hn u (by simp [hu])
    have ht := hn t (by simp)
    rcases h with h | ⟨u, hu, h⟩
    · exact .inl ⟨.inl h, ht⟩
    · rcases List.mem_cons.mp hu with rfl | hu
      · exact .inl ⟨.inr h, ht⟩
      · exact .inr ⟨u, hu, h⟩

/-! ### An outcome is recorded -/

theorem decided_legal {keys : List PubKey} {threshold : Nat} {honest : PubKey → Prop}
    (Dp : Deployed c keys threshold honest signed G p) (H : Good c signed G p S) {d : Hash}
    {D : List Bool} (hn : (S.part d).decision = none) (hD : Decision (p.among d) (S.view d) D) :
    ∃ fs : List FullTx, (∀ f ∈ fs, signed f) ∧
      (S.done p ++ executed (p.txs d) D).map bare = fs.map (CompactTx.ofFull c) ∧
      Atomizer.Legal (start c G) (fs.map (CompactTx.ofFull c)) := by
  have hr : ∀ d, Reach (p.among d) (S.view d) := fun d => punctual_reach _ _ (H.punct d)
  have hlen : D.length = (p.txs d).length := hD.length
  have hun : ∀ i, ¬ AppliedAt S i d := by
    intro i ha
    obtain ⟨h, hh⟩ := List.exists_mem_of_ne_nil _ ha
    obtain ⟨_, D', -, hD', -⟩ := (reach_inv _ _ (hr d)).hist i h hh
    have hv : (S.view d).decision = (S.part d).decision := rfl
    rw [hv, hn] at hD'
    cases hD'
  have key : ∀ n, n ≤ (p.txs d).length → ∃ fs : List FullTx, (∀ f ∈ fs, signed f) ∧
      (S.done p ++ executed ((p.txs d).take n) (D.take n)).map bare = fs.map (CompactTx.ofFull c) ∧
      Atomizer.Legal (start c G) (fs.map (CompactTx.ofFull c)) := by
    intro n
    induction n with
    | zero =>
      intro _
      obtain ⟨fs, h1, h2, h3⟩ := H.money
      exact ⟨fs, h1, by simpa [executed] using h2, h3⟩
    | succ n ih =>
      intro hle
      obtain ⟨fs, h1, h2, h3⟩ := ih (by omega)
      have ht : (p.txs d)[n]? = some ((p.txs d)[n]'(by omega)) := List.getElem?_eq_getElem (by omega)
      have hb : D[n]? = some (D[n]'(by omega)) := List.getElem?_eq_getElem (by omega)
      generalize (p.txs d)[n]'(by omega) = t at ht
      generalize D[n]'(by omega) = b at hb
      rw [executed_take _ _ n t b ht hb]
      cases b with
      | false => exact ⟨fs, h1, by simpa using h2, h3⟩
      | true =>
        have hgr := (hD.exact n t ht).mp hb
        have hheld : ∀ (i : Nat) (cf : Cfg), p.shards[i]? = some cf → Concerns cf t →
            ∃ b, (S.shard i).prepared d = some b ∧ b.txs[place cf (p.txs d) n]? = some t ∧
              b.results[place cf (p.txs d) n]? = some true := fun i cf hi hc =>
          held_of_granted (hr d) hi (hun i) ht hc (hgr i cf hi hc)
        -- attested
        obtain ⟨i, cf, hi, ho⟩ := Dp.cover t.id
        obtain ⟨b, e1, e2, e3⟩ := hheld i cf hi (.inl ho)
        have hat := H.att i cf d b _ t hi e1 e2 e3
        rw [Dp.check cf (List.mem_of_getElem? hi)] at hat
        obtain ⟨f, hf, hft⟩ := attested_full Dp.books Dp.sentinels
          ⟨⟨d, List.mem_of_getElem? ht⟩, hat⟩ hat
        refine ⟨fs ++ [f], ?_, ?_, ?_⟩
        · intro f' hf'
          rcases List.mem_append.mp hf' with h | h
          · exact h1 f' h
          · rw [List.mem_singleton.mp h]; exact hf
        · rw [← List.append_assoc, List.map_append, h2, List.map_append]
          simp only [if_true, List.map_cons, List.map_nil]
          rw [← hft]
          rfl
        · rw [List.map_append]
          refine Atomizer.legal_snoc h3 ?_
          intro x hx
          rw [← hft] at hx
          have hx : x ∈ t.inputs := hx
          rw [← h2]
          have hstrip : (start c G).after ((S.done p ++ executed ((p.txs d).take n) (D.take n)).map bare)
              = (start c G).after (S.done p ++ executed ((p.txs d).take n) (D.take n)) :=
            after_strip _ _
          rw [hstrip]
          obtain ⟨i, cf, hi, ho⟩ := Dp.cover x
          have hcc : Concerns cf t := .inr (.inl ⟨x, hx, ho⟩)
          obtain ⟨b, e1, e2, e3⟩ := hheld i cf hi hcc
          have hlk := granted_locked (H.ref i cf hi) e1 e2 e3 ⟨ho, hx⟩
          obtain ⟨hsrc, hnu⟩ := (H.coins i cf x hi ho).mp (.inr hlk)
          refine after_source _ _ x ?_ ?_
          · rcases hsrc with h | ⟨d', k', t', g1, g2, g3⟩
            · exact .inl ((Dp.seeded i cf x hi ho).mp h)
            · exact .inr ⟨t', List.mem_append_left _ ((mem_done H t').mpr ⟨d', k', g1⟩), g3⟩
          · intro u hu hxu
            have hcu : Concerns cf u := .inr (.inl ⟨x, hxu, ho⟩)
            rcases List.mem_append.mp hu with hu | hu
            · obtain ⟨d', k', hch⟩ := (mem_done H u).mp hu
              by_cases ha : AppliedAt S i d'
              · exact hnu ⟨d', k', u, hch, ha, hxu⟩
              · obtain ⟨D', hD', f1, f2⟩ := hch
                have hdec := (reach_inv _ _ (hr d')).dec D' hD'
                obtain ⟨b', e1', e2', e3'⟩ := held_of_granted (hr d') hi ha f2 hcu
                  ((hdec.exact k' u f2).mp f1 i cf hi hcu)
                obtain ⟨hdd, -⟩ := granted_apart (H.ref i cf hi) e1 e1' e2 e3 e2' e3' ⟨ho, hx⟩ ⟨ho, hxu⟩
                rw [← hdd, hn] at hD'
                cases hD'
            · obtain ⟨k', f1, f2⟩ := (mem_executed _ _ _).mp hu
              have hlt : k' < n := by
                have := (List.getElem?_eq_some_iff.mp f1).1
                simp only [List.length_take] at this
                omega
              rw [List.getElem?_take_of_lt hlt] at f1 f2
              obtain ⟨b', e1', e2', e3'⟩ := held_of_granted (hr d) hi (hun i) f1 hcu
                ((hD.exact k' u f1).mp f2 i cf hi hcu)
              obtain ⟨-, hpl⟩ := granted_apart (H.ref i cf hi) e1 e1' e2 e3 e2' e3' ⟨ho, hx⟩ ⟨ho, hxu⟩
              have q1 := idxs_place cf (p.txs d) n t ht hcc
              have q2 := idxs_place cf (p.txs d) k' u f1 hcu
              rw [hpl, q2, Option.some.injEq] at q1
              omega
  obtain ⟨fs, h1, h2, h3⟩ := key _ (Nat.le_refl _)
  rw [List.take_length, ← hlen, List.take_length] at h2
  exact ⟨fs, h1, h2, h3⟩

end

end Verif.Money.TwoPhase
