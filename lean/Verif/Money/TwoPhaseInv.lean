import Verif.Money.TwoPhaseLemmas

/-! Calm steps of the two-phase system keep its coins in order. -/
namespace Verif.Money.TwoPhase

open Verif.Tx Verif.Serial Verif.LockingShard Verif.Coordinator

section
variable {c : Crypto} {keys : List PubKey} {threshold : Nat} {honest : PubKey → Prop}
  {signed : FullTx → Prop} {G : List Coin} {p : Whole} {S : Sys}

/-- A step that decides nothing, applies nothing and changes no shard's coins. -/
theorem good_same (H : Good c signed G p S) {S' : Sys}
    (hp : ∀ d, Punctual (p.among d) (S'.view d)) (ho : S'.order = S.order)
    (hd : ∀ d, (S'.part d).decision = (S.part d).decision)
    (hh : ∀ d, (S'.part d).history = (S.part d).history)
    (hs : ∀ (i : Nat) (cf : Cfg), p.shards[i]? = some cf →
      Refines cf (obs (S'.shard i)) (S'.shard i) ∧
      (∀ x, (S'.shard i).uhs x = true ∨ (S'.shard i).locked x = true ↔
        (S.shard i).uhs x = true ∨ (S.shard i).locked x = true) ∧
      ∀ d b (j : Nat) t, (S'.shard i).prepared d = some b → b.txs[j]? = some t →
        b.results[j]? = some true → cf.attested t = true) : Good c signed G p S' := by
  have hch : ∀ d k t, Chosen p S' d k t ↔ Chosen p S d k t := fun d k t => by
    simp only [Chosen, hd]
  have ha : ∀ i d, AppliedAt S' i d ↔ AppliedAt S i d := fun i d => by simp only [AppliedAt, hh]
  have hm : ∀ i x, MadeAt p S' i x ↔ MadeAt p S i x := fun i x => by
    simp only [MadeAt, hch, ha]
  have hu : ∀ i x, UsedAt p S' i x ↔ UsedAt p S i x := fun i x => by
    simp only [UsedAt, hch, ha]
  have hdone : S'.done p = S.done p := by simp only [Sys.done, ho, hd]
  exact {
    punct := hp
    once := ho ▸ H.once
    listed := fun d => by rw [ho, hd]; exact H.listed d
    ref := fun i cf hi => (hs i cf hi).1
    coins := fun i cf x hi hx => by rw [(hs i cf hi).2.1 x, hm, hu]; exact H.coins i cf x hi hx
    source := fun i cf x hi hx => by rw [hm, hu]; exact H.source i cf x hi hx
    att := fun i cf d b j t hi => (hs i cf hi).2.2 d b j t
    money := by rw [hdone]; exact H.money }

theorem put_order {S : Sys} {d : Hash} {w : World} (h : w.decision = (S.part d).decision) :
    (S.put d w).order = S.order := by
  simp only [Sys.put, h]
  cases (S.part d).decision <;> rfl

theorem put_decision {S : Sys} {d : Hash} {w : World} (h : w.decision = (S.part d).decision)
    (d' : Hash) : ((S.put d w).part d').decision = (S.part d').decision := by
  simp only [Sys.put]
  split
  · rename_i e; rw [e, h]
  · rfl

theorem put_history {S : Sys} {d : Hash} {w : World} (h : w.history = (S.part d).history)
    (d' : Hash) : ((S.put d w).part d').history = (S.part d').history := by
  simp only [Sys.put]
  split
  · rename_i e; rw [e, h]
  · rfl

/-- The outcome of a batch is recorded. -/
theorem good_decided (Dp : Deployed c keys threshold honest signed G p) (H : Good c signed G p S)
    {d : Hash} {w : World} {D : List Bool}
    (hp : ∀ d', Punctual (p.among d') ((S.put d w).view d')) (hs : w.shard = S.shard)
    (hh : w.history = (S.part d).history) (hn : (S.part d).decision = none)
    (hd : w.decision = some D) (hD : Decision (p.among d) (S.view d) D) :
    Good c signed G p (S.put d w) := by
  have hun : ∀ i, ¬ AppliedAt S i d := by
    intro i ha
    obtain ⟨h, hh⟩ := List.exists_mem_of_ne_nil _ ha
    obtain ⟨_, D', -, hD', -⟩ :=
      (reach_inv _ _ (punctual_reach _ _ (H.punct d))).hist i h hh
    have hv : (S.view d).decision = (S.part d).decision := rfl
    rw [hv, hn] at hD'
    cases hD'
  have ho : (S.put d w).order = S.order ++ [d] := by simp [Sys.put, hn, hd]
  have hdec : ∀ d', d' ≠ d → ((S.put d w).part d').decision = (S.part d').decision := by
    intro d' hne; simp [Sys.put, hne]
  have hdd : ((S.put d w).part d).decision = some D := by simp [Sys.put, hd]
  have ha : ∀ i d', AppliedAt (S.put d w) i d' ↔ AppliedAt S i d' := fun i d' => by
    simp only [AppliedAt, put_history hh]
  have hch : ∀ i d' k t, (Chosen p (S.put d w) d' k t ∧ AppliedAt (S.put d w) i d') ↔
      (Chosen p S d' k t ∧ AppliedAt S i d') := by
    intro i d' k t
    rw [ha]
    by_cases e : d' = d
    · subst e; simp [hun i]
    · simp only [Chosen, hdec d' e]
  have hm : ∀ i x, MadeAt p (S.put d w) i x ↔ MadeAt p S i x := fun i x => by
    simp only [MadeAt, ← and_assoc, hch]
  have hu : ∀ i x, UsedAt p (S.put d w) i x ↔ UsedAt p S i x := fun i x => by
    simp only [UsedAt, ← and_assoc, hch]
  have hnew : d ∉ S.order := fun h => (H.listed d).mp h hn
  have hsh : ∀ i, (S.put d w).shard i = S.shard i := fun i => congrFun hs i
  refine ⟨hp, ?_, ?_, ?_, ?_, ?_, ?_, ?_⟩
  · rw [ho, List.nodup_append]
    refine ⟨H.once, by simp, ?_⟩
    intro a ha' b hb e
    rw [List.mem_singleton.mp hb] at e
    exact hnew (e ▸ ha')
  · intro d'
    rw [ho, List.mem_append, List.mem_singleton]
    by_cases e : d' = d
    · subst e; simp [hdd]
    · simp only [e, or_false, hdec d' e]; exact H.listed d'
  · intro i cf hi; rw [hsh]; exact H.ref i cf hi
  · intro i cf x hi hx; rw [hsh, hm, hu]; exact H.coins i cf x hi hx
  · intro i cf x hi hx; rw [hm, hu]; exact H.source i cf x hi hx
  · intro i cf d' b j t hi hb; rw [hsh] at hb; exact H.att i cf d' b j t hi hb
  · have : (S.put d w).done p = S.done p ++ executed (p.txs d) D := by
      simp only [Sys.done, ho, List.flatMap_append, List.flatMap_cons, List.flatMap_nil, hdd,
        Option.getD_some, List.append_nil]
      congr 1
      rw [List.flatMap_def, List.flatMap_def]
      congr 1
      apply List.map_congr_left
      intro d' hd'
      rw [hdec d' (fun e => hnew (e ▸ hd'))]
    rw [this]
    exact decided_legal Dp H hn hD

/-- What the positions of a shard's part of a batch are. -/
theorem part_pos {cf : Cfg} {ts : List CompactTx} {D fs : List Bool}
    (hf : shardFlags D (idxsOf cf ts) = some fs) :
    (∀ (j : Nat) (t : CompactTx), (ts.filter (relevant cf))[j]? = some t →
      ∃ k : Nat, ts[k]? = some t ∧ Concerns cf t ∧ j = place cf ts k ∧ fs[j]? = D[k]?) ∧
    ∀ (k : Nat) (t : CompactTx), ts[k]? = some t → Concerns cf t →
      (ts.filter (relevant cf))[place cf ts k]? = some t ∧ fs[place cf ts k]? = D[k]? := by
  obtain ⟨hl, hk⟩ := shardFlags_spec D _ fs hf
  refine ⟨?_, ?_⟩
  · intro j t hj
    have hlt : j < (idxsOf cf ts).length := by
      rw [idxs_length]; exact (List.getElem?_eq_some_iff.mp hj).1
    have hi := List.getElem?_eq_getElem hlt
    generalize (idxsOf cf ts)[j] = k at hi
    obtain ⟨t', h1, h2, h3⟩ := idxs_of cf ts k j hi
    have := filter_place cf ts k t' h1 h2
    rw [← h3, hj, Option.some.injEq] at this
    subst this
    exact ⟨k, h1, h2, h3, hk j k hi⟩
  · intro k t h1 h2
    exact ⟨filter_place cf ts k t h1 h2, hk _ _ (idxs_place cf ts k t h1 h2)⟩

/-- A shard applies a batch. -/
theorem good_applied (Dp : Deployed c keys threshold honest signed G p) (H : Good c signed G p S)
    {d : Hash} {w : World} {i : Nat} {cf : Cfg} {b : Prepared} {D fs : List Bool} {s' : State}
    (hp : ∀ d', Punctual (p.among d') ((S.put d w).view d')) (hi : p.shards[i]? = some cf)
    (hb : (S.shard i).prepared d = some b) (hs : w.shard = fun j => if j = i then s' else S.shard j)
    (hh : ∀ j, w.history j = if j = i then (S.part d).history j ++ [(b.txs, fs)]
      else (S.part d).history j)
    (hdw : w.decision = (S.part d).decision) (hD : (S.part d).decision = some D)
    (hf : shardFlags D (idxsOf cf (p.txs d)) = some fs)
    (hap : applyOutputs cf (S.shard i) fs d = some (s', true))
    (hloud : ¬ LoudAbort p S (S.put d w)) : Good c signed G p (S.put d w) := by
  have hreach := punctual_reach _ _ (H.punct d)
  have hinv := reach_inv _ _ hreach
  have hR := H.ref i cf hi
  have hnil : (S.part d).history i = [] := by
    refine Classical.byContradiction fun hne => ?_
    have := (punctual_once _ _ (H.punct d) i).2 hne
    have hv : ((S.view d).shard i).prepared (p.among d).d = (S.shard i).prepared d := rfl
    rw [hv, hb] at this
    cases this
  have hna : ¬ AppliedAt S i d := fun h => h hnil
  have hbt : b.txs = (p.txs d).filter (relevant cf) := hinv.prep i cf b hi hb
  obtain ⟨hof, hto⟩ := part_pos (ts := p.txs d) hf
  rw [← hbt] at hof hto
  have hpend : (obs (S.shard i)).pending d = some (view b.txs b.results) := by simp [obs, hb]
  have hdec := hinv.dec D hD
  -- the transactions of the batch that are executed, by position
  have hch : ∀ k t, Chosen p S d k t ↔ D[k]? = some true ∧ (p.txs d)[k]? = some t := by
    intro k t
    simp only [Chosen, hD, Option.some.injEq]
    exact ⟨fun ⟨_, h1, h2, h3⟩ => ⟨h1 ▸ h2, h3⟩, fun ⟨h2, h3⟩ => ⟨D, rfl, h2, h3⟩⟩
  have hcre : ∀ x, cf.owns x = true → (BatchCreates cf (view b.txs b.results) fs x ↔
      ∃ k t, Chosen p S d k t ∧ x ∈ t.uhsOutputs) := by
    intro x hx
    constructor
    · rintro ⟨j, u, h1, h2, -, h4⟩
      obtain ⟨k, g1, g2, g3, g4⟩ := hof j u.tx ((view_get _ _ _ _).mp h1).1
      exact ⟨k, u.tx, (hch _ _).mpr ⟨g4 ▸ h2, g1⟩, h4⟩
    · rintro ⟨k, t, h1, h2⟩
      obtain ⟨h1, h3⟩ := (hch _ _).mp h1
      obtain ⟨g1, g2⟩ := hto k t h3 (.inr (.inr ⟨x, h2, hx⟩))
      have hlt := (List.getElem?_eq_some_iff.mp g1).1
      have hr : b.results[place cf (p.txs d) k]? = some (b.results[place cf (p.txs d) k]'(by
        rw [hR.sizes d b hb]; exact hlt)) := List.getElem?_eq_getElem _
      exact ⟨_, ⟨t, _⟩, (view_get _ _ _ _).mpr ⟨g1, hr⟩, g2.trans h1, hx, h2⟩
  have hspe : ∀ x, cf.owns x = true → (BatchSpends cf (view b.txs b.results) fs x ↔
      ∃ k t, Chosen p S d k t ∧ x ∈ t.inputs) := by
    intro x hx
    constructor
    · rintro ⟨j, u, h1, h2, -, h4⟩
      obtain ⟨k, g1, g2, g3, g4⟩ := hof j u.tx ((view_get _ _ _ _).mp h1).1
      exact ⟨k, u.tx, (hch _ _).mpr ⟨g4 ▸ h2, g1⟩, h4⟩
    · rintro ⟨k, t, h1, h2⟩
      obtain ⟨h1, h3⟩ := (hch _ _).mp h1
      obtain ⟨g1, g2⟩ := hto k t h3 (.inr (.inl ⟨x, h2, hx⟩))
      have hlt := (List.getElem?_eq_some_iff.mp g1).1
      have hr : b.results[place cf (p.txs d) k]? = some (b.results[place cf (p.txs d) k]'(by
        rw [hR.sizes d b hb]; exact hlt)) := List.getElem?_eq_getElem _
      exact ⟨_, ⟨t, _⟩, (view_get _ _ _ _).mpr ⟨g1, hr⟩, g2.trans h1, hx, h2⟩
  -- what it creates is new
  have hnm : ∀ x k t, cf.owns x = true → Chosen p S d k t → x ∈ t.uhsOutputs →
      ¬ (p.seeds i x = true ∨ MadeAt p S i x) := by
    intro x k t hx hk hxt
    obtain ⟨m1, m2⟩ := made_once Dp.books H hk hxt
    rintro (h | ⟨d', k', t', g1, g2, g3⟩)
    · exact m1 ((Dp.seeded i cf x hi hx).mp h)
    · obtain ⟨e, -⟩ := m2 d' k' t' g1 g3
      exact hna (e ▸ g2)
  have hnew : NewIn cf (view b.txs b.results) fs (obs (S.shard i)).coins := by
    intro j u x h1 h2 h3
    obtain ⟨k, g1, g2, g3, g4⟩ := hof j u.tx ((view_get _ _ _ _).mp h1).1
    have hk : Chosen p S d k u.tx := (hch _ _).mpr ⟨g4 ▸ h2, g1⟩
    refine ⟨fun hc => hnm x k u.tx h3.1 hk h3.2 ((H.coins i cf x hi h3.1).mp hc).1, ?_⟩
    intro j' u' h1' h2' h3'
    obtain ⟨k', g1', g2', g3', g4'⟩ := hof j' u'.tx ((view_get _ _ _ _).mp h1').1
    have hk' : Chosen p S d k' u'.tx := (hch _ _).mpr ⟨g4' ▸ h2', g1'⟩
    obtain ⟨-, e⟩ := (made_once Dp.books H hk h3.2).2 d k' u'.tx hk' h3'.2
    rw [g3, g3', e]
  have hprep : ∀ d', s'.prepared d' = if d' = d then none else (S.shard i).prepared d' := by
    intro d'
    have := hap
    unfold applyOutputs at this
    split at this
    · simp at this
    · rw [hb] at this
      simp only at this
      split at this
      · simp at this
      · simp only [Option.some.injEq, Prod.mk.injEq, and_true] at this
        rw [← this]
        simp only [(applyLoop_frame cf (S.shard i) b.txs fs).2.1]
  have hsh : (S.put d w).shard i = s' := by simp [Sys.put, hs]
  have hshj : ∀ j, j ≠ i → (S.put d w).shard j = S.shard j := fun j hj => by
    simp [Sys.put, hs, hj]
  have hdisc : Disciplined cf (obs (S.shard i)) (.apply fs d) := by
    refine ⟨?_, ?_, ?_⟩
    · intro b' hb' j u hu hfj
      rw [hpend, Option.some.injEq] at hb'
      subst hb'
      obtain ⟨hu1, hu2⟩ := (view_get _ _ _ _).mp hu
      obtain ⟨k, g1, g2, g3, g4⟩ := hof j u.tx hu1
      obtain ⟨b', e1, -, e3⟩ := held_of_granted hreach hi hna g1 g2
        ((hdec.exact k u.tx g1).mp (g4 ▸ hfj) i cf hi g2)
      rw [hb, Option.some.injEq] at e1
      subst e1
      rw [← g3, hu2, Option.some.injEq] at e3
      exact e3
    · intro b' hb'
      rw [hpend, Option.some.injEq] at hb'
      subst hb'
      exact newIn_fresh cf _ fs _ hnew
    · intro b' hb' j u hu hfj hg x hx
      rw [hpend, Option.some.injEq] at hb'
      subst hb'
      obtain ⟨hu1, hu2⟩ := (view_get _ _ _ _).mp hu
      rintro ⟨d', b2, j', u', k1, k2, k3, k4, k5⟩
      simp only [obs, Option.map_eq_some_iff] at k1
      obtain ⟨b3, k1, rfl⟩ := k1
      obtain ⟨k6, k7⟩ := (view_get _ _ _ _).mp k2
      exact hloud ⟨i, cf, d, b, j, u.tx, x, hi, hb, by rw [hsh, hprep]; simp, hu1, hg ▸ hu2, hx.1,
        hx.2, d', j', k5, b3, u'.tx, k1, k6, k3 ▸ k7, k4.1, k4.2⟩
  obtain ⟨hR', hL⟩ := refines_apply cf _ _ hR fs d hdisc s' true hap
  have hleg : LegalBatch cf (view b.txs b.results) fs (obs (S.shard i)).coins := hL _ hpend
  have hcoins : ∀ x, (s'.uhs x = true ∨ s'.locked x = true) ↔
      settle cf (view b.txs b.results) fs (obs (S.shard i)).coins x := by
    intro x
    rw [← hR'.coins x]
    simp only [Ledger.next, hpend]
  -- what changed
  have hch' : ∀ d' k t, Chosen p (S.put d w) d' k t ↔ Chosen p S d' k t := fun d' k t => by
    simp only [Chosen, put_decision hdw]
  have ha' : ∀ j d', AppliedAt (S.put d w) j d' ↔ AppliedAt S j d' ∨ (j = i ∧ d' = d) := by
    intro j d'
    simp only [AppliedAt, Sys.put]
    by_cases e : d' = d
    · subst e
      simp only [if_true, hh j]
      by_cases e' : j = i
      · simp [e']
      · simp [e']
    · simp [e]
  have hmo : ∀ j x, j ≠ i → (MadeAt p (S.put d w) j x ↔ MadeAt p S j x) := fun j x hj => by
    simp only [MadeAt, hch', ha', hj, false_and, or_false]
  have huo : ∀ j x, j ≠ i → (UsedAt p (S.put d w) j x ↔ UsedAt p S j x) := fun j x hj => by
    simp only [UsedAt, hch', ha', hj, false_and, or_false]
  have hmi : ∀ x, MadeAt p (S.put d w) i x ↔
      MadeAt p S i x ∨ ∃ k t, Chosen p S d k t ∧ x ∈ t.uhsOutputs := by
    intro x
    simp only [MadeAt, hch', ha', true_and]
    constructor
    · rintro ⟨d', k, t, h1, h2 | rfl, h3⟩
      · exact .inl ⟨d', k, t, h1, h2, h3⟩
      · exact .inr ⟨k, t, h1, h3⟩
    · rintro (⟨d', k, t, h1, h2, h3⟩ | ⟨k, t, h1, h3⟩)
      · exact ⟨d', k, t, h1, .inl h2, h3⟩
      · exact ⟨d, k, t, h1, .inr rfl, h3⟩
  have hui : ∀ x, UsedAt p (S.put d w) i x ↔
      UsedAt p S i x ∨ ∃ k t, Chosen p S d k t ∧ x ∈ t.inputs := by
    intro x
    simp only [UsedAt, hch', ha', true_and]
    constructor
    · rintro ⟨d', k, t, h1, h2 | rfl, h3⟩
      · exact .inl ⟨d', k, t, h1, h2, h3⟩
      · exact .inr ⟨k, t, h1, h3⟩
    · rintro (⟨d', k, t, h1, h2, h3⟩ | ⟨k, t, h1, h3⟩)
      · exact ⟨d', k, t, h1, .inl h2, h3⟩
      · exact ⟨d, k, t, h1, .inr rfl, h3⟩
  have hdone : (S.put d w).done p = S.done p := by
    simp only [Sys.done, put_order hdw, put_decision hdw]
  refine ⟨hp, put_order hdw ▸ H.once, ?_, ?_, ?_, ?_, ?_, by rw [hdone]; exact H.money⟩
  · intro d'; rw [put_order hdw, put_decision hdw]; exact H.listed d'
  · intro j cj hj
    by_cases e : j = i
    · subst e
      rw [hi, Option.some.injEq] at hj
      subst hj
      rw [hsh]
      exact refines_obs hR'
    · rw [hshj j e]; exact H.ref j cj hj
  · intro j cj x hj hx
    by_cases e : j = i
    · subst e
      rw [hi, Option.some.injEq] at hj
      subst hj
      rw [hsh, hcoins x, (settle_char cf _ x fs _ hleg hnew).1, hcre x hx, hspe x hx, hmi, hui]
      have hold := H.coins j cf x hi hx
      have hsrc := H.source j cf x hi hx
      have hnm' : (∃ k t, Chosen p S d k t ∧ x ∈ t.uhsOutputs) →
          ¬ (p.seeds j x = true ∨ MadeAt p S j x) := by
        rintro ⟨k, t, h1, h2⟩
        exact hnm x k t hx h1 h2
      simp only [obs]
      rw [hold]
      generalize (∃ k t, Chosen p S d k t ∧ x ∈ t.uhsOutputs) = A at *
      generalize (∃ k t, Chosen p S d k t ∧ x ∈ t.inputs) = B at *
      generalize MadeAt p S j x = M at *
      generalize UsedAt p S j x = U at *
      generalize (p.seeds j x = true) = Q at *
      by_cases a1 : A <;> by_cases a2 : B <;> by_cases a3 : M <;> by_cases a4 : U <;>
        by_cases a5 : Q <;> simp_all
    · rw [hshj j e, hmo j x e, huo j x e]; exact H.coins j cj x hj hx
  · intro j cj x hj hx
    by_cases e : j = i
    · subst e
      rw [hi, Option.some.injEq] at hj
      subst hj
      rw [hmi, hui]
      rintro (h | h)
      · rcases H.source j cf x hi hx h with h | h
        · exact .inl h
        · exact .inr (.inl h)
      · rcases (settle_char cf _ x fs _ hleg hnew).2 ((hspe x hx).mpr h) with h | h
        · rcases ((H.coins j cf x hi hx).mp h).1 with h | h
          · exact .inl h
          · exact .inr (.inl h)
        · exact .inr (.inr ((hcre x hx).mp h))
    · rw [hmo j x e, huo j x e]; exact H.source j cj x hj hx
  · intro j cj d' b' k t hj hb' ht hr
    by_cases e : j = i
    · subst e
      rw [hsh, hprep] at hb'
      split at hb'
      · cases hb'
      · exact H.att j cj d' b' k t hj hb' ht hr
    · rw [hshj j e] at hb'
      exact H.att j cj d' b' k t hj hb' ht hr

/-- Every calm step keeps the coins in order. -/
theorem good_step (Dp : Deployed c keys threshold honest signed G p) (H : Good c signed G p S)
    {S' : Sys} (hst : p.Step S S') (hcalm : Calm p S S') : Good c signed G p S' := by
  have hinv : ∀ d, Coordinator.Inv (p.among d) (S.view d) := fun d =>
    reach_inv _ _ (punctual_reach _ _ (H.punct d))
  have hp : ∀ d, Punctual (p.among d) (S'.view d) := by
    intro d
    rcases view_step hinv hst d with e | e
    · rw [e]; exact H.punct d
    · exact (H.punct d).step _ _ e (hcalm.1 d)
  cases hst with
  | of d w hs =>
  have hsame : ∀ (i : Nat) (cf : Cfg), p.shards[i]? = some cf →
      Refines cf (obs (S.shard i)) (S.shard i) ∧
      (∀ x, (S.shard i).uhs x = true ∨ (S.shard i).locked x = true ↔
        (S.shard i).uhs x = true ∨ (S.shard i).locked x = true) ∧
      ∀ d b (j : Nat) t, (S.shard i).prepared d = some b → b.txs[j]? = some t →
        b.results[j]? = some true → cf.attested t = true :=
    fun i cf hi => ⟨H.ref i cf hi, fun _ => Iff.rfl, fun d b j t => H.att i cf d b j t hi⟩
  cases step_effect rfl (inv_alone (hinv d)) hs with
  | silent hsh hh hd _ =>
    refine good_same H hp (put_order hd) (put_decision hd) (put_history hh) ?_
    have : (S.put d w).shard = S.shard := hsh
    rw [this]
    exact hsame
  | decided D hsh hh hn hd hD _ =>
    exact good_decided Dp H hp hsh hh hn hd ⟨hD.length, hD.heard, hD.exact⟩
  | served i cf q s' a hi hq hst hw =>
    have hi : p.shards[i]? = some cf := hi
    replace hst : step cf (S.shard i) q = some (s', a) := hst
    have hdec : w.decision = (S.part d).decision := by
      rw [hw]; simp only [World.setShard, (answered_shard _ _ _ _ _).2.2]; rfl
    have hshw : w.shard = fun j => if j = i then s' else S.shard j := by
      rw [hw]; simp only [World.setShard, (answered_shard _ _ _ _ _).1]; rfl
    have hput : ∀ j, (S.put d w).shard j = if j = i then s' else S.shard j := fun j => by
      simp [Sys.put, hshw]
    -- a request that changes neither history nor coins
    have hquiet : w.history = (S.part d).history → Refines cf (obs s') s' →
        (∀ x, s'.uhs x = true ∨ s'.locked x = true ↔
          (S.shard i).uhs x = true ∨ (S.shard i).locked x = true) →
        (∀ d b (j : Nat) t, s'.prepared d = some b → b.txs[j]? = some t →
          b.results[j]? = some true → cf.attested t = true) → Good c signed G p (S.put d w) := by
      intro h1 h2 h3 h4
      refine good_same H hp (put_order hdec) (put_decision hdec) (put_history h1) ?_
      intro j cj hj
      rw [hput j]
      by_cases e : j = i
      · subst e
        rw [hi, Option.some.injEq] at hj
        subst hj
        simp only [if_true]
        exact ⟨h2, h3, h4⟩
      · rw [if_neg e]
        exact hsame j cj hj
    have hsent := ((hinv d).sent i q hq).1
    have h0 := hsame i cf hi
    cases q with
    | lock ts d' =>
      have hdd : d = d' := hsent.1.symm
      subst hdd
      simp only [step, Option.some.injEq, Prod.mk.injEq] at hst
      obtain ⟨rfl, rfl⟩ := hst
      have hR' := refines_lock cf _ _ h0.1 ts d
      refine hquiet ?_ (refines_obs hR') ?_ ?_
      · rw [hw]
        simp only [World.setShard]
        unfold World.answered
        split <;> simp_all [Sys.view]
      · intro x
        rw [← hR'.coins x]
        unfold Ledger.next
        split
        · split <;> exact Iff.rfl
        · simp_all
        · exact Iff.rfl
      · intro d2 b j t hb ht hr
        unfold lockOutputs at hb
        split at hb
        · exact h0.2.2 d2 b j t hb ht hr
        · split at hb
          · exact h0.2.2 d2 b j t hb ht hr
          · simp only at hb
            split at hb
            · simp only [Option.some.injEq] at hb
              subst hb
              exact lockLoop_attested cf ts _ j t ht hr
            · rw [(lockLoop_frame cf (S.shard i) ts).2.1] at hb
              exact h0.2.2 d2 b j t hb ht hr
    | apply fs d' =>
      obtain ⟨hdd, cf', D, hi', hD, hf⟩ := hsent
      have hdd : d = d' := hdd.symm
      subst hdd
      have hi' : p.shards[i]? = some cf' := hi'
      rw [hi, Option.some.injEq] at hi'
      subst hi'
      simp only [step, Option.map_eq_some_iff] at hst
      obtain ⟨⟨s1, ok⟩, hst, e⟩ := hst
      simp only [Prod.mk.injEq] at e
      obtain ⟨rfl, rfl⟩ := e
      have hap := hst
      unfold applyOutputs at hst
      split at hst
      · simp only [Option.some.injEq, Prod.mk.injEq] at hst
        obtain ⟨rfl, rfl⟩ := hst
        exact hquiet (by rw [hw]; rfl) h0.1 h0.2.1 h0.2.2
      · split at hst
        · rename_i hn
          split at hst
          · simp only [Option.some.injEq, Prod.mk.injEq] at hst
            obtain ⟨rfl, rfl⟩ := hst
            refine hquiet ?_ h0.1 h0.2.1 h0.2.2
            rw [hw]
            funext j
            have hn' : ((S.view d).shard i).prepared d = none := hn
            simp only [World.setShard, World.answered, Whole.batch, hn']
            rfl
          · simp at hst
        · rename_i b hb
          split at hst
          · simp at hst
          · simp only [Option.some.injEq, Prod.mk.injEq] at hst
            obtain ⟨-, rfl⟩ := hst
            refine good_applied Dp H hp hi hb hshw ?_ hdec hD hf hap hcalm.2
            intro j
            rw [hw]
            have hb' : ((S.view d).shard i).prepared d = some b := hb
            simp only [World.setShard, World.answered, Whole.batch, hb']
            rfl
    | discard d' =>
      simp only [step, Option.some.injEq, Prod.mk.injEq] at hst
      obtain ⟨rfl, rfl⟩ := hst
      have hk : (discardDtx (S.shard i) d').1.uhs = (S.shard i).uhs ∧
          (discardDtx (S.shard i) d').1.locked = (S.shard i).locked ∧
          (discardDtx (S.shard i) d').1.prepared = (S.shard i).prepared := by
        unfold discardDtx; split <;> exact ⟨rfl, rfl, rfl⟩
      refine hquiet ?_ ?_ ?_ ?_
      · rw [hw]
        simp only [World.setShard]
        unfold World.answered
        split <;> simp_all [Sys.view]
      · have := h0.1
        have ho : obs (discardDtx (S.shard i) d').1 = obs (S.shard i) := by
          simp only [obs, hk]
        rw [ho]
        exact ⟨fun x => by rw [hk.1, hk.2.1]; exact this.coins x,
          fun x => by rw [hk.1, hk.2.1]; exact this.disjoint x,
          fun x => by rw [hk.2.1]; exact this.held x,
          fun d => by rw [hk.2.2]; exact this.pending d,
          fun d b hb => this.sizes d b (by rw [← hk.2.2]; exact hb), this.apart, this.cross⟩
      · intro x; rw [hk.1, hk.2.1]
      · intro d2 b j t hb; rw [hk.2.2] at hb; exact h0.2.2 d2 b j t hb
    | stop => exact hsent.elim

theorem good_init (Dp : Deployed c keys threshold honest signed G p) (h : p.Init S) :
    Good c signed G p S := by
  have hdec : ∀ d, (S.part d).decision = none := fun d => (h.batches d).records.2.1
  have hhis : ∀ d i, (S.part d).history i = [] := fun d i => (h.batches d).records.2.2 i
  have hm : ∀ i x, ¬ MadeAt p S i x := by
    rintro i x ⟨d, k, t, -, ha, -⟩; exact ha (hhis d i)
  have hu : ∀ i x, ¬ UsedAt p S i x := by
    rintro i x ⟨d, k, t, -, ha, -⟩; exact ha (hhis d i)
  refine ⟨fun d => .init _ (h.batches d), by simp [h.order], ?_, ?_, ?_, ?_, ?_, ?_⟩
  · intro d; simp [h.order, hdec]
  · intro i cf hi; rw [h.shards i cf hi]; exact refines_obs (refines_init cf _)
  · intro i cf x hi hx
    rw [h.shards i cf hi]
    simp [State.init, hm, hu]
  · intro i cf x _ _ hx; exact absurd hx (hu i x)
  · intro i cf d b j t hi hb
    rw [h.shards i cf hi] at hb
    simp [State.init] at hb
  · refine ⟨[], by simp, by simp [Sys.done, h.order], ?_⟩
    intro j t hj; simp at hj

theorem good_run (Dp : Deployed c keys threshold honest signed G p) (H : Good c signed G p S)
    {S' : Sys} (h : p.Run S S') : Good c signed G p S' := by
  induction h with
  | refl => exact H
  | step S1 S2 _ hs hc ih => exact good_step Dp ih hs hc

end

end Verif.Money.TwoPhase
