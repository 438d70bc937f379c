import Verif.Atomizer.Spec

/-! Helper lemmas for the atomizer. -/
namespace Verif.Atomizer

open Verif.Tx Verif.Util

/-! ### Ledger -/

theorem after_append (L : Ledger) (a b : List CompactTx) :
    L.after (a ++ b) = (L.after a).after b := by simp [Ledger.after, List.foldl_append]

theorem after_cons (L : Ledger) (t : CompactTx) (ts : List CompactTx) :
    L.after (t :: ts) = (L.apply t).after ts := rfl

theorem after_nil (L : Ledger) : L.after [] = L := rfl

/-- What is unspent stays so while nobody spends it. -/
theorem after_keeps (L : Ledger) (ts : List CompactTx) (x : Hash) (h : L x)
    (hn : ∀ t ∈ ts, x ∉ t.inputs) : L.after ts x := by
  induction ts generalizing L with
  | nil => exact h
  | cons t ts ih =>
    exact ih _ ⟨.inl h, hn t (by simp)⟩ fun t' ht' => hn t' (by simp [ht'])

/-- What is spent stays so while nobody creates it. -/
theorem after_gone (L : Ledger) (ts : List CompactTx) (x : Hash) (h : ¬ L x)
    (hn : ∀ t ∈ ts, x ∉ t.uhsOutputs) : ¬ L.after ts x := by
  induction ts generalizing L with
  | nil => exact h
  | cons t ts ih =>
    refine ih _ ?_ fun t' ht' => hn t' (by simp [ht'])
    rintro ⟨h1 | h1, _⟩
    · exact h h1
    · exact hn t (by simp) h1

theorem txsOf_append (a b : List Block) : txsOf (a ++ b) = txsOf a ++ txsOf b := by
  simp [txsOf]

theorem legal_snoc {L : Ledger} {ts : List CompactTx} {t : CompactTx} (h : Legal L ts)
    (ht : ∀ x ∈ t.inputs, L.after ts x) : Legal L (ts ++ [t]) := by
  intro i t' hi x hx
  by_cases hlt : i < ts.length
  · rw [List.getElem?_append_left hlt] at hi
    rw [List.take_append_of_le_length (by omega)]
    exact h i t' hi x hx
  · have hi' : i = ts.length := by
      have := (List.getElem?_eq_some_iff.mp hi).1
      simp at this; omega
    subst hi'
    simp at hi
    subst hi
    simpa using ht x hx

/-- A legal order contains no double spend. -/
theorem legal_noDoubleSpend {L : Ledger} {ts : List CompactTx} (h : Legal L ts) :
    NoDoubleSpend ts := by
  intro i j a b x hij ha hb hxa hxb
  have hj := h j b hb x hxb
  obtain ⟨hi', rfl⟩ := List.getElem?_eq_some_iff.mp ha
  obtain ⟨hj', rfl⟩ := List.getElem?_eq_some_iff.mp hb
  have e1 : ts.take j = ts.take i ++ ts[i] :: (ts.take j).drop (i + 1) := by
    conv => lhs; rw [← List.take_append_drop i (ts.take j)]
    rw [List.take_take, Nat.min_eq_left (by omega)]
    congr 1
    rw [List.drop_eq_getElem_cons (by simp; omega)]
    simp
  rw [e1, after_append, after_cons] at hj
  apply Classical.byContradiction
  intro hno
  refine after_gone _ _ x ?_ ?_ hj
  · intro h'; exact h'.2 hxa
  · intro t ht hxo
    obtain ⟨k, hk, rfl⟩ := List.getElem_of_mem ht
    simp at hk
    exact hno ⟨i + 1 + k, ts[i + 1 + k], by omega, by omega, by
      rw [List.getElem?_eq_getElem], by simpa using hxo⟩

/-! ### Positions -/

theorem mem_unite {α : Type} [DecidableEq α] (l : List α) : ∀ (s : List α) (n : α), n ∈ unite s l ↔ n ∈ s ∨ n ∈ l := by
  induction l with
  | nil => simp [unite]
  | cons a l ih =>
    intro s n
    have : unite s (a :: l) = unite (if a ∈ s then s else s ++ [a]) l := rfl
    rw [this, ih]
    split
    · rename_i h
      simp only [List.mem_cons]
      constructor
      · rintro (h' | h')
        · exact .inl h'
        · exact .inr (.inr h')
      · rintro (h' | rfl | h')
        · exact .inl h'
        · exact .inl h
        · exact .inr h'
    · simp [or_assoc]

theorem unite_nodup {α : Type} [DecidableEq α] (l : List α) : ∀ s : List α, s.Nodup → (unite s l).Nodup := by
  induction l with
  | nil => intro s h; exact h
  | cons a l ih =>
    intro s h
    have : unite s (a :: l) = unite (if a ∈ s then s else s ++ [a]) l := rfl
    rw [this]
    apply ih
    split
    · exact h
    · rename_i hn
      rw [List.nodup_append]
      refine ⟨h, by simp, ?_⟩
      intro x hx y hy
      simp at hy
      subst hy
      rintro rfl
      exact hn hx

/-- Distinct positions, as many as there are, are all the positions. -/
theorem covers {l : List Nat} {n : Nat} (hd : l.Nodup) (hlt : ∀ i ∈ l, i < n) (hl : l.length = n)
    (i : Nat) (hi : i < n) : i ∈ l := by
  apply Classical.byContradiction
  intro hni
  have h1 : (i :: l).Nodup := List.nodup_cons.mpr ⟨hni, hd⟩
  have h2 : (i :: l) ⊆ List.range n := by
    intro k hk
    rcases List.mem_cons.mp hk with rfl | hk
    · exact List.mem_range.mpr hi
    · exact List.mem_range.mpr (hlt k hk)
  have := length_le_of_subset (ks := i :: l) (l := List.range n) h1 h2
  simp at this
  omega

/-! ### Maps keyed by id -/

theorem find_some {m : TxMap} {id : Hash} {e : CompactTx × List Nat} (h : m.find id = some e) :
    e ∈ m ∧ e.1.id = id := by
  have h1 : (e.1.id == id) = true := by
    unfold TxMap.find at h
    have := List.find?_some h
    exact this
  exact ⟨List.mem_of_find?_eq_some h, eq_of_beq h1⟩

theorem find_none {m : TxMap} {id : Hash} (h : m.find id = none) : ∀ e ∈ m, e.1.id ≠ id := by
  intro e he
  have := List.find?_eq_none.mp h e he
  exact fun hc => this (by rw [hc]; exact beq_self_eq_true _)

theorem note_mem {m : TxMap} {tx : CompactTx} {atts : List Nat} {e : CompactTx × List Nat}
    (h : e ∈ m.note tx atts) :
    e ∈ m ∨ (e.1.id = tx.id ∧ (e.1 = tx ∨ ∃ e' ∈ m, e'.1 = e.1 ∧
      ∀ n ∈ e.2, n ∈ e'.2 ∨ n ∈ atts) ∧ (e.1 = tx → ∀ n ∈ e.2, n ∈ atts ∨ ∃ e' ∈ m, e'.1.id = tx.id ∧ n ∈ e'.2)) := by
  unfold TxMap.note at h
  split at h
  · rcases List.mem_append.mp h with h | h
    · exact .inl h
    · simp at h
      subst h
      refine .inr ⟨rfl, .inl rfl, fun _ n hn => ?_⟩
      have hn' := (mem_unite _ _ _).mp hn
      simp at hn'
      exact .inl hn'
  · obtain ⟨e', he', rfl⟩ := List.mem_map.mp h
    split
    · rename_i hid
      refine .inr ⟨hid, .inr ⟨e', he', rfl, fun n hn => (mem_unite _ _ _).mp hn⟩, ?_⟩
      intro _ n hn
      rcases (mem_unite _ _ _).mp hn with h' | h'
      · exact .inr ⟨e', he', hid, h'⟩
      · exact .inl h'
    · exact .inl he'

theorem note_find {m : TxMap} {tx : CompactTx} {atts : List Nat} :
    ∃ e, (m.note tx atts).find tx.id = some e := by
  cases h : (m.note tx atts).find tx.id with
  | some e => exact ⟨e, rfl⟩
  | none =>
    exfalso
    have hn := find_none h
    unfold TxMap.note at hn
    split at hn
    · exact hn (tx, unite [] atts) (by simp) rfl
    · rename_i e he
      obtain ⟨hm, hid⟩ := find_some he
      refine hn (e.1, unite e.2 atts) ?_ hid
      exact List.mem_map.mpr ⟨e, hm, by simp [hid]⟩

/-! ### Gathering attestations -/

/-- Everything gathered comes from the maps at or below the oldest offset. -/
theorem gather_spec (id : Hash) (ms : List TxMap) : ∀ (k : Nat) (total : List Nat) (oldest : Nat),
    oldest ≤ k →
    (∀ n ∈ (gather id ms k total oldest).1, n ∈ total ∨
      ∃ (j : Nat) (m : TxMap) (e : CompactTx × List Nat), ms[j]? = some m ∧ m.find id = some e ∧
        n ∈ e.2 ∧ k + j ≤ (gather id ms k total oldest).2) ∧
    oldest ≤ (gather id ms k total oldest).2 ∧
    (total.Nodup → (gather id ms k total oldest).1.Nodup) ∧
    ((gather id ms k total oldest).2 = oldest ∨
      ∃ (j : Nat) (m : TxMap) (e : CompactTx × List Nat), ms[j]? = some m ∧ m.find id = some e ∧
        (gather id ms k total oldest).2 = k + j) := by
  induction ms with
  | nil =>
    intro k total oldest hk
    exact ⟨fun n hn => .inl hn, Nat.le_refl _, fun h => h, .inl rfl⟩
  | cons m ms ih =>
    intro k total oldest hk
    unfold gather
    split
    · rename_i e he
      obtain ⟨h1, h2, h3, h4⟩ := ih (k + 1) (unite total e.2) k (by omega)
      refine ⟨?_, by omega, fun h => h3 (unite_nodup _ _ h), ?_⟩
      · intro n hn
        rcases h1 n hn with hn | ⟨j, m', e', hj, he', hn', hle⟩
        · rcases (mem_unite _ _ _).mp hn with hn | hn
          · exact .inl hn
          · exact .inr ⟨0, m, e, rfl, he, hn, by omega⟩
        · exact .inr ⟨j + 1, m', e', by simpa using hj, he', hn', by omega⟩
      · rcases h4 with h4 | ⟨j, m', e', hj, he', h4⟩
        · exact .inr ⟨0, m, e, rfl, he, by omega⟩
        · exact .inr ⟨j + 1, m', e', by simpa using hj, he', by omega⟩
    · obtain ⟨h1, h2, h3, h4⟩ := ih (k + 1) total oldest (by omega)
      refine ⟨?_, h2, h3, ?_⟩
      · intro n hn
        rcases h1 n hn with hn | ⟨j, m', e', hj, he', hn', hle⟩
        · exact .inl hn
        · exact .inr ⟨j + 1, m', e', by simpa using hj, he', hn', by omega⟩
      · rcases h4 with h4 | ⟨j, m', e', hj, he', h4⟩
        · exact .inl h4
        · exact .inr ⟨j + 1, m', e', by simpa using hj, he', by omega⟩

/-! ### The leader's pool -/

theorem addAtt_mem {s : List (Nat × UInt64)} {p q : Nat × UInt64} (h : q ∈ addAtt s p) :
    q ∈ s ∨ q = p := by
  unfold addAtt at h
  split at h
  · exact .inl h
  · simpa using h

theorem addAtt_nodup {s : List (Nat × UInt64)} {p : Nat × UInt64} (h : (s.map Prod.fst).Nodup) :
    ((addAtt s p).map Prod.fst).Nodup := by
  unfold addAtt
  split
  · exact h
  · rename_i hn
    rw [List.map_append, List.nodup_append]
    refine ⟨h, by simp, ?_⟩
    intro x hx y hy
    simp at hy
    subst hy
    rintro rfl
    obtain ⟨q, hq, hqe⟩ := List.mem_map.mp hx
    apply hn
    rw [List.any_eq_true]
    exact ⟨q, hq, by simp [hqe]⟩

theorem addAtts_spec (h : UInt64) (atts : List Nat) : ∀ s : List (Nat × UInt64),
    (∀ q ∈ atts.foldl (fun s i => addAtt s (i, h)) s, q ∈ s ∨ (q.1 ∈ atts ∧ q.2 = h)) ∧
    ((s.map Prod.fst).Nodup → ((atts.foldl (fun s i => addAtt s (i, h)) s).map Prod.fst).Nodup) := by
  induction atts with
  | nil => intro s; exact ⟨fun q hq => .inl hq, fun h => h⟩
  | cons i atts ih =>
    intro s
    simp only [List.foldl_cons]
    obtain ⟨h1, h2⟩ := ih (addAtt s (i, h))
    refine ⟨fun q hq => ?_, fun hn => h2 (addAtt_nodup hn)⟩
    rcases h1 q hq with hq | ⟨hq, hq'⟩
    · rcases addAtt_mem hq with hq | rfl
      · exact .inl hq
      · exact .inr ⟨by simp, rfl⟩
    · exact .inr ⟨by simp [hq], hq'⟩

theorem oldest_fold (atts : List (Nat × UInt64)) : ∀ o : UInt64, (∀ q ∈ atts, q.2 ≠ 0) →
    let r := atts.foldl (fun o p => if o = 0 ∨ p.2 < o then p.2 else o) o
    (∀ q ∈ atts, r ≤ q.2) ∧ (o ≠ 0 → r ≤ o ∧ r ≠ 0) ∧ (r = o ∨ ∃ q ∈ atts, r = q.2) := by
  induction atts with
  | nil => intro o _; exact ⟨by simp, fun h => ⟨UInt64.le_refl _, h⟩, .inl rfl⟩
  | cons p atts ih =>
    intro o hne
    simp only [List.foldl_cons]
    have hp := hne p (by simp)
    have hne' : ∀ q ∈ atts, q.2 ≠ 0 := fun q hq => hne q (by simp [hq])
    by_cases hc : o = 0 ∨ p.2 < o
    · simp only [hc, if_true]
      obtain ⟨h1, h2, h3⟩ := ih p.2 hne'
      obtain ⟨h4, h5⟩ := h2 hp
      refine ⟨?_, ?_, ?_⟩
      · intro q hq
        rcases List.mem_cons.mp hq with rfl | hq
        · exact h4
        · exact h1 q hq
      · intro ho
        refine ⟨?_, h5⟩
        rcases hc with hc | hc
        · exact absurd hc ho
        · exact UInt64.le_trans h4 (UInt64.le_of_lt hc)
      · rcases h3 with h3 | ⟨q, hq, h3⟩
        · exact .inr ⟨p, by simp, h3⟩
        · exact .inr ⟨q, by simp [hq], h3⟩
    · simp only [hc, if_false]
      have ho : o ≠ 0 := fun h => hc (.inl h)
      have hlt : ¬ p.2 < o := fun h => hc (.inr h)
      obtain ⟨h1, h2, h3⟩ := ih o hne'
      obtain ⟨h4, h5⟩ := h2 ho
      refine ⟨?_, fun _ => ⟨h4, h5⟩, ?_⟩
      · intro q hq
        rcases List.mem_cons.mp hq with rfl | hq
        · exact UInt64.le_trans h4 (UInt64.not_lt.mp hlt)
        · exact h1 q hq
      · rcases h3 with h3 | ⟨q, hq, h3⟩
        · exact .inl h3
        · exact .inr ⟨q, by simp [hq], h3⟩

/-- The oldest attestation is one of them and none is older. -/
theorem oldestOf_spec {atts : List (Nat × UInt64)} (hne : atts ≠ []) (h0 : ∀ q ∈ atts, q.2 ≠ 0) :
    (∀ q ∈ atts, oldestOf atts ≤ q.2) ∧ ∃ q ∈ atts, oldestOf atts = q.2 := by
  obtain ⟨h1, h2, h3⟩ := oldest_fold atts 0 h0
  refine ⟨h1, ?_⟩
  rcases h3 with h3 | h3
  · exfalso
    match atts, hne with
    | p :: ps, _ =>
      have h4 := h1 p (by simp)
      simp only [List.foldl_cons, true_or, if_true] at h3
      obtain ⟨_, h5, _⟩ := oldest_fold ps p.2 (fun q hq => h0 q (by simp [hq]))
      exact (h5 (h0 p (by simp))).2 h3
  · exact h3

/-! ### Shards -/

theorem putOutputs_spec (r : UInt8 × UInt8) (xs : List Hash) : ∀ (c : Hash → Bool) (y : Hash),
    putOutputs r c xs y = true ↔ c y = true ∨ (owns r y = true ∧ y ∈ xs) := by
  induction xs with
  | nil => intro c y; simp [putOutputs]
  | cons x xs ih =>
    intro c y
    rw [putOutputs, ih]
    by_cases hx : owns r x = true
    · simp only [hx, if_true]
      by_cases hy : y = x
      · subst hy; simp [hx]
      · simp [hy]
    · simp only [hx]
      by_cases hy : y = x
      · subst hy; simp [hx]
      · simp [hy]

theorem deleteInputs_spec (r : UInt8 × UInt8) (xs : List Hash) : ∀ (c : Hash → Bool) (y : Hash),
    deleteInputs r c xs y = true ↔ c y = true ∧ ¬ (owns r y = true ∧ y ∈ xs) := by
  induction xs with
  | nil => intro c y; simp [deleteInputs]
  | cons x xs ih =>
    intro c y
    rw [deleteInputs, ih]
    by_cases hx : owns r x = true
    · simp only [hx, if_true]
      by_cases hy : y = x
      · subst hy; simp [hx]
      · simp [hy]
    · simp only [hx]
      by_cases hy : y = x
      · subst hy; simp [hx]
      · simp [hy]

/-- The write batch of a block is the ledger restricted to the range. -/
theorem applyTxs_spec (r : UInt8 × UInt8) (ts : List CompactTx) : ∀ (c : Hash → Bool) (L : Ledger),
    (∀ y, owns r y = true → (c y = true ↔ L y)) →
    (∀ y, owns r y = true → (applyTxs r c ts y = true ↔ L.after ts y)) := by
  induction ts with
  | nil => intro c L h; exact h
  | cons t ts ih =>
    intro c L h
    rw [applyTxs, after_cons]
    apply ih
    intro y hy
    rw [deleteInputs_spec, putOutputs_spec, h y hy]
    simp [hy, Ledger.apply]

theorem applyTxs_outside (r : UInt8 × UInt8) (ts : List CompactTx) : ∀ (c : Hash → Bool) (y : Hash),
    owns r y = false → applyTxs r c ts y = c y := by
  induction ts with
  | nil => intro c y _; rfl
  | cons t ts ih =>
    intro c y hy
    rw [applyTxs, ih _ y hy]
    have h1 := deleteInputs_spec r t.inputs (putOutputs r c t.uhsOutputs) y
    rw [putOutputs_spec] at h1
    simp only [hy, Bool.false_eq_true, false_and, not_false_eq_true, and_true, or_false] at h1
    exact Bool.eq_iff_iff.mpr h1

/-- What the scan of the inputs finds. -/
theorem scanInputs_spec (r : UInt8 × UInt8) (c : Hash → Bool) (xs : List Hash) : ∀ i : Nat,
    (∀ n, n ∈ (scanInputs r c xs i).1 ↔
      i ≤ n ∧ ∃ x, xs[n - i]? = some x ∧ owns r x = true ∧ c x = true) ∧
    (scanInputs r c xs i).2 = xs.filter (fun x => owns r x && !c x) ∧
    ((scanInputs r c xs i).1).Nodup := by
  induction xs with
  | nil => intro i; simp [scanInputs]
  | cons x xs ih =>
    intro i
    obtain ⟨h1, h2, h3⟩ := ih (i + 1)
    have key : ∀ n, (i + 1 ≤ n ∧ ∃ y, xs[n - (i + 1)]? = some y ∧ owns r y = true ∧ c y = true) ↔
        (i < n ∧ ∃ y, (x :: xs)[n - i]? = some y ∧ owns r y = true ∧ c y = true) := by
      intro n
      constructor
      · rintro ⟨hn, y, hy, ho⟩
        refine ⟨hn, y, ?_, ho⟩
        rw [show n - i = (n - (i + 1)) + 1 by omega]
        simpa using hy
      · rintro ⟨hn, y, hy, ho⟩
        refine ⟨hn, y, ?_, ho⟩
        rw [show n - i = (n - (i + 1)) + 1 by omega] at hy
        simpa using hy
    have split_n : ∀ n, (i ≤ n ∧ ∃ y, (x :: xs)[n - i]? = some y ∧ owns r y = true ∧ c y = true) ↔
        ((n = i ∧ owns r x = true ∧ c x = true) ∨
          (i + 1 ≤ n ∧ ∃ y, xs[n - (i + 1)]? = some y ∧ owns r y = true ∧ c y = true)) := by
      intro n
      rw [key]
      constructor
      · rintro ⟨hn, y, hy, ho⟩
        by_cases hni : n = i
        · subst hni
          simp at hy
          subst hy
          exact .inl ⟨rfl, ho⟩
        · exact .inr ⟨by omega, y, hy, ho⟩
      · rintro (⟨rfl, ho⟩ | ⟨hn, y, hy, ho⟩)
        · exact ⟨Nat.le_refl _, x, by simp, ho⟩
        · exact ⟨by omega, y, hy, ho⟩
    unfold scanInputs
    by_cases hx : owns r x = true
    · by_cases hc : c x = true
      · simp only [hx, hc, Bool.not_true, Bool.false_eq_true, if_false, if_true]
        refine ⟨?_, ?_, ?_⟩
        · intro n
          rw [split_n, List.mem_cons, h1 n]
          simp [hx, hc]
        · simp [hx, hc, h2]
        · refine List.nodup_cons.mpr ⟨?_, h3⟩
          intro hm
          have := ((h1 i).mp hm).1
          omega
      · have hc' : c x = false := by simpa using hc
        simp only [hx, hc', Bool.not_true, Bool.false_eq_true, if_false]
        refine ⟨?_, ?_, h3⟩
        · intro n
          rw [split_n, h1 n]
          simp [hc']
        · simp [hx, hc', h2]
    · have hx' : owns r x = false := by simpa using hx
      simp only [hx', Bool.not_false, if_true]
      refine ⟨?_, ?_, h3⟩
      · intro n
        rw [split_n, h1 n]
        simp [hx']
      · simp [hx', h2]

end Verif.Atomizer
