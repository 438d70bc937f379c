import Verif.Atomizer.Inv2

/-! Where attestations come from: bookkeeping for C20. -/
namespace Verif.Atomizer

open Verif.Tx Verif.Util

theorem Notified.mono {ns ms : List Notif} {id : Hash} {i h : Nat} (hn : Notified ns id i h) :
    Notified (ns ++ ms) id i h := by
  obtain ⟨n, hm, h1⟩ := hn
  exact ⟨n, List.mem_append_left _ hm, h1⟩

theorem AllNotified.mono {ns ms : List Notif} {t : CompactTx} {lo hi hi' : Nat}
    (hn : AllNotified ns t lo hi) (hh : hi ≤ hi') : AllNotified (ns ++ ms) t lo hi' := by
  intro i hi
  obtain ⟨h, h1, h2, h3⟩ := hn i hi
  exact ⟨h, h1, by omega, h3.mono⟩

theorem AllNotified.later {ns : List Notif} {t : CompactTx} {lo hi hi' : Nat}
    (hn : AllNotified ns t lo hi) (hh : hi ≤ hi') : AllNotified ns t lo hi' := by
  intro i hi
  obtain ⟨h, h1, h2, h3⟩ := hn i hi
  exact ⟨h, h1, by omega, h3⟩

structure Traced (w : World) : Prop where
  pools : ∀ (j : Nat), (∀ e ∈ (w.pools j).txs, ∀ q ∈ e.2, Notified w.notifs e.1.id q.1 q.2.toNat) ∧
    ∀ m ∈ (w.pools j).complete, AllNotified w.notifs m.tx m.oldest.toNat w.chain.length
  aggs : ∀ m ∈ w.aggs, AllNotified w.notifs m.tx m.oldest.toNat w.chain.length
  pending : ∀ (k : Nat) (m : TxMap), w.sm.atm.txs[k]? = some m → ∀ e ∈ m, e.1.inputs ≠ [] →
    ∀ i ∈ e.2, Notified w.notifs e.1.id i (w.chain.length - k)

theorem entry_traced {ns : List Notif} {p : Pool} {n : Notif}
    (hp : ∀ e ∈ p.txs, ∀ q ∈ e.2, Notified ns e.1.id q.1 q.2.toNat) (hn : n ∈ ns) :
    ∀ q ∈ (p.entry n).2, Notified ns (p.entry n).1.id q.1 q.2.toNat := by
  intro q hq
  unfold Pool.entry at hq ⊢
  split at hq
  · rename_i e he
    have hem := List.mem_of_find?_eq_some he
    have hid : e.1.id = n.tx.id := by
      have := List.find?_some he
      exact eq_of_beq this
    rcases (addAtts_spec n.height n.atts e.2).1 q hq with hq | ⟨hq, hh⟩
    · exact hp e hem q hq
    · exact ⟨n, hn, hid.symm, hq, by rw [hh]⟩
  · rcases (addAtts_spec n.height n.atts []).1 q hq with hq | ⟨hq, hh⟩
    · simp at hq
    · exact ⟨n, hn, rfl, hq, by rw [hh]⟩

theorem notify_traced {P : Params} (hc : IdsCommit P) {w : World} (hi : Inv P w) (ht : Traced w)
    (j : Nat) {n : Notif} (hn : n ∈ w.notifs) :
    (∀ e ∈ ((w.pools j).notify P.attested n).txs, ∀ q ∈ e.2, Notified w.notifs e.1.id q.1 q.2.toNat) ∧
    ∀ m ∈ ((w.pools j).notify P.attested n).complete,
      AllNotified w.notifs m.tx m.oldest.toNat w.chain.length := by
  have he := entry_traced (ht.pools j).1 hn
  have hg := (entry_good hc (hi.pools j).1 (hi.notifs n hn)).1
  unfold Pool.notify
  split
  · exact ht.pools j
  · simp only
    split
    · refine ⟨fun e he' => ?_, (ht.pools j).2⟩
      rcases List.mem_append.mp he' with he' | he'
      · exact (ht.pools j).1 e (List.mem_filter.mp he').1
      · simp at he'; subst he'; exact he
    · rename_i hl
      have hl := Classical.not_not.mp hl
      refine ⟨fun e he' => (ht.pools j).1 e (List.mem_filter.mp he').1, fun m hm => ?_⟩
      rcases List.mem_append.mp hm with hm | hm
      · exact (ht.pools j).2 m hm
      · simp at hm
        subst hm
        intro i hi'
        generalize (w.pools j).entry n = E at *
        have hne : E.1.inputs ≠ [] := by
          intro hcn
          simp [hcn] at hi'
        obtain ⟨g1, g2⟩ := hg.2 hne
        have hne2 : E.2 ≠ [] := by
          intro hcn
          rw [hcn] at hl
          exact hne (List.eq_nil_of_length_eq_zero hl.symm)
        obtain ⟨o1, _⟩ := oldestOf_spec hne2 fun q hq hz => by
          have := (g2 q hq).1
          rw [hz] at this
          simp at this
        have hmem : i ∈ E.2.map Prod.fst := covers g1 (fun k hk => by
          obtain ⟨q, hq, rfl⟩ := List.mem_map.mp hk
          obtain ⟨_, _, x, hx, _⟩ := g2 q hq
          exact (List.getElem?_eq_some_iff.mp hx).1) (by simpa using hl) i hi'
        obtain ⟨q, hq, rfl⟩ := List.mem_map.mp hmem
        exact ⟨q.2.toNat, UInt64.le_iff_toNat_le.mp (o1 q hq), (g2 q hq).2.1, he q hq⟩

theorem note_traced {P : Params} (hc : IdsCommit P) {w : World} (hi : Inv P w) (ht : Traced w)
    {n : Notif} (hn : n ∈ w.notifs) {m : TxMap} (hm : w.sm.atm.txs[w.sm.atm.offset n.height]? = some m)
    (k : Nat) (m' : TxMap)
    (hm' : (w.sm.atm.txs.set (w.sm.atm.offset n.height) (m.note n.tx n.atts))[k]? = some m') :
    ∀ e ∈ m', e.1.inputs ≠ [] → ∀ i ∈ e.2, Notified w.notifs e.1.id i (w.chain.length - k) := by
  by_cases hkk : w.sm.atm.offset n.height = k
  · rw [List.getElem?_set, if_pos hkk] at hm'
    split at hm'
    · simp at hm'
      subst hm'
      subst hkk
      intro e he hne i hie
      rcases note_mem he with he' | ⟨hid, hor, hatt⟩
      · exact ht.pending _ m hm e he' hne i hie
      · have hsub : P.submitted e.1 := by
          rcases hor with h | ⟨e', he', heq, _⟩
          · rw [h]; exact (hi.notifs n hn).1
          · rw [← heq]; exact (hi.pending _ m hm e' he').1
        have hin : e.1.inputs = n.tx.inputs := hc _ _ hsub (hi.notifs n hn).1 hid
        have hnew : i ∈ n.atts → Notified w.notifs e.1.id i (w.chain.length - w.sm.atm.offset n.height) := by
          intro hin'
          obtain ⟨_, hle, _⟩ := (hi.notifs n hn).2 (by rw [← hin]; exact hne)
          refine ⟨n, hn, hid.symm, hin', ?_⟩
          rw [offset_eq hi hle]
          omega
        have hold : ∀ e' ∈ m, e'.1.id = n.tx.id → i ∈ e'.2 →
            Notified w.notifs e.1.id i (w.chain.length - w.sm.atm.offset n.height) := by
          intro e' he' hid' hie'
          have h2 : e'.1.inputs = n.tx.inputs :=
            hc _ _ (hi.pending _ m hm e' he').1 (hi.notifs n hn).1 hid'
          have := ht.pending _ m hm e' he' (by rw [h2, ← hin]; exact hne) i hie'
          rw [hid', ← hid] at this
          exact this
        rcases hor with h | ⟨e', he', heq, hall⟩
        · rcases hatt h i hie with h' | ⟨e', he', hid', hie'⟩
          · exact hnew h'
          · exact hold e' he' hid' hie'
        · rcases hall i hie with h' | h'
          · exact hold e' he' (by rw [heq]; exact hid) h'
          · exact hnew h'
    · simp at hm'
  · rw [List.getElem?_set_ne hkk] at hm'
    exact ht.pending k m' hm'

/-- What `insert` leaves pending, and what it confirms. -/
theorem insert_traced {P : Params} (hc : IdsCommit P) {w : World} (hi : Inv P w) (ht : Traced w)
    {n : Notif} (hn : n ∈ w.notifs) {a : Atm} {e : Option TxErr}
    (h : w.sm.atm.insert n.height n.tx n.atts = some (a, e)) :
    (∀ (k : Nat) (m : TxMap), a.txs[k]? = some m → ∀ e ∈ m, e.1.inputs ≠ [] →
      ∀ i ∈ e.2, Notified w.notifs e.1.id i (w.chain.length - k)) ∧
    ∃ new : List CompactTx, a.complete = w.sm.atm.complete ++ new ∧ ∀ t ∈ new,
      AllNotified w.notifs t (w.chain.length - P.depth) w.chain.length := by
  unfold Atm.insert at h
  split at h
  · simp at h
    obtain ⟨rfl, _⟩ := h
    exact ⟨ht.pending, [], by simp, by simp⟩
  · split at h
    · simp at h
    · rename_i m hm
      have hset := note_traced hc hi ht hn hm
      have hgood : ∀ (k : Nat) (m' : TxMap),
          (w.sm.atm.txs.set (w.sm.atm.offset n.height) (m.note n.tx n.atts))[k]? = some m' → ∀ e ∈ m',
          P.submitted e.1 ∧ (e.1.inputs ≠ [] → k ≤ w.chain.length ∧
            Attested P w.chain e.1 e.2 (w.chain.length - k)) := by
        intro k m' hm'
        by_cases hkk : w.sm.atm.offset n.height = k
        · rw [List.getElem?_set, if_pos hkk] at hm'
          split at hm'
          · simp at hm'
            subst hm'
            exact note_good hc (hi.notifs n hn)
              (fun hne => by rw [← hkk]; exact offset_eq hi ((hi.notifs n hn).2 hne).2.1)
              (fun e he => by subst hkk; exact hi.pending _ m hm e he)
          · simp at hm'
        · rw [List.getElem?_set_ne hkk] at hm'
          exact hi.pending k m' hm'
      obtain ⟨ent, hent⟩ := note_find (m := m) (tx := n.tx) (atts := n.atts)
      have hlen : w.sm.atm.offset n.height < w.sm.atm.txs.length :=
        (List.getElem?_eq_some_iff.mp hm).1
      have hse : (w.sm.atm.txs.set (w.sm.atm.offset n.height) (m.note n.tx n.atts))[w.sm.atm.offset n.height]?
          = some (m.note n.tx n.atts) := by
        rw [List.getElem?_set_self hlen]
      simp only [hent, Option.map_some, Option.getD_some] at h
      split at h
      · rename_i hcount
        split at h
        · simp at h
        · simp at h
          obtain ⟨rfl, _⟩ := h
          exact ⟨hset, [], by simp, by simp⟩
        · rename_i hck
          simp only [Option.some.injEq, Prod.mk.injEq] at h
          obtain ⟨rfl, _⟩ := h
          refine ⟨?_, ?_⟩
          · intro k m' hm' e' he'
            rw [List.getElem?_map] at hm'
            cases hq : (w.sm.atm.txs.set (w.sm.atm.offset n.height) (m.note n.tx n.atts))[k]? with
            | none => simp [hq] at hm'
            | some m'' =>
              simp [hq] at hm'
              subst hm'
              exact hset k m'' hq e' (List.mem_filter.mp he').1
          · obtain ⟨hem, heid⟩ := find_some hent
            have hesub := (hgood _ _ hse ent hem).1
            obtain ⟨g1, _, g3, g4⟩ := gather_spec n.tx.id
              (w.sm.atm.txs.set (w.sm.atm.offset n.height) (m.note n.tx n.atts)) 0 [] 0 (Nat.le_refl _)
            generalize hG : gather n.tx.id
              (w.sm.atm.txs.set (w.sm.atm.offset n.height) (m.note n.tx n.atts)) 0 [] 0 = G at *
            have hGd : G.2 ≤ P.depth := by
              rcases g4 with g4 | ⟨j, m', e', hj, _, g4⟩
              · omega
              · have := (List.getElem?_eq_some_iff.mp hj).1
                rw [List.length_set, hi.txsLen] at this
                omega
            have agree : ∀ (k : Nat) (m' : TxMap) (e' : CompactTx × List Nat),
                (w.sm.atm.txs.set (w.sm.atm.offset n.height) (m.note n.tx n.atts))[k]? = some m' →
                m'.find n.tx.id = some e' → e'.1.inputs = ent.1.inputs ∧ e'.1.id = n.tx.id := by
              intro k m' e' hm' hf
              obtain ⟨he', hid'⟩ := find_some hf
              exact ⟨hc _ _ (hgood k m' hm' e' he').1 hesub (by rw [hid', heid]), hid'⟩
            have hdone : ∀ d : CompactTx, d = ((((w.sm.atm.txs.set (w.sm.atm.offset n.height)
                (m.note n.tx n.atts))[G.2]?.getD []).find n.tx.id).map Prod.fst |>.getD ent.1) →
                d.inputs = ent.1.inputs ∧ d.id = n.tx.id := by
              rintro d rfl
              cases hq : (w.sm.atm.txs.set (w.sm.atm.offset n.height) (m.note n.tx n.atts))[G.2]? with
              | none => exact ⟨rfl, heid⟩
              | some m' =>
                simp only [Option.getD_some]
                cases hq' : m'.find n.tx.id with
                | none => exact ⟨rfl, heid⟩
                | some e' => exact agree _ m' e' hq hq'
            refine ⟨_, rfl, ?_⟩
            intro t ht'
            simp only [List.mem_singleton] at ht'
            obtain ⟨hin, hid⟩ := hdone t ht'
            intro i hi'
            rw [hin] at hi'
            have hne : ent.1.inputs ≠ [] := by intro hcn; simp [hcn] at hi'
            have hiG : i ∈ G.1 := covers (g3 List.nodup_nil) (fun k hk' => by
              rcases g1 k hk' with hin' | ⟨j, m', e', hj, hf, hn', hle⟩
              · simp at hin'
              · obtain ⟨he', _⟩ := find_some hf
                have hag := (agree j m' e' hj hf).1
                obtain ⟨_, hatt⟩ := (hgood j m' hj e' he').2 (by rw [hag]; exact hne)
                obtain ⟨x, hx, _⟩ := hatt k hn'
                rw [hag] at hx
                exact (List.getElem?_eq_some_iff.mp hx).1) hcount i hi'
            rcases g1 i hiG with hin' | ⟨j, m', e', hj, hf, hn', hle⟩
            · simp at hin'
            · obtain ⟨he', hid'⟩ := find_some hf
              have hag := (agree j m' e' hj hf).1
              have := hset j m' hj e' he' (by rw [hag]; exact hne) i hn'
              rw [hid', ← hid] at this
              exact ⟨_, by omega, by omega, this⟩
      · simp at h
        obtain ⟨rfl, _⟩ := h
        exact ⟨hset, [], by simp, by simp⟩

/-- What a batch of true aggregates confirms. -/
theorem notifyAll_traced {P : Params} (ms : List Agg) : ∀ {w : World}, Inv P w →
    (∀ m ∈ ms, GoodAgg P w.chain m) →
    (∀ m ∈ ms, AllNotified w.notifs m.tx m.oldest.toNat w.chain.length) →
    ∀ {sm : SM} {es : List TxErr}, w.sm.notifyAll ms = some (sm, es) →
    sm.atm.txs = w.sm.atm.txs ∧
    ∃ new : List CompactTx, sm.atm.complete = w.sm.atm.complete ++ new ∧ ∀ t ∈ new,
      AllNotified w.notifs t (w.chain.length - P.depth) w.chain.length := by
  induction ms with
  | nil =>
    intro w _ _ _ sm es h
    simp [SM.notifyAll] at h
    obtain ⟨rfl, _⟩ := h
    exact ⟨rfl, [], by simp, by simp⟩
  | cons m ms ih =>
    intro w hi hg ha sm es h
    unfold SM.notifyAll at h
    split at h
    · simp at h
    · rename_i a e he
      split at h
      · simp at h
      · rename_i s' es' hs'
        simp at h
        obtain ⟨rfl, _⟩ := h
        have hi' := inv_insertComplete hi (hg m (by simp)) he (w.sm.count + 1)
        obtain ⟨h1, new, h2, h3⟩ := ih hi' (fun m' hm' => hg m' (by simp [hm']))
          (fun m' hm' => ha m' (by simp [hm'])) hs'
        have hstep : a.txs = w.sm.atm.txs ∧ ∃ new : List CompactTx, a.complete = w.sm.atm.complete ++ new ∧
            ∀ t ∈ new, AllNotified w.notifs t (w.chain.length - P.depth) w.chain.length := by
          unfold Atm.insertComplete at he
          split at he
          · simp at he
            obtain ⟨rfl, _⟩ := he
            exact ⟨rfl, [], by simp, by simp⟩
          · rename_i hoff
            split at he
            · simp at he
            · simp at he
              obtain ⟨rfl, _⟩ := he
              exact ⟨rfl, [], by simp, by simp⟩
            · simp at he
              obtain ⟨rfl, _⟩ := he
              refine ⟨rfl, [m.tx], rfl, ?_⟩
              intro t ht
              simp at ht
              subst ht
              intro i hi''
              have hne : m.tx.inputs ≠ [] := by intro hcn; simp [hcn] at hi''
              obtain ⟨k, hk1, hk2, hk3⟩ := ha m (by simp) i hi''
              refine ⟨k, ?_, hk2, hk3⟩
              have hle := ((hg m (by simp)).2 hne).1
              rw [offset_eq hi hle] at hoff
              unfold Atm.checkOffset at hoff
              rw [hi.depth] at hoff
              split at hoff
              · simp at hoff
              · rename_i hcc
                have : ¬ (w.chain.length - m.oldest.toNat > P.depth) := fun h' => hcc ⟨h', hne⟩
                omega
        obtain ⟨h4, new', h5, h6⟩ := hstep
        refine ⟨h1.trans h4, new' ++ new, ?_, ?_⟩
        · rw [h2]
          show a.complete ++ new = _
          rw [h5, List.append_assoc]
        · intro t ht
          rcases List.mem_append.mp ht with ht | ht
          · exact h6 t ht
          · exact h3 t ht

theorem traced_step {P : Params} (hc : IdsCommit P) {w w' : World} (hi : Inv P w) (ht : Traced w)
    (hs : Step P w w') : Traced w' ∧
      ((∃ new : List CompactTx, w'.sm.atm.complete = w.sm.atm.complete ++ new ∧ w'.chain = w.chain ∧
        ∀ t ∈ new, AllNotified w.notifs t (w.chain.length - P.depth) w.chain.length) ∨
      w'.sm.atm.complete = []) := by
  cases hs with
  | digest i b hb => exact ⟨{ ht with }, .inl ⟨[], by simp, rfl, by simp⟩⟩
  | restart i d hd => exact ⟨{ ht with }, .inl ⟨[], by simp, rfl, by simp⟩⟩
  | attest i tx n hsub h =>
    exact ⟨⟨fun j => ⟨fun e he q hq => ((ht.pools j).1 e he q hq).mono,
      fun m hm => ((ht.pools j).2 m hm).mono (Nat.le_refl _)⟩,
      fun m hm => (ht.aggs m hm).mono (Nat.le_refl _),
      fun k m hm e he hne i hi' => (ht.pending k m hm e he hne i hi').mono⟩,
      .inl ⟨[], by simp, rfl, by simp⟩⟩
  | mint n hsub hin =>
    exact ⟨⟨fun j => ⟨fun e he q hq => ((ht.pools j).1 e he q hq).mono,
      fun m hm => ((ht.pools j).2 m hm).mono (Nat.le_refl _)⟩,
      fun m hm => (ht.aggs m hm).mono (Nat.le_refl _),
      fun k m hm e he hne i hi' => (ht.pending k m hm e he hne i hi').mono⟩,
      .inl ⟨[], by simp, rfl, by simp⟩⟩
  | notify j n hn =>
    refine ⟨{ ht with pools := fun k => ?_ }, .inl ⟨[], by simp, rfl, by simp⟩⟩
    simp only [upd]
    split
    · rename_i h
      subst h
      exact notify_traced hc hi ht k hn
    · exact ht.pools k
  | propose j =>
    refine ⟨{ ht with pools := fun k => ?_, aggs := fun m hm => ?_ }, .inl ⟨[], by simp, rfl, by simp⟩⟩
    · simp only [upd]
      split
      · exact ⟨(ht.pools j).1, by simp⟩
      · exact ht.pools k
    · rcases List.mem_append.mp hm with hm | hm
      · exact ht.aggs m hm
      · exact (ht.pools j).2 m hm
  | forget j =>
    refine ⟨{ ht with pools := fun k => ?_ }, .inl ⟨[], by simp, rfl, by simp⟩⟩
    simp only [upd]
    split
    · exact ⟨by simp [Pool.new], by simp [Pool.new]⟩
    · exact ht.pools k
  | commit ms sm r hms h =>
    simp only [SM.commit] at h
    split at h
    · simp at h
    · rename_i s' es hs'
      simp at h
      obtain ⟨rfl, _⟩ := h
      obtain ⟨h1, new, h2, h3⟩ := notifyAll_traced ms hi (fun m hm => hi.aggs m (hms m hm))
        (fun m hm => ht.aggs m (hms m hm)) hs'
      refine ⟨{ ht with pending := ?_ }, .inl ⟨new, h2, rfl, h3⟩⟩
      intro k m hm
      exact ht.pending k m (h1 ▸ hm)
  | insert n a e hn _ h =>
    obtain ⟨h1, new, h2, h3⟩ := insert_traced hc hi ht hn h
    exact ⟨{ ht with pending := h1 }, .inl ⟨new, h2, rfl, h3⟩⟩
  | block sm b errs hl h =>
    simp only [SM.commit, Option.some.injEq, Prod.mk.injEq, Resp.made.injEq] at h
    obtain ⟨rfl, rfl, _⟩ := h
    refine ⟨⟨fun j => ⟨(ht.pools j).1, fun m hm => ((ht.pools j).2 m hm).later (by simp)⟩,
      fun m hm => (ht.aggs m hm).later (by simp), ?_⟩, .inr rfl⟩
    intro k m hm e he
    simp only [Atm.makeBlock] at hm
    cases k with
    | zero => simp at hm; subst hm; simp at he
    | succ k =>
      rw [List.getElem?_cons_succ, List.getElem?_take] at hm
      split at hm
      · have := ht.pending k m hm e he
        have e1 : (w.chain ++ [w.sm.atm.makeBlock.2.1]).length - (k + 1) = w.chain.length - k := by
          simp
        rw [e1]
        exact this
      · simp at hm
  | prune h sm r hp =>
    simp only [SM.commit, Option.some.injEq, Prod.mk.injEq] at hp
    obtain ⟨rfl, _⟩ := hp
    exact ⟨{ ht with }, .inl ⟨[], by simp, rfl, by simp⟩⟩

theorem traced_init (P : Params) : Traced (World.init P) where
  pools := fun j => ⟨by intro e h; simp [World.init, Pool.new] at h,
    by intro e h; simp [World.init, Pool.new] at h⟩
  aggs := by intro m h; simp [World.init] at h
  pending := by
    intro k m hm e he
    have : m = [] := by
      have := List.mem_of_getElem? hm
      exact (List.mem_replicate.mp this).2
    subst this
    simp at he

theorem reach_traced {P : Params} (hc : IdsCommit P) {w : World} (h : Reach P w) : Traced w := by
  induction h with
  | init => exact traced_init P
  | step w w' hr hs ih => exact (traced_step hc (reach_inv hc hr) ih hs).1

/-! ### Sentinel attestations -/

/-- Confirmed, proposed and collected transactions passed `check_attestations`, or were inserted
directly. -/
structure Signed (P : Params) (w : World) : Prop where
  pools : ∀ (j : Nat), (∀ e ∈ (w.pools j).txs, P.attested e.1 = true) ∧
    ∀ m ∈ (w.pools j).complete, P.attested m.tx = true
  aggs : ∀ m ∈ w.aggs, P.attested m.tx = true
  pending : ∀ m ∈ w.sm.atm.txs, ∀ e ∈ m, P.direct e.1
  complete : ∀ t ∈ w.sm.atm.complete, P.attested t = true ∨ P.direct t
  chain : ∀ b ∈ w.chain, ∀ t ∈ b.txs, P.attested t = true ∨ P.direct t

theorem entry_signed {P : Params} {p : Pool} {n : Notif} (hp : ∀ e ∈ p.txs, P.attested e.1 = true)
    (hn : P.attested n.tx = true) : P.attested (p.entry n).1 = true := by
  unfold Pool.entry
  split
  · rename_i e he
    exact hp e (List.mem_of_find?_eq_some he)
  · exact hn

theorem notifyAll_signed (P : Params) (ms : List Agg) (hms : ∀ m ∈ ms, P.attested m.tx = true) :
    ∀ (s s' : SM) (es : List TxErr), (∀ t ∈ s.atm.complete, P.attested t = true ∨ P.direct t) →
    s.notifyAll ms = some (s', es) →
    s'.atm.txs = s.atm.txs ∧ ∀ t ∈ s'.atm.complete, P.attested t = true ∨ P.direct t := by
  induction ms with
  | nil =>
    intro s s' es h hr
    simp [SM.notifyAll] at hr
    obtain ⟨rfl, _⟩ := hr
    exact ⟨rfl, h⟩
  | cons m ms ih =>
    intro s s' es h hr
    unfold SM.notifyAll at hr
    split at hr
    · simp at hr
    · rename_i a e he
      split at hr
      · simp at hr
      · rename_i s1 es1 h1
        simp at hr
        obtain ⟨rfl, _⟩ := hr
        have hstep : a.txs = s.atm.txs ∧ ∀ t ∈ a.complete, P.attested t = true ∨ P.direct t := by
          unfold Atm.insertComplete at he
          split at he
          · simp at he; obtain ⟨rfl, _⟩ := he; exact ⟨rfl, h⟩
          · split at he
            · simp at he
            · simp at he; obtain ⟨rfl, _⟩ := he; exact ⟨rfl, h⟩
            · simp at he; obtain ⟨rfl, _⟩ := he
              refine ⟨rfl, ?_⟩
              intro t ht
              rcases List.mem_append.mp ht with ht | ht
              · exact h t ht
              · simp at ht; subst ht; exact .inl (hms m (by simp))
        obtain ⟨i1, i2⟩ := ih (fun m' hm' => hms m' (by simp [hm']))
          { s with atm := a, count := s.count + 1 } _ _ hstep.2 h1
        exact ⟨i1.trans hstep.1, i2⟩

theorem insert_signed {P : Params} {a a' : Atm} {h : UInt64} {tx : CompactTx} {atts : List Nat}
    {e : Option TxErr} (hp : ∀ m ∈ a.txs, ∀ e ∈ m, P.direct e.1)
    (hc : ∀ t ∈ a.complete, P.attested t = true ∨ P.direct t) (hd : P.direct tx)
    (hr : a.insert h tx atts = some (a', e)) :
    (∀ m ∈ a'.txs, ∀ e ∈ m, P.direct e.1) ∧ ∀ t ∈ a'.complete, P.attested t = true ∨ P.direct t := by
  unfold Atm.insert at hr
  split at hr
  · simp at hr; obtain ⟨rfl, _⟩ := hr; exact ⟨hp, hc⟩
  · split at hr
    · simp at hr
    · rename_i m hm
      have hset : ∀ m' ∈ a.txs.set (a.offset h) (m.note tx atts), ∀ e ∈ m', P.direct e.1 := by
        intro m' hm' e' he'
        rcases List.mem_or_eq_of_mem_set hm' with hm' | rfl
        · exact hp m' hm' e' he'
        · rcases note_mem he' with he' | ⟨_, hor, _⟩
          · exact hp m (List.mem_of_getElem? hm) e' he'
          · rcases hor with hq | ⟨e'', he'', heq, _⟩
            · rw [hq]; exact hd
            · rw [← heq]; exact hp m (List.mem_of_getElem? hm) e'' he''
      obtain ⟨ent, hent⟩ := note_find (m := m) (tx := tx) (atts := atts)
      have hlen := (List.getElem?_eq_some_iff.mp hm).1
      have hentd : P.direct ent.1 := hset (m.note tx atts) (by
          apply List.mem_iff_getElem?.mpr
          exact ⟨a.offset h, List.getElem?_set_self hlen⟩) ent (find_some hent).1
      simp only [hent, Option.map_some, Option.getD_some] at hr
      split at hr
      · split at hr
        · simp at hr
        · simp at hr; obtain ⟨rfl, _⟩ := hr; exact ⟨hset, hc⟩
        · simp only [Option.some.injEq, Prod.mk.injEq] at hr
          obtain ⟨rfl, _⟩ := hr
          refine ⟨?_, ?_⟩
          · intro m' hm' e' he'
            obtain ⟨m'', hm'', rfl⟩ := List.mem_map.mp hm'
            exact hset m'' hm'' e' (List.mem_filter.mp he').1
          · intro t ht
            rcases List.mem_append.mp ht with ht | ht
            · exact hc t ht
            · simp only [List.mem_singleton] at ht
              right
              rw [ht]
              generalize gather tx.id _ 0 [] 0 = G
              cases hq : (a.txs.set (a.offset h) (m.note tx atts))[G.2]? with
              | none => exact hentd
              | some m' =>
                simp only [Option.getD_some]
                cases hq' : m'.find tx.id with
                | none => exact hentd
                | some e' =>
                  exact hset m' (List.mem_of_getElem? hq) e' (find_some hq').1
      · simp at hr; obtain ⟨rfl, _⟩ := hr; exact ⟨hset, hc⟩

theorem signed_step {P : Params} {w w' : World} (hg : Signed P w) (hs : Step P w w') :
    Signed P w' := by
  cases hs with
  | digest i b hb => exact { hg with }
  | restart i d hd => exact { hg with }
  | attest i tx n hsub h => exact { hg with }
  | mint n hsub hin => exact { hg with }
  | notify j n hn =>
    refine { hg with pools := fun k => ?_ }
    simp only [upd]
    split
    · rename_i hk
      subst hk
      unfold Pool.notify
      split
      · exact hg.pools k
      · rename_i hat
        have he := entry_signed (hg.pools k).1 (by simpa using hat) (n := n)
        simp only
        split
        · refine ⟨fun e he' => ?_, (hg.pools k).2⟩
          rcases List.mem_append.mp he' with he' | he'
          · exact (hg.pools k).1 e (List.mem_filter.mp he').1
          · simp at he'; subst he'; exact he
        · refine ⟨fun e he' => (hg.pools k).1 e (List.mem_filter.mp he').1, fun m hm => ?_⟩
          rcases List.mem_append.mp hm with hm | hm
          · exact (hg.pools k).2 m hm
          · simp at hm; subst hm; exact he
    · exact hg.pools k
  | propose j =>
    refine { hg with pools := fun k => ?_, aggs := fun m hm => ?_ }
    · simp only [upd]
      split
      · exact ⟨(hg.pools j).1, by simp⟩
      · exact hg.pools k
    · rcases List.mem_append.mp hm with hm | hm
      · exact hg.aggs m hm
      · exact (hg.pools j).2 m hm
  | forget j =>
    refine { hg with pools := fun k => ?_ }
    simp only [upd]
    split
    · exact ⟨by simp [Pool.new], by simp [Pool.new]⟩
    · exact hg.pools k
  | commit ms sm r hms h =>
    simp only [SM.commit] at h
    split at h
    · simp at h
    · rename_i s' es hs'
      simp at h
      obtain ⟨rfl, _⟩ := h
      obtain ⟨h1, h2⟩ := notifyAll_signed P ms (fun m hm => hg.aggs m (hms m hm)) _ _ _ hg.complete hs'
      exact { hg with pending := by rw [h1]; exact hg.pending, complete := h2 }
  | insert n a e hn hd h =>
    obtain ⟨h1, h2⟩ := insert_signed hg.pending hg.complete hd h
    exact { hg with pending := h1, complete := h2 }
  | block sm b errs hl h =>
    simp only [SM.commit, Option.some.injEq, Prod.mk.injEq, Resp.made.injEq] at h
    obtain ⟨rfl, rfl, _⟩ := h
    refine { hg with pending := ?_, complete := ?_, chain := ?_ }
    · intro m hm
      rcases List.mem_cons.mp hm with rfl | hm
      · simp
      · exact hg.pending m (List.mem_of_mem_take hm)
    · intro t ht; simp [Atm.makeBlock] at ht
    · intro b hb
      rcases List.mem_append.mp hb with hb | hb
      · exact hg.chain b hb
      · simp at hb; subst hb; exact hg.complete
  | prune h sm r hp =>
    simp only [SM.commit, Option.some.injEq, Prod.mk.injEq] at hp
    obtain ⟨rfl, _⟩ := hp
    exact { hg with }

theorem reach_signed {P : Params} {w : World} (h : Reach P w) : Signed P w := by
  induction h with
  | init =>
    refine ⟨fun j => ⟨by intro e h; simp [World.init, Pool.new] at h,
      by intro e h; simp [World.init, Pool.new] at h⟩, by intro m h; simp [World.init] at h, ?_,
      by intro m h; simp [World.init, SM.new, Atm.new] at h, by intro m h; simp [World.init] at h⟩
    intro m hm e he
    rw [List.eq_of_mem_replicate hm] at he
    simp at he
  | step w w' hr hs ih => exact signed_step ih hs

end Verif.Atomizer
