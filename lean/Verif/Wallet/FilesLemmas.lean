import Verif.Wallet.Files
import Verif.Wallet.ClientProps
import Verif.Tx.Lemmas
import Verif.Serial.Lemmas2
import Mathlib.Data.List.Nodup
/-! Helper lemmas about the files of a client. -/
namespace Verif.Wallet

open Verif.Serial Verif.Tx

theorem prefix_split {α : Type} {p a b : List α} (h : p <+: a ++ b) :
    (∃ s, a = p ++ s ∧ s ≠ []) ∨ ∃ q, p = a ++ q ∧ q <+: b := by
  obtain ⟨t, ht⟩ := h
  rcases List.append_eq_append_iff.mp ht with ⟨s, h1, h2⟩ | ⟨q, h1, h2⟩
  · by_cases hs : s = []
    · subst hs
      refine Or.inr ⟨[], by simpa using h1.symm, List.nil_prefix⟩
    · exact Or.inl ⟨s, h1, hs⟩
  · exact Or.inr ⟨q, h1, ⟨t, h2.symm⟩⟩

theorem decInt_cut {p s : Bytes} {w n : Nat} (h : encInt w n = p ++ s) (hs : s ≠ []) :
    ∃ r, decInt w p = .fail r := by
  refine ⟨_, decInt_short ?_⟩
  have := congrArg List.length h
  rw [encInt_length, List.length_append] at this
  have : 0 < s.length := List.length_pos_iff.mpr hs
  omega

theorem decPair_ok {e : Bytes × Bytes} (h : e.1.length = 32 ∧ e.2.length = 32)
    (q : Bytes) : decPair ((e.1 ++ e.2) ++ q) = .ok e q :=
  roundtrip (.pair (.arr 32) (.arr 32)) e h q

theorem decPair_cut {e : Bytes × Bytes} (h : e.1.length = 32 ∧ e.2.length = 32)
    {p s : Bytes} (hs : e.1 ++ e.2 = p ++ s) (hne : s ≠ []) : Rejects (decPair p) :=
  truncated (.pair (.arr 32) (.arr 32)) e h p s hs hne

theorem decInput_ok (i : Input) (q : Bytes) :
    decInput (enc tInput i.wire ++ q) = .ok i.wire q :=
  roundtrip tInput i.wire i.wire_wf q

theorem decInput_cut {i : Input} {p s : Bytes} (hs : enc tInput i.wire = p ++ s)
    (hne : s ≠ []) : Rejects (decInput p) :=
  truncated tInput i.wire i.wire_wf p s hs hne

/-- Reading a map out of a beginning of what was written. -/
theorem streamMap_prefix (vs : List (Bytes × Bytes)) (tail : Bytes)
    (hw : ∀ e ∈ vs, e.1.length = 32 ∧ e.2.length = 32) :
    ∀ (acc : List (Bytes × Bytes)) (fuel len : Nat) (p : Bytes),
      ((acc ++ vs).map Prod.fst).Nodup → vs.length < fuel →
      len = acc.length + vs.length →
      p <+: (vs.flatMap fun e => e.1 ++ e.2) ++ tail →
      (∃ m, m < vs.length ∧
        streamMap len fuel acc p =
          (acc ++ vs.take m, none) ∧
        p.length < (vs.flatMap fun e => e.1 ++ e.2).length) ∨
      ∃ q, q <+: tail ∧
        p = (vs.flatMap fun e => e.1 ++ e.2) ++ q ∧
        streamMap len fuel acc p =
          (acc ++ vs, some q) := by
  induction vs with
  | nil =>
    intro acc fuel len p _ hf hl hp
    refine Or.inr ⟨p, by simpa using hp, by simp, ?_⟩
    obtain ⟨f, rfl⟩ : ∃ f, fuel = f + 1 := ⟨fuel - 1, by simp at hf; omega⟩
    rw [streamMap, if_neg (by simp at hl; omega), List.append_nil]
  | cons e vs ih =>
    intro acc fuel len p hn hf hl hp
    obtain ⟨f, rfl⟩ : ∃ f, fuel = f + 1 := ⟨fuel - 1, by simp at hf; omega⟩
    have hlt : acc.length < len := by simp at hl; omega
    have hst : streamMap len (f + 1) acc p =
        match decPair p with
        | .ok e r =>
          if e.1 ∈ acc.map Prod.fst then
            streamMap len f acc r
          else streamMap len f (acc ++ [e]) r
        | _ => (acc, none) := by
      rw [streamMap, if_pos hlt]
      cases decPair p <;> rfl
    rw [hst]
    have hp' : p <+: (e.1 ++ e.2) ++
        ((vs.flatMap fun e => e.1 ++ e.2) ++ tail) := by
      simpa using hp
    rcases prefix_split hp' with ⟨s, hs, hne⟩ | ⟨q, rfl, hq⟩
    · refine Or.inl ⟨0, by simp, ?_, ?_⟩
      · have hr := decPair_cut (hw e (by simp)) hs hne
        cases hd : decPair p with
        | ok a r => exact absurd hd (hr a r)
        | fail r => simp
        | bad => simp
      · have h1 := congrArg List.length hs
        have h2 : 0 < s.length := List.length_pos_iff.mpr hne
        simp only [List.length_append, List.flatMap_cons] at h1 ⊢
        omega
    · rw [decPair_ok (hw e (by simp)) q]
      have hmem : e.1 ∉ acc.map Prod.fst := by
        rw [List.map_append, List.map_cons, List.nodup_append] at hn
        intro h
        exact hn.2.2 e.1 h e.1 (by simp) rfl
      simp only [if_neg hmem]
      rcases ih (fun e he => hw e (List.mem_cons_of_mem _ he)) (acc ++ [e]) f len q
        (by simpa using hn) (by simp at hf; omega) (by simp at hl ⊢; omega) hq with
        ⟨m, h1, h2, h3⟩ | ⟨q', h1, h2, h3⟩
      · refine Or.inl ⟨m + 1, by simpa using h1, by rw [h2]; simp, ?_⟩
        simp only [List.length_append, List.flatMap_cons] at h3 ⊢
        omega
      · refine Or.inr ⟨q', h1, ?_, by rw [h3]; simp⟩
        rw [h2]; simp

/-- Reading the set of outputs out of a beginning of what was written. -/
theorem streamSet_prefix (l : List Input) :
    ∀ (acc : List Input) (p : Bytes),
      ((acc ++ l).map (·.prevout)).Nodup →
      p <+: (l.flatMap fun i => enc tInput i.wire) →
      ∃ m, m ≤ l.length ∧ streamSet l.length acc p = acc ++ l.take m ∧
        (m < l.length → p.length < (l.flatMap fun i => enc tInput i.wire).length) := by
  induction l with
  | nil => intro acc p _ _; exact ⟨0, by simp, by simp [streamSet], by simp⟩
  | cons i l ih =>
    intro acc p hn hp
    have hp' : p <+: enc tInput i.wire ++ l.flatMap fun i => enc tInput i.wire := by
      simpa using hp
    have hst : streamSet (l.length + 1) acc p =
        match decInput p with
        | .ok v r =>
          match Input.ofWire v with
          | some i => streamSet l.length (if has acc i then acc else acc ++ [i]) r
          | none => acc
        | _ => acc := by
      rw [streamSet]
      cases decInput p <;> rfl
    rw [List.length_cons, hst]
    rcases prefix_split hp' with ⟨s, hs, hne⟩ | ⟨q, rfl, hq⟩
    · refine ⟨0, by simp, ?_, fun _ => ?_⟩
      · have hr := decInput_cut hs hne
        cases hd : decInput p with
        | ok a r => exact absurd hd (hr a r)
        | fail r => simp
        | bad => simp
      · have h1 := congrArg List.length hs
        have h2 : 0 < s.length := List.length_pos_iff.mpr hne
        simp only [List.length_append, List.flatMap_cons] at h1 ⊢
        omega
    · rw [decInput_ok i q]
      simp only [i.ofWire_wire]
      have hmem : has acc i = false := by
        rw [List.map_append, List.map_cons, List.nodup_append] at hn
        rw [has, List.any_eq_false]
        intro x hx
        simp only [decide_eq_true_eq]
        exact hn.2.2 x.prevout (List.mem_map_of_mem hx) i.prevout (by simp)
      rw [hmem]
      obtain ⟨m, h1, h2, h3⟩ := ih (acc ++ [i]) q (by simpa using hn) hq
      refine ⟨m + 1, by simpa using h1, by simp only [Bool.false_eq_true, if_false, h2]; simp, ?_⟩
      intro hm
      have := h3 (by simpa using hm)
      simp only [List.length_append, List.flatMap_cons] at this ⊢
      omega

theorem keys_back (l : List PubKey) (sec : Secrets) (m : Nat) :
    ((l.map fun k => (k.val, (sec k).val)).take m).filterMap (fun e => toArr 32 e.1) =
      l.take m := by
  rw [← List.map_take, List.filterMap_map]
  induction l.take m with
  | nil => rfl
  | cons k l ih =>
    rw [List.filterMap_cons]
    have : ((fun e : Bytes × Bytes => toArr 32 e.1) ∘ fun k : PubKey => (k.val, (sec k).val)) k =
        some k := toArr_val k
    rw [this, ih]

/-- The wallet that is loaded from a beginning of the file. -/
theorem loadWallet_prefix (w : Wallet) (sec : Secrets) (keys : List PubKey)
    (order : List Input) (hk : keys.Nodup) (hkl : keys.length < 2 ^ 64)
    (ho : (order.map (·.prevout)).Nodup) (hol : order.length < 2 ^ 64) (p : Bytes)
    (hp : p <+: walletBytes sec keys order) :
    ∃ m n, loadWallet w p = load w (keys.take m) (order.take n) ∧
      (n ≠ 0 → keys.length ≤ m) ∧
      (p = walletBytes sec keys order → keys.length ≤ m ∧ order.length ≤ n) := by
  let vs : List (Bytes × Bytes) := keys.map fun k => (k.val, (sec k).val)
  let body := vs.flatMap fun e => e.1 ++ e.2
  let tail := enc (.oset tInput) (order.map Input.wire)
  have hbytes : walletBytes sec keys order = encInt 8 vs.length ++ (body ++ tail) := by
    simp only [walletBytes, tail, List.append_assoc]
    rw [← List.append_assoc]
    rfl
  have hvl : vs.length = keys.length := by simp [vs]
  have hw : ∀ e ∈ vs, e.1.length = 32 ∧ e.2.length = 32 := by
    intro e he
    obtain ⟨k, _, rfl⟩ := List.mem_map.mp he
    exact ⟨k.2, (sec k).2⟩
  have hn : ((([] : List (Bytes × Bytes)) ++ vs).map Prod.fst).Nodup := by
    have : (([] : List (Bytes × Bytes)) ++ vs).map Prod.fst = keys.map Subtype.val := by
      simp only [List.nil_append, vs, List.map_map]; rfl
    rw [this]
    exact List.Nodup.map (fun a b h => Subtype.ext h) hk
  have hp' := hp
  rw [hbytes] at hp'
  rcases prefix_split hp' with ⟨s, hs, hne⟩ | ⟨r, hr, hq⟩
  · obtain ⟨r, hd⟩ := decInt_cut hs hne
    refine ⟨0, 0, ?_, by simp, ?_⟩
    · simp only [loadWallet, streamKeys, hd, streamOutputs]; simp
    · intro h
      exfalso
      rw [h, hbytes] at hs
      have := congrArg List.length hs
      have h2 : 0 < s.length := List.length_pos_iff.mpr hne
      simp only [List.length_append] at this
      omega
  · have hd : decInt 8 p = .ok vs.length r := by
      rw [hr]; exact decInt_append 8 _ r (by rw [hvl, pow256_8]; exact hkl)
    rcases streamMap_prefix vs tail hw [] (r.length + vs.length + 1) vs.length r hn
      (by omega) (by simp) hq with ⟨m, h1, h2, h3⟩ | ⟨q, h1, h2, h3⟩
    · refine ⟨m, 0, ?_, by simp, ?_⟩
      · simp only [loadWallet, streamKeys, hd, h2, streamOutputs, List.nil_append,
          List.take_zero]
        rw [keys_back]
      · intro h
        exfalso
        rw [h, hbytes] at hr
        have := congrArg List.length hr
        simp only [List.length_append] at this
        change r.length < body.length at h3
        omega
    · have hkeys : (([] : List (Bytes × Bytes)) ++ vs).filterMap (fun e => toArr 32 e.1) =
          keys.take keys.length := by
        have := keys_back keys sec keys.length
        rw [← this]
        rw [List.take_of_length_le (by simp)]
        rfl
      have hload : loadWallet w p = load w (keys.take keys.length) (streamOutputs (some q)) := by
        simp only [loadWallet, streamKeys, hd, h3]
        rw [hkeys]
      have htail : tail = encInt 8 order.length ++
          (order.flatMap fun i => enc tInput i.wire) := by
        have : tail = encInt 8 (order.map Input.wire).length ++
            (order.map Input.wire).flatMap (enc tInput) := rfl
        rw [this, List.length_map]
        congr 1
        exact List.flatMap_map ..
      have hol' : order.length < 256 ^ 8 := by rw [pow256_8]; exact hol
      rw [htail] at h1
      rcases prefix_split h1 with ⟨s, hs, hne⟩ | ⟨u, hu, hv⟩
      · obtain ⟨r', hd'⟩ := decInt_cut hs hne
        refine ⟨keys.length, 0, ?_, by simp, ?_⟩
        · rw [hload]; simp [streamOutputs, hd']
        · intro h
          exfalso
          rw [h, hbytes] at hr
          have h4 := congrArg List.length hr
          have h5 := congrArg List.length h2
          have h6 := congrArg List.length hs
          have h7 := congrArg List.length htail
          have h8 : 0 < s.length := List.length_pos_iff.mpr hne
          simp only [List.length_append] at h4 h5 h6 h7
          change r.length = body.length + _ at h5
          omega
      · obtain ⟨n, k1, k2, k3⟩ := streamSet_prefix order [] u (by simpa using ho) hv
        refine ⟨keys.length, n, ?_, by simp, ?_⟩
        · rw [hload]
          have : decInt 8 q = .ok order.length u := by
            rw [hu]; exact decInt_append 8 _ u hol'
          simp only [streamOutputs, this, k2, List.nil_append]
        · intro h
          refine ⟨Nat.le_refl _, ?_⟩
          apply Nat.le_of_not_lt
          intro hlt
          have := k3 hlt
          rw [h, hbytes] at hr
          have h4 := congrArg List.length hr
          have h5 := congrArg List.length h2
          have h6 := congrArg List.length hu
          have h7 := congrArg List.length htail
          simp only [List.length_append] at h4 h5 h6 h7
          change r.length = body.length + _ at h5
          omega

/-- Every part of the client fits the file. -/
structure Fits (cl : Client) : Prop where
  txs : cl.txs.length < 2 ^ 64 ∧ (cl.txs.map (·.1)).Nodup ∧ ∀ e ∈ cl.txs, e.2.Fits
  inputs : cl.inputs.length < 2 ^ 64 ∧ (cl.inputs.map (·.1)).Nodup
  spend : cl.spend.length < 2 ^ 64 ∧ (cl.spend.map (·.1)).Nodup
  keys : cl.wallet.keys.length < 2 ^ 64 ∧ cl.wallet.keys.Nodup
  utxos : cl.wallet.utxos.length < 2 ^ 64 ∧ (cl.wallet.utxos.map (·.prevout)).Nodup

/-- The value that the client file holds. -/
def pendingWire (cl : Client) : tPending.val :=
  (cl.txs.map (fun e => (e.1.val, e.2.wire)),
    cl.inputs.map (fun e => (e.1.val, e.2.wire)),
    cl.spend.map (fun e => (e.1.val, e.2.wire)))

theorem keyed_nodup {α β : Type} (f : α → β) (m : List (Hash × α))
    (h : (m.map (·.1)).Nodup) :
    ((m.map fun e => (e.1.val, f e.2)).map Prod.fst).Nodup := by
  have : (m.map fun e => (e.1.val, f e.2)).map Prod.fst = (m.map (·.1)).map Subtype.val := by
    rw [List.map_map, List.map_map]; rfl
  rw [this]
  exact List.Nodup.map (fun a b h => Subtype.ext h) h

theorem inputsMap_wf (m : List (Hash × Input))
    (h : m.length < 2 ^ 64 ∧ (m.map (·.1)).Nodup) :
    WF (.umap tHash tInput) (m.map fun e => (e.1.val, e.2.wire)) := by
  refine ⟨lt_of_len (List.length_map _) h.1, keyed_nodup Input.wire m h.2, ?_⟩
  intro p hp
  obtain ⟨e, _, rfl⟩ := List.mem_map.mp hp
  exact ⟨e.1.2, e.2.wire_wf⟩

theorem pendingWire_wf {cl : Client} (h : Fits cl) : WF tPending (pendingWire cl) := by
  refine ⟨⟨lt_of_len (List.length_map _) h.txs.1, keyed_nodup FullTx.wire _ h.txs.2.1, ?_⟩,
    inputsMap_wf _ h.inputs, inputsMap_wf _ h.spend⟩
  intro p hp
  obtain ⟨e, he, rfl⟩ := List.mem_map.mp hp
  exact ⟨e.1.2, e.2.wire_wf (h.txs.2.2 e he)⟩

theorem txsOf_wire (m : List (Hash × FullTx)) :
    txsOf (m.map fun e => (e.1.val, e.2.wire)) = some m :=
  mapM_inverse (fun e : Hash × FullTx => (e.1.val, e.2.wire)) _
    (fun e => by simp [toArr_val, FullTx.ofWire_wire]) m

theorem inputsOf_wire (m : List (Hash × Input)) :
    inputsOf (m.map fun e => (e.1.val, e.2.wire)) = some m :=
  mapM_inverse (fun e : Hash × Input => (e.1.val, e.2.wire)) _
    (fun e => by simp [toArr_val, Input.ofWire_wire]) m

theorem ofPending_wire (w : Wallet) (cl : Client) :
    ofPending w (pendingWire cl) = some ⟨w, cl.txs, cl.inputs, cl.spend⟩ := by
  have h1 := txsOf_wire cl.txs
  have h2 := inputsOf_wire cl.inputs
  have h3 := inputsOf_wire cl.spend
  have h : ofPending w (pendingWire cl) =
      (txsOf (cl.txs.map fun e => (e.1.val, e.2.wire))).bind fun t =>
        (inputsOf (cl.inputs.map fun e => (e.1.val, e.2.wire))).bind fun i =>
          (inputsOf (cl.spend.map fun e => (e.1.val, e.2.wire))).bind fun s =>
            some ⟨w, t, i, s⟩ := rfl
  rw [h, h1, Option.bind_some, h2, Option.bind_some, h3, Option.bind_some]

end Verif.Wallet
