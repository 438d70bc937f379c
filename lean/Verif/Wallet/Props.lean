import Verif.Wallet.Lemmas
import Verif.Tx.Props
/-!
# Payments (C29) and the balance (C30)
-/
namespace Verif.Wallet

open Verif.Serial Verif.Tx

/-! ### Specification -/

/-- `t` pays `dest` out of wallet `w`, leaving `w'`. -/
structure Payment (c : Crypto) (w w' : Wallet) (t : FullTx)
    (dest : List Output) : Prop where
  /-- The wallet held what is spent, and holds the rest. -/
  spends : (t.inputs ++ held c w').Perm (held c w)
  /-- Nothing is spent twice. -/
  once : (t.inputs.map (·.prevout)).Nodup
  /-- Besides what is paid there is only change, to a key of the wallet. -/
  pays : ∃ ch, t.outputs.Perm (dest ++ ch) ∧ ch.length ≤ 1 ∧ ∀ o ∈ ch,
    1 ≤ o.value.toNat ∧ ∃ k ∈ w'.keys, o.commitment = p2pkCommitment c k
  /-- Value is conserved. -/
  balanced : value t.inputs = total (t.outputs.map (·.value))
  /-- No key is lost. -/
  keys : ∀ k ∈ w.keys, k ∈ w'.keys
  inv : Inv c w'

/-- Every output the wallet holds is worth something and can be signed for. -/
def Good (c : Crypto) (w : Wallet) : Prop :=
  ∀ i ∈ held c w, 1 ≤ i.prevoutData.value.toNat ∧
    spendable c w i.prevoutData.commitment = true

/-- The signatures made with the wallet's keys are valid. -/
def Signs (c : Crypto) (sg : Signer) (w : Wallet) : Prop :=
  ∀ k ∈ w.keys, ∀ id, c.parse k.val = true ∧ c.verify k.val id.val (sg k id).val = true

/-! ### Accumulating inputs -/

theorem accumulate_mod {c : Crypto} {w : Wallet} (inv : Inv c w)
    (amount : UInt64) :
    (accumulate c w amount = (none, w) ∧
      value (held c w) % 2 ^ 64 < amount.toNat) ∨
    ∃ ins tot w', accumulate c w amount = (some (ins, tot), w') ∧
      (ins ++ held c w').Perm (held c w) ∧ tot.toNat = value ins % 2 ^ 64 ∧
      amount ≤ tot ∧ Inv c w' ∧ w'.keys = w.keys := by
  have hval : value (held c w) =
      seedsLeft w * w.seedValue.toUInt64.toNat + value w.utxos := by
    unfold held
    rw [value_append]
    unfold seeds
    rw [value_seeds, List.length_range]
  obtain ⟨k, hk, hs1, hs2, hs3⟩ := takeSeeds_spec c w amount (seedsLeft w)
    w.seedFrom 0
  have hq := value_perm inv.perm
  obtain ⟨j, hj, hq1, hq2, hq3⟩ := takeQueue_spec amount w.queue
    (takeSeeds c w amount (seedsLeft w) w.seedFrom 0).2
  have hlen : (takeSeeds c w amount (seedsLeft w) w.seedFrom 0).1.length = k := by
    rw [hs1]; simp
  have htake : (seeds c w).take k =
      (takeSeeds c w amount (seedsLeft w) w.seedFrom 0).1 := by
    rw [hs1, seeds_take c w k hk]
  simp only [accumulate, hlen]
  split
  · next hlt =>
    left
    constructor
    · have : w.seedFrom + UInt64.ofNat k - UInt64.ofNat k = w.seedFrom := by
        rw [← UInt64.toNat_inj]
        simp only [UInt64.toNat_sub, UInt64.toNat_add]
        have h2 := w.seedFrom.toNat_lt
        have h3 := (UInt64.ofNat k).toNat_lt
        omega
      simp only [this]
    · have hj := hq3 hlt
      have hk : k = seedsLeft w := by
        by_cases hx : (takeSeeds c w amount (seedsLeft w) w.seedFrom 0).2 < amount
        · exact hs3 hx
        · exfalso
          have : takeQueue amount w.queue
              (takeSeeds c w amount (seedsLeft w) w.seedFrom 0).2 =
              ([], (takeSeeds c w amount (seedsLeft w) w.seedFrom 0).2) := by
            cases w.queue with
            | nil => rfl
            | cons i l => simp only [takeQueue, if_neg hx]
          rw [this] at hlt
          exact hx hlt
      rw [UInt64.lt_iff_toNat_lt, hq2, hs2, hj, List.take_length, hk,
        UInt64.toNat_zero] at hlt
      omega
  · next hge =>
    right
    have hnd : (w.utxos.map (·.prevout)).Nodup := by
      have := inv.nodup
      unfold held at this
      rw [List.map_append, List.nodup_append] at this
      exact this.2.1
    obtain ⟨h1, h2, h3, h4⟩ := dropFront_spec j
      { w with seedFrom := w.seedFrom + UInt64.ofNat k } hj inv.perm hnd
      inv.balance
    have hqlen : (takeQueue amount w.queue
        (takeSeeds c w amount (seedsLeft w) w.seedFrom 0).2).1.length = j := by
      rw [hq1, List.length_take, Nat.min_eq_left hj]
    generalize hw' : dropFront j
      { w with seedFrom := w.seedFrom + UInt64.ofNat k } = w' at *
    have hseeds : seeds c w' = (seeds c w).drop k := by
      rw [← seedsFrom_drop c w k hk, h4]
      rfl
    have hperm : ((takeSeeds c w amount (seedsLeft w) w.seedFrom 0).1 ++
        w.queue.take j ++ held c w').Perm (held c w) := by
      unfold held
      rw [hseeds, ← htake]
      have e1 : ((seeds c w).take k ++ w.queue.take j ++
          ((seeds c w).drop k ++ w'.utxos)).Perm
          ((seeds c w).take k ++ ((seeds c w).drop k ++
            (w.queue.take j ++ w'.utxos))) := by
        rw [List.append_assoc]
        apply List.Perm.append_left
        rw [← List.append_assoc, ← List.append_assoc]
        exact List.Perm.append_right _ List.perm_append_comm
      refine e1.trans ?_
      rw [← List.append_assoc, List.take_append_drop]
      exact List.Perm.append_left _ h1
    refine ⟨_, _, w', by rw [hqlen, hw'], ?_, ?_, ?_, ?_, ?_⟩
    · rw [hq1]; exact hperm
    · rw [hq2, hs2, hq1, value_append, hs1]
      have := value_seeds c w (List.range k)
      rw [this, List.length_range, UInt64.toNat_zero]
      omega
    · exact UInt64.not_lt.mp hge
    · refine ⟨h2, ?_, h3⟩
      have := (hperm.map (·.prevout)).nodup_iff.mpr inv.nodup
      rw [List.map_append, List.nodup_append] at this
      exact this.2.1
    · rw [h4]

theorem accumulate_spec {c : Crypto} {w : Wallet} (inv : Inv c w)
    (fits : value (held c w) < 2 ^ 64) (amount : UInt64) :
    (accumulate c w amount = (none, w) ∧ value (held c w) < amount.toNat) ∨
    ∃ ins tot w', accumulate c w amount = (some (ins, tot), w') ∧
      (ins ++ held c w').Perm (held c w) ∧ tot.toNat = value ins ∧
      amount ≤ tot ∧ Inv c w' ∧ w'.keys = w.keys := by
  rcases accumulate_mod inv amount with ⟨h1, h2⟩ |
    ⟨ins, tot, w', h1, h2, h3, h4⟩
  · exact .inl ⟨h1, by omega⟩
  · refine .inr ⟨ins, tot, w', h1, h2, ?_, h4⟩
    have := value_perm h2
    rw [value_append] at this
    omega

/-! ### C29 -/

theorem held_keys (c : Crypto) (w : Wallet) (l : List PubKey) :
    held c { w with keys := l } = held c w := rfl

theorem Inv.keys {c : Crypto} {w : Wallet} (inv : Inv c w) (l : List PubKey) :
    Inv c { w with keys := l } := ⟨inv.perm, inv.nodup, inv.balance⟩

theorem generateKey_spec (w : Wallet) (d : Draw) :
    ∃ l, (generateKey w d).2 = { w with keys := l } ∧
      (generateKey w d).1 ∈ l ∧ ∀ k ∈ w.keys, k ∈ l := by
  unfold generateKey
  split
  · next hlen =>
    refine ⟨w.keys, rfl, ?_, fun k hk => hk⟩
    have : d.2 % w.keys.length < w.keys.length := Nat.mod_lt _ (by omega)
    simp only [List.getElem?_eq_getElem this, Option.getD_some]
    exact List.getElem_mem _
  · exact ⟨_, rfl, by simp, fun k hk => by simp [hk]⟩

theorem change_spec (c : Crypto) (w : Wallet) (tot amount : UInt64) (d : Draw)
    (h : amount ≤ tot) :
    ∃ l ch, change c w tot amount d = (ch, { w with keys := l }) ∧
      (∀ k ∈ w.keys, k ∈ l) ∧ ch.length ≤ 1 ∧
      (∀ o ∈ ch, 1 ≤ o.value.toNat ∧
        ∃ k ∈ l, o.commitment = p2pkCommitment c k) ∧
      amount.toNat + total (ch.map (·.value)) = tot.toNat := by
  unfold change
  rw [UInt64.le_iff_toNat_le] at h
  split
  · next hlt =>
    obtain ⟨l, h1, h2, h3⟩ := generateKey_spec w d
    have hsub : (tot - amount).toNat = tot.toNat - amount.toNat :=
      UInt64.toNat_sub_of_le _ _ (UInt64.le_iff_toNat_le.mpr h)
    rw [UInt64.lt_iff_toNat_lt] at hlt
    refine ⟨l, _, by simp only [h1]; rfl, h3, by simp, ?_, ?_⟩
    · intro o ho
      simp only [List.mem_singleton] at ho
      subst ho
      exact ⟨by simp only; omega, _, h2, rfl⟩
    · simp [total, hsub]; omega
  · next hge =>
    rw [UInt64.lt_iff_toNat_lt] at hge
    exact ⟨w.keys, [], rfl, fun k hk => hk, by simp, by simp, by
      simp [total]; omega⟩

theorem signIf_same (c : Crypto) (sg : Signer) (w : Wallet) (b : Bool)
    (t : FullTx) :
    (signIf c sg w b t).inputs = t.inputs ∧
      (signIf c sg w b t).outputs = t.outputs := by
  unfold signIf sign
  split <;> exact ⟨rfl, rfl⟩

theorem total_replicate (n : Nat) (o : Output) :
    total ((List.replicate n o).map (·.value)) = n * o.value.toNat := by
  simp [total]

/-- **C29:** if the wallet cannot afford a payment, there is no transaction and
the wallet is unchanged. -/
theorem C29_refused {c : Crypto} {sg : Signer} {w : Wallet} (inv : Inv c w)
    (amount : UInt32) (payee : PubKey) (d : Draw) (b : Bool)
    (h : value (held c w) < amount.toNat) :
    sendTo c sg w amount payee d b = (none, w) := by
  have hlt := amount.toNat_lt
  rcases accumulate_spec inv (by omega) amount.toUInt64 with ⟨h1, _⟩ |
    ⟨ins, tot, w', _, hp, h2, h3, _⟩
  · simp only [sendTo, h1]
  · exfalso
    have := value_perm hp
    rw [value_append] at this
    rw [UInt64.le_iff_toNat_le] at h3
    simp at h3
    omega

/-- **C29:** if it can, the transaction pays exactly the amount to the payee. -/
theorem C29_pays {c : Crypto} {sg : Signer} {w : Wallet} (inv : Inv c w)
    (amount : UInt32) (payee : PubKey) (d : Draw) (b : Bool)
    (h : amount.toNat ≤ value (held c w))
    (fits : value (held c w) < 2 ^ 64) :
    ∃ t w', sendTo c sg w amount payee d b = (some t, w') ∧
      Payment c w w' t [⟨p2pkCommitment c payee, amount.toUInt64⟩] := by
  rcases accumulate_spec inv fits amount.toUInt64 with ⟨_, h1⟩ |
    ⟨ins, tot, w1, ha, hp, ht, hle, hi, hk⟩
  · simp at h1; omega
  obtain ⟨l, ch, hc, hl, hn, ho, hv⟩ :=
    change_spec c w1 tot amount.toUInt64 d hle
  refine ⟨_, _, by simp only [sendTo, ha, hc]; rfl, ?_⟩
  obtain ⟨e1, e2⟩ := signIf_same c sg { w1 with keys := l } b
    { inputs := ins
      outputs := ⟨p2pkCommitment c payee, amount.toUInt64⟩ :: ch
      witness := ins.map fun _ => blank }
  constructor
  · rw [e1]; exact hp
  · rw [e1]
    have := (hp.map (·.prevout)).nodup_iff.mpr inv.nodup
    rw [List.map_append, List.nodup_append] at this
    exact this.1
  · exact ⟨ch, by rw [e2]; rfl, hn, ho⟩
  · rw [e1, e2, ← ht, ← hv]
    simp [total]
  · intro k hk'
    exact hl k (hk ▸ hk')
  · exact hi.keys l

/-- **C29:** the same for a payment of several equal outputs, when their total
fits `uint64_t`. -/
theorem C29_fan {c : Crypto} {sg : Signer} {w : Wallet} (inv : Inv c w)
    (count : UInt64) (v : UInt32) (payee : PubKey) (d : Draw) (b : Bool)
    (hm : count.toNat * v.toNat < 2 ^ 64) (fits : value (held c w) < 2 ^ 64) :
    (value (held c w) < count.toNat * v.toNat ∧
      fan c sg w count v payee d b = (none, w)) ∨
    (count.toNat * v.toNat ≤ value (held c w) ∧
      ∃ t w', fan c sg w count v payee d b = (some t, w') ∧
      Payment c w w' t
        (List.replicate count.toNat ⟨p2pkCommitment c payee, v.toUInt64⟩)) := by
  have hmul : (count * v.toUInt64).toNat = count.toNat * v.toNat := by
    rw [UInt64.toNat_mul]
    simp only [UInt32.toNat_toUInt64]
    exact Nat.mod_eq_of_lt hm
  rcases accumulate_spec inv fits (count * v.toUInt64) with ⟨ha, h1⟩ |
    ⟨ins, tot, w1, ha, hp, ht, hle, hi, hk⟩
  · left
    exact ⟨by omega, by simp only [fan, ha]⟩
  right
  obtain ⟨l, ch, hc, hl, hn, ho, hv⟩ := change_spec c w1 tot _ d hle
  refine ⟨?_, _, _, by simp only [fan, ha, hc]; rfl, ?_⟩
  · have := value_perm hp
    rw [value_append] at this
    omega
  obtain ⟨e1, e2⟩ := signIf_same c sg { w1 with keys := l } b
    { inputs := ins
      outputs := ch ++ List.replicate count.toNat
        ⟨p2pkCommitment c payee, v.toUInt64⟩
      witness := ins.map fun _ => blank }
  constructor
  · rw [e1]; exact hp
  · rw [e1]
    have := (hp.map (·.prevout)).nodup_iff.mpr inv.nodup
    rw [List.map_append, List.nodup_append] at this
    exact this.1
  · exact ⟨ch, by rw [e2]; exact List.perm_append_comm, hn, ho⟩
  · rw [e1, e2, ← ht, ← hv, hmul]
    simp [total]
    omega
  · intro k hk'
    exact hl k (hk ▸ hk')
  · exact hi.keys l

theorem Payment.accepted {c : Crypto} {sg : Signer} {w w' : Wallet}
    {t u : FullTx} {dest : List Output} (pay : Payment c w w' t dest)
    (good : Good c w) (signs : Signs c sg w') (fits : value (held c w) < 2 ^ 64)
    (hd : dest ≠ []) (hpos : ∀ o ∈ dest, 1 ≤ o.value.toNat)
    (hu : t = sign c sg w' u) : checkTx c t = .pass := by
  rw [C08_accepts_iff]
  obtain ⟨ch, hch, hn, ho⟩ := pay.pays
  have hul : u.inputs = t.inputs := by rw [hu]; rfl
  have hsub : ∀ i ∈ t.inputs, i ∈ held c w := fun i hi =>
    pay.spends.subset (List.mem_append_left _ hi)
  have hval : value t.inputs ≤ value (held c w) := by
    have := value_perm pay.spends
    rw [value_append] at this
    omega
  have hout : ∀ o ∈ t.outputs, 1 ≤ o.value.toNat := by
    intro o ho'
    rcases List.mem_append.mp (hch.subset ho') with hx | hx
    · exact hpos o hx
    · exact (ho o hx).1
  have hne : t.outputs ≠ [] := by
    intro hnil
    rw [hnil] at hch
    have := hch.length_eq
    simp at this
    exact hd (List.length_eq_zero_iff.mp (by omega))
  have hid : txId c t = txId c u := by rw [hu]; rfl
  constructor
  · intro hnil
    have hb := pay.balanced
    rw [hnil] at hb
    cases hx : t.outputs with
    | nil => exact hne hx
    | cons o l =>
      have := hout o (by simp [hx])
      rw [hx] at hb
      simp [value_nil, total] at hb
      omega
  · exact hne
  · rw [hu]; simp [sign]
  · exact pay.once
  · exact fun i hi => (good i (hsub i hi)).1
  · exact hout
  · show value t.inputs < _
    omega
  · exact pay.balanced
  · intro n i wit hi hw
    have hs := (good i (hsub i (List.mem_of_getElem? hi))).2
    rw [hid]
    have hw2 : wit = signInput c sg w' (txId c u) i
        ((u.witness[n]?).getD []) := by
      rw [hu] at hw
      simp only [sign, List.getElem?_mapIdx] at hw
      rw [hul, hi] at hw
      simpa using hw.symm
    unfold spendable at hs
    rw [List.any_eq_true] at hs
    obtain ⟨k, hk, hkc⟩ := hs
    have hfind : ∃ k', (w'.keys.find? fun k =>
        p2pkCommitment c k = i.prevoutData.commitment) = some k' := by
      rw [← Option.isSome_iff_exists, List.find?_isSome]
      exact ⟨k, pay.keys k hk, hkc⟩
    obtain ⟨k', hf⟩ := hfind
    have hc := List.find?_some hf
    simp only [decide_eq_true_eq] at hc
    have hv := signs k' (List.mem_of_find?_eq_some hf) (txId c u)
    refine ⟨k', sg k' (txId c u), ?_, hc, hv.1, hv.2⟩
    rw [hw2]
    unfold signInput
    rw [hf]

/-- **C29:** a signed payment passes validation, if the wallet's outputs are
worth something and are its own. -/
theorem C29_accepted {c : Crypto} {sg : Signer} {w w' : Wallet} (inv : Inv c w)
    (good : Good c w) (signs : Signs c sg w') {amount : UInt32} {payee : PubKey}
    {d : Draw} {t : FullTx} (hpos : 0 < amount.toNat)
    (fits : value (held c w) < 2 ^ 64)
    (h : sendTo c sg w amount payee d true = (some t, w')) :
    checkTx c t = .pass := by
  have haff : amount.toNat ≤ value (held c w) := by
    apply Nat.le_of_not_lt
    intro hlt
    rw [C29_refused inv amount payee d true hlt] at h
    cases h
  obtain ⟨t', w'', h', pay⟩ := C29_pays (sg := sg) inv amount payee d true haff
    fits
  rw [h] at h'
  obtain ⟨rfl, rfl⟩ : t = t' ∧ w' = w'' := by simpa using h'
  have hs : ∃ u, t = sign c sg w' u := by
    unfold sendTo at h
    split at h
    · cases h
    · simp only [Prod.mk.injEq, Option.some.injEq] at h
      obtain ⟨h1, h2⟩ := h
      rw [h2] at h1
      exact ⟨_, h1.symm⟩
  obtain ⟨u, hu⟩ := hs
  exact pay.accepted good signs fits (by simp) (by simp; omega) hu

/-- The same for a payment of several equal outputs. -/
theorem C29_fan_accepted {c : Crypto} {sg : Signer} {w w' : Wallet}
    (inv : Inv c w) (good : Good c w) (signs : Signs c sg w') {count : UInt64}
    {v : UInt32} {payee : PubKey} {d : Draw} {t : FullTx}
    (hc : 0 < count.toNat) (hv : 0 < v.toNat)
    (hm : count.toNat * v.toNat < 2 ^ 64) (fits : value (held c w) < 2 ^ 64)
    (h : fan c sg w count v payee d true = (some t, w')) :
    checkTx c t = .pass := by
  rcases C29_fan (sg := sg) inv count v payee d true hm fits with ⟨_, hx⟩ |
    ⟨_, t', w'', h', pay⟩
  · rw [hx] at h; cases h
  rw [h] at h'
  obtain ⟨rfl, rfl⟩ : t = t' ∧ w' = w'' := by simpa using h'
  have hs : ∃ u, t = sign c sg w' u := by
    unfold fan at h
    simp only at h
    split at h
    · cases h
    · simp only [Prod.mk.injEq, Option.some.injEq] at h
      obtain ⟨h1, h2⟩ := h
      rw [h2] at h1
      exact ⟨_, h1.symm⟩
  obtain ⟨u, hu⟩ := hs
  refine pay.accepted good signs fits ?_ ?_ hu
  · intro hnil
    have := congrArg List.length hnil
    simp at this
    rw [this] at hc
    simp at hc
  · intro o ho
    obtain ⟨_, rfl⟩ := List.mem_replicate.mp ho
    simp
    omega

/-! ### Payments with given numbers of inputs and outputs -/

theorem sum64_aux (l : List Input) (t : UInt64) :
    (l.foldl (fun t i => t + i.prevoutData.value) t).toNat =
      (t.toNat + value l) % 2 ^ 64 := by
  induction l generalizing t with
  | nil =>
    have := t.toNat_lt
    simp [value_nil]
  | cons i l ih =>
    rw [List.foldl_cons, ih, value_cons, UInt64.toNat_add]
    omega

theorem sum64_spec (l : List Input) : (sum64 l).toNat = value l % 2 ^ 64 := by
  unfold sum64
  rw [sum64_aux, UInt64.toNat_zero, Nat.zero_add]

theorem value_sublist {l m : List Input} (h : l.Sublist m) :
    value l ≤ value m := by
  induction h with
  | slnil => exact Nat.le_refl _
  | cons i h ih => rw [value_cons]; omega
  | cons_cons i h ih => rw [value_cons, value_cons]; omega

theorem split_spec (c : Crypto) (payee : PubKey) (v : UInt64) (n : Nat)
    (tot : UInt64) (h : n * v.toNat ≤ tot.toNat) (hn : 0 < n) :
    (split c payee v n tot).length = n ∧
    (∀ o ∈ split c payee v n tot, o.commitment = p2pkCommitment c payee ∧
      v.toNat ≤ o.value.toNat) ∧
    total ((split c payee v n tot).map (·.value)) = tot.toNat := by
  induction n generalizing tot with
  | zero => omega
  | succ n ih =>
    cases n with
    | zero =>
      have hs : split c payee v (0 + 1) tot = [⟨p2pkCommitment c payee, tot⟩] :=
        rfl
      rw [hs]
      refine ⟨rfl, ?_, by simp [total]⟩
      simp
      omega
    | succ n =>
      simp only [split]
      rw [Nat.succ_mul] at h
      have hsub : (tot - v).toNat = tot.toNat - v.toNat :=
        UInt64.toNat_sub_of_le _ _ (UInt64.le_iff_toNat_le.mpr (by omega))
      obtain ⟨h1, h2, h3⟩ := ih (tot - v) (by rw [hsub]; omega) (by omega)
      refine ⟨by simp [h1], ?_, ?_⟩
      · intro o ho
        rcases List.mem_cons.mp ho with rfl | ho
        · exact ⟨rfl, Nat.le_refl _⟩
        · exact h2 o ho
      · simp only [total, List.map_cons, List.sum_cons] at h3 ⊢
        rw [h3, hsub]
        omega

theorem counts_mod {c : Crypto} {sg : Signer} {w : Wallet} (inv : Inv c w)
    (nin nout : UInt64) (payee : PubKey) (b : Bool)
    (hlen : w.utxos.length + seedsLeft w < 2 ^ 64) :
    (sendCounts c sg w nin nout payee b = (none, w) ∧
      ((held c w).length < nin.toNat ∨ ∃ ins, ins.Sublist
        (seeds c w ++ w.queue) ∧ ins.length = nin.toNat ∧
        value ins % 2 ^ 64 < nout.toNat)) ∨
    ∃ t w', sendCounts c sg w nin nout payee b = (some t, w') ∧
      (t.inputs ++ held c w').Perm (held c w) ∧ Inv c w' ∧ w'.keys = w.keys ∧
      t.inputs.length = nin.toNat ∧
      t.outputs = split c payee (sum64 t.inputs / nout) nout.toNat
        (sum64 t.inputs) := by
  have hl : (UInt64.ofNat w.utxos.length + w.seedTo - w.seedFrom).toNat =
      w.utxos.length + seedsLeft w := by
    unfold seedsLeft at hlen ⊢
    rw [UInt64.toNat_sub, UInt64.toNat_add]
    rw [UInt64.toNat_sub] at hlen ⊢
    have h1 : (UInt64.ofNat w.utxos.length).toNat = w.utxos.length := by
      simp [UInt64.toNat_ofNat']; omega
    rw [h1]
    have h2 := w.seedTo.toNat_lt
    have h3 := w.seedFrom.toNat_lt
    omega
  have hheld : (held c w).length = w.utxos.length + seedsLeft w := by
    simp [held, seeds]; omega
  unfold sendCounts
  split
  · next hlt =>
    rw [UInt64.lt_iff_toNat_lt, hl] at hlt
    exact .inl ⟨rfl, .inl (by omega)⟩
  next hge =>
  rw [UInt64.lt_iff_toNat_lt, hl] at hge
  generalize hk : min (seedsLeft w) nin.toNat = k
  have hk1 : k ≤ seedsLeft w := by omega
  have hql : w.queue.length = w.utxos.length := inv.perm.length_eq
  simp only
  rw [← seeds_take c w k hk1]
  have hlen1 : ((seeds c w).take k).length = k := by
    simp [seeds]; omega
  have hilen : ((seeds c w).take k ++ w.queue.take (nin.toNat - k)).length =
      nin.toNat := by
    rw [List.length_append, hlen1, List.length_take]; omega
  split
  · next hz =>
    refine .inl ⟨rfl, .inr ⟨_, ?_, hilen, ?_⟩⟩
    · exact (List.take_sublist ..).append (List.take_sublist ..)
    · rw [← sum64_spec]
      obtain ⟨h1, h2⟩ := hz
      rw [← UInt64.toNat_inj, UInt64.toNat_div, UInt64.toNat_zero,
        Nat.div_eq_zero_iff] at h1
      rw [UInt64.lt_iff_toNat_lt] at h2
      rcases h1 with h1 | h1
      · rw [h1] at h2; simp at h2
      · exact h1
  · right
    have hnd : (w.utxos.map (·.prevout)).Nodup := by
      have := inv.nodup
      unfold held at this
      rw [List.map_append, List.nodup_append] at this
      exact this.2.1
    have hj : ((seeds c w).take k ++
        w.queue.take (nin.toNat - k)).length - k = nin.toNat - k := by
      rw [hilen]
    rw [hj]
    obtain ⟨h1, h2, h3, h4⟩ := dropFront_spec (nin.toNat - k)
      { w with seedFrom := w.seedFrom + UInt64.ofNat k } (by
        simp only; omega) inv.perm hnd inv.balance
    generalize hw' : dropFront (nin.toNat - k)
      { w with seedFrom := w.seedFrom + UInt64.ofNat k } = w' at *
    have hseeds : seeds c w' = (seeds c w).drop k := by
      rw [← seedsFrom_drop c w k hk1, h4]
      rfl
    have hperm : ((seeds c w).take k ++ w.queue.take (nin.toNat - k) ++
        held c w').Perm (held c w) := by
      unfold held
      rw [hseeds]
      have e1 : ((seeds c w).take k ++ w.queue.take (nin.toNat - k) ++
          ((seeds c w).drop k ++ w'.utxos)).Perm
          ((seeds c w).take k ++ ((seeds c w).drop k ++
            (w.queue.take (nin.toNat - k) ++ w'.utxos))) := by
        rw [List.append_assoc]
        apply List.Perm.append_left
        rw [← List.append_assoc, ← List.append_assoc]
        exact List.Perm.append_right _ List.perm_append_comm
      refine e1.trans ?_
      rw [← List.append_assoc, List.take_append_drop]
      exact List.Perm.append_left _ h1
    obtain ⟨e1, e2⟩ := signIf_same c sg w' b
      { inputs := (seeds c w).take k ++ w.queue.take (nin.toNat - k)
        outputs := split c payee (sum64 ((seeds c w).take k ++
          w.queue.take (nin.toNat - k)) / nout) nout.toNat
          (sum64 ((seeds c w).take k ++ w.queue.take (nin.toNat - k)))
        witness := ((seeds c w).take k).map fun _ => blank }
    refine ⟨_, w', rfl, ?_, ⟨h2, ?_, h3⟩, ?_, ?_, ?_⟩
    · rw [e1]; exact hperm
    · have := (hperm.map (·.prevout)).nodup_iff.mpr inv.nodup
      rw [List.map_append, List.nodup_append] at this
      exact this.2.1
    · rw [h4]
    · rw [e1]; exact hilen
    · rw [e2, e1]

/-- **C29:** a payment made of given numbers of inputs and outputs spends and
makes exactly so many, all of them to the payee; it is refused, without a change
of the wallet, only if the wallet holds fewer outputs or their value is not
enough for the outputs. -/
theorem C29_counts {c : Crypto} {sg : Signer} {w : Wallet} (inv : Inv c w)
    (nin nout : UInt64) (payee : PubKey) (b : Bool) (hout : 0 < nout.toNat)
    (hlen : w.utxos.length + seedsLeft w < 2 ^ 64)
    (fits : value (held c w) < 2 ^ 64) :
    (sendCounts c sg w nin nout payee b = (none, w) ∧
      ((held c w).length < nin.toNat ∨ ∃ ins, ins.Sublist
        (seeds c w ++ w.queue) ∧ ins.length = nin.toNat ∧
        value ins < nout.toNat)) ∨
    ∃ t w', sendCounts c sg w nin nout payee b = (some t, w') ∧
      t.inputs.length = nin.toNat ∧ t.outputs.length = nout.toNat ∧
      (∀ o ∈ t.outputs, o.commitment = p2pkCommitment c payee) ∧
      Payment c w w' t t.outputs := by
  rcases counts_mod (sg := sg) inv nin nout payee b hlen with ⟨h1, h2⟩ |
    ⟨t, w', h1, h2, h3, h4, h5, h6⟩
  · left
    refine ⟨h1, ?_⟩
    rcases h2 with h2 | ⟨ins, hs, hl, hv⟩
    · exact .inl h2
    · refine .inr ⟨ins, hs, hl, ?_⟩
      have hle : value ins ≤ value (seeds c w ++ w.queue) :=
        value_sublist hs
      have heq : value (seeds c w ++ w.queue) = value (held c w) :=
        value_perm (List.Perm.append_left _ inv.perm)
      omega
  · right
    have hv : value t.inputs ≤ value (held c w) := by
      have := value_perm h2
      rw [value_append] at this
      omega
    have hsum : (sum64 t.inputs).toNat = value t.inputs := by
      rw [sum64_spec]; omega
    obtain ⟨s1, s2, s3⟩ := split_spec c payee (sum64 t.inputs / nout) nout.toNat
      (sum64 t.inputs) (by
        rw [UInt64.toNat_div]; exact Nat.mul_div_le _ _) hout
    rw [← h6] at s1 s2 s3
    refine ⟨t, w', h1, h5, s1, fun o ho => (s2 o ho).1, ?_⟩
    constructor
    · exact h2
    · have := (h2.map (·.prevout)).nodup_iff.mpr inv.nodup
      rw [List.map_append, List.nodup_append] at this
      exact this.1
    · exact ⟨[], by simp, by simp, by simp⟩
    · rw [s3, hsum]
    · intro k hk; rw [h4]; exact hk
    · exact h3

end Verif.Wallet
