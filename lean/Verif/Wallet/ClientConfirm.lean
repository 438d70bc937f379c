import Verif.Wallet.ClientProps
/-!
# Abandoned and confirmed payments of the client (C31): the properties
-/
namespace Verif.Wallet

open Verif.Serial Verif.Tx

/-! ### Confirming -/

theorem unregister_spec {c : Crypto} {m : List (Hash × Input)} {l : List Input}
    (hk : ∀ e ∈ m, e.1 = e.2.hash c)
    (hc : NoClash c (m.map (·.2) ++ l)) :
    unregister c m l = m.filter fun e => decide (e.2 ∉ l) := by
  induction l generalizing m with
  | nil =>
    show m = _
    rw [eq_comm, List.filter_eq_self]
    intro e _
    simp
  | cons i l ih =>
    have hd : del m (i.hash c) = m.filter fun e => decide (e.2 ≠ i) := by
      unfold del
      apply List.filter_congr
      intro e he
      have : e.1 ≠ i.hash c ↔ e.2 ≠ i := by
        rw [hk e he]
        constructor
        · intro h he; exact h (by rw [he])
        · intro h hh
          exact h (hc e.2 (List.mem_append_left _ (List.mem_map_of_mem he)) i
            (by simp) hh)
      simp only [this]
    show unregister c (del m (i.hash c)) l = _
    rw [hd, ih]
    · rw [List.filter_filter]
      apply List.filter_congr
      intro e _
      simp only [List.mem_cons, not_or, ne_eq]
      by_cases h1 : e.2 = i <;> by_cases h2 : e.2 ∈ l <;> simp [h1, h2]
    · exact fun e he => hk e (List.mem_filter.mp he).1
    · apply hc.subset
      intro x hx
      simp only [List.mem_append, List.mem_map, List.mem_filter,
        List.mem_cons] at hx ⊢
      rcases hx with ⟨e, ⟨he, _⟩, rfl⟩ | h
      · exact .inl ⟨e, he, rfl⟩
      · exact .inr (.inr h)

theorem newUtxos_nodup {c : Crypto} {w : Wallet} {t : FullTx}
    (h : t.outputs.length < 2 ^ 64) :
    ((newUtxos c w t).map (·.prevout)).Nodup := by
  unfold newUtxos
  unfold List.Nodup
  rw [List.pairwise_map, List.pairwise_filterMap]
  have hr : (List.range t.outputs.length).Pairwise
      (fun a b => a < t.outputs.length ∧ b < t.outputs.length ∧ a ≠ b) := by
    rw [List.pairwise_iff_getElem]
    intro i j hi hj hij
    simp only [List.length_range] at hi hj
    simp only [List.getElem_range]
    omega
  refine hr.imp ?_
  intro a b ⟨ha, hb, hab⟩ x hx y hy he
  unfold inputFromOutputId at hx hy
  rw [List.getElem?_eq_getElem ha] at hx
  rw [List.getElem?_eq_getElem hb] at hy
  simp only at hx hy
  split at hx
  · split at hy
    · simp only [Option.some.injEq] at hx hy
      rw [← hx, ← hy] at he
      simp only [OutPoint.mk.injEq, true_and] at he
      have := congrArg UInt64.toNat he
      simp only [UInt64.toNat_ofNat'] at this
      omega
    · cases hy
  · cases hx

theorem credit_all {w : Wallet} {l : List Input}
    (hn : (l.map (·.prevout)).Nodup)
    (hd : ∀ i ∈ l, i.prevout ∉ w.utxos.map (·.prevout)) :
    (credit w l).utxos = w.utxos ++ l := by
  induction l generalizing w with
  | nil => simp [credit]
  | cons i l ih =>
    simp only [credit]
    have hi : has w.utxos i = false := by
      rw [Bool.eq_false_iff, ne_eq, has_iff]
      exact hd i (List.mem_cons_self ..)
    rw [List.map_cons, List.nodup_cons] at hn
    rw [if_neg (by rw [hi]; simp), ih hn.2]
    · simp
    · intro x hx hm
      simp only [List.map_append, List.map_cons, List.map_nil, List.mem_append,
        List.mem_singleton] at hm
      rcases hm with hm | hm
      · exact hd x (List.mem_cons_of_mem _ hx) hm
      · exact hn.1 (hm ▸ List.mem_map_of_mem hx)

theorem Sane.pending {c : Crypto} {cl : Client} (s : Sane c cl) {t : FullTx}
    {id : Hash} (ok : Confirmable c cl t) (hl : cl.txs.lookup id = some t) :
    (confirmPending c cl id).1 = true ∧
    Sane c (confirmPending c cl id).2 ∧
    held c (confirmPending c cl id).2.wallet =
      held c cl.wallet ++ newUtxos c cl.wallet t ∧
    aside (confirmPending c cl id).2 =
      (aside cl).filter (fun i => decide (i ∉ t.inputs)) ∧
    (confirmPending c cl id).2.txs = del cl.txs id ∧
    (confirmPending c cl id).2.inputs = cl.inputs ∧
    (confirmPending c cl id).2.wallet.keys = cl.wallet.keys := by
  have hnew : ∀ i ∈ newUtxos c cl.wallet t, ∀ x ∈ owned c cl,
      x.prevout ≠ i.prevout := by
    intro i hi x hx he
    have := ok.fresh x hx
    rw [he, newUtxos_id hi] at this
    exact this rfl
  have hns : NoSeed c cl.wallet (newUtxos c cl.wallet t) := by
    intro i hi x hx he
    exact hnew i hi x (List.mem_append_left _ (List.mem_append_left _ hx)) he.symm
  obtain ⟨hi, heq⟩ := s.inv.confirm (t := t) ⟨ok.spent, hns⟩
  obtain ⟨_, hkeys, hseeds, _⟩ := credit_spec s.inv hns
  have hall := credit_all (newUtxos_nodup (c := c) (w := cl.wallet) ok.small)
    (w := cl.wallet) (by
      intro i hm h
      obtain ⟨x, hx, he⟩ := List.mem_map.mp h
      exact hnew i hm x (List.mem_append_left _ (List.mem_append_right _ hx)) he)
  have hheld : held c (confirmTx c cl.wallet t) =
      held c cl.wallet ++ newUtxos c cl.wallet t := by
    unfold held
    rw [heq, hseeds, hall, List.append_assoc]
  have hun := unregister_spec (c := c) (m := cl.spend) (l := t.inputs) s.keyed
    (ok.clash.subset fun x hx => by
      rw [List.mem_append] at hx ⊢
      rcases hx with h | h
      · exact .inl (List.mem_append_right _ h)
      · exact .inr h)
  have hsub : (unregister c cl.spend t.inputs).Sublist cl.spend := by
    rw [hun]; exact List.filter_sublist ..
  have haside : (unregister c cl.spend t.inputs).map (·.2) =
      (aside cl).filter (fun i => decide (i ∉ t.inputs)) := by
    rw [hun]
    unfold aside
    rw [List.filter_map]
    rfl
  unfold confirmPending
  simp only [hl]
  refine ⟨trivial, ?_, hheld, haside, trivial, trivial, by rw [heq, hkeys]⟩
  refine ⟨hi, ?_, fun e he => s.keyed e (hsub.subset he),
    s.keys.sublist (hsub.map _), del_nodup _ s.txs,
    fun e he => s.txKeyed e (List.mem_filter.mp he).1⟩
  show ((held c (confirmTx c cl.wallet t) ++
    (unregister c cl.spend t.inputs).map (·.2)).map _).Nodup
  rw [hheld]
  have hsub2 : (held c cl.wallet ++ newUtxos c cl.wallet t ++
      (unregister c cl.spend t.inputs).map (·.2)).Sublist
      (held c cl.wallet ++ newUtxos c cl.wallet t ++ aside cl) :=
    (List.Sublist.refl _).append (hsub.map _)
  refine List.Nodup.sublist (hsub2.map _) ?_
  have hp : (held c cl.wallet ++ newUtxos c cl.wallet t ++ aside cl).Perm
      (owned c cl ++ newUtxos c cl.wallet t) := by
    unfold owned
    rw [List.append_assoc, List.append_assoc]
    exact List.perm_append_comm.append_left _
  refine ((hp.map _).nodup_iff).mpr ?_
  rw [List.map_append, List.nodup_append]
  refine ⟨s.nodup, newUtxos_nodup ok.small, ?_⟩
  intro a ha b hb he
  obtain ⟨x, hx, rfl⟩ := List.mem_map.mp ha
  obtain ⟨y, hy, rfl⟩ := List.mem_map.mp hb
  exact hnew y hy x hx he

theorem confirmPending_none {c : Crypto} {cl : Client} {id : Hash}
    (h : cl.txs.lookup id = none) : confirmPending c cl id = (false, cl) := by
  unfold confirmPending; simp only [h]

theorem confirmInput_none {cl : Client} {id : Hash}
    (h : cl.inputs.lookup id = none) : confirmInput cl id = (false, cl) := by
  unfold confirmInput; simp only [h]

theorem confirmInput_some {cl : Client} {id : Hash} {i : Input}
    (h : cl.inputs.lookup id = some i) : confirmInput cl id =
      (true, { cl with
        wallet := confirmInputs cl.wallet [i]
        inputs := del cl.inputs id }) := by
  unfold confirmInput; simp only [h]

theorem confirm_eq (c : Crypto) (cl : Client) (id : Hash) :
    confirm c cl id = ((confirmPending c cl id).1 ||
      (confirmInput (confirmPending c cl id).2 id).1,
      (confirmInput (confirmPending c cl id).2 id).2) := rfl

theorem Sane.inputs {c : Crypto} {cl : Client} (s : Sane c cl)
    (m : List (Hash × Input)) : Sane c { cl with inputs := m } :=
  ⟨s.inv, s.nodup, s.keyed, s.keys, s.txs, s.txKeyed⟩

/-! ### The invariant of clients -/

theorem confirmInputs_again {w : Wallet} {i : Input}
    (h : has w.utxos i = true) : confirmInputs w [i] = w := by
  simp [confirmInputs, updateBalance, Wallet.credit, debit, h]

theorem Sane.received {c : Crypto} {cl : Client} (s : Sane c cl) {id : Hash}
    (ok : ∀ i, cl.inputs.lookup id = some i →
      has cl.wallet.utxos i = true ∨ ∀ x ∈ owned c cl, x.prevout ≠ i.prevout) :
    Sane c (confirmInput cl id).2 := by
  cases hl : cl.inputs.lookup id with
  | none => rw [confirmInput_none hl]; exact s
  | some i =>
    rw [confirmInput_some hl]
    rcases ok i hl with h | h
    · show Sane c { cl with
        wallet := confirmInputs cl.wallet [i]
        inputs := del cl.inputs id }
      rw [confirmInputs_again h]
      exact s.inputs _
    · exact (s.credit h).1.inputs _

theorem Sane.step {c : Crypto} {sg : Signer} {cl : Client} (s : Sane c cl)
    (op : ClientOp) (ok : Permitted c cl op) : Sane c (perform c sg cl op) := by
  cases op with
  | mint v ds =>
    have : Sane c { cl with wallet := (Wallet.mint c cl.wallet v ds).2 } := by
      have hm : ∀ (ds : List Draw) (w : Wallet),
          held c (Wallet.mint c w v ds).2 = held c w := by
        intro ds
        induction ds with
        | nil => intro w; rfl
        | cons d ds ih =>
          intro w
          obtain ⟨l, h1, _⟩ := generateKey_spec w d
          simp only [Wallet.mint]
          rw [h1, ih]
          exact held_keys c w l
      exact s.wallet (mint_spec s.inv v ds) (by rw [hm])
    exact this.importTx _
  | create amount payee d =>
    simp only [perform, Wallet.create]
    rcases sendTo_mod (sg := sg) s.inv amount payee d true with h |
      ⟨t, w, h, hp, hi⟩
    · rw [h]; exact s.wallet s.inv (.refl _)
    · obtain ⟨cl', h1, h2, _⟩ := s.made ok hi hp
      rw [h, h1]; exact h2
  | send amount payee d =>
    simp only [perform, Wallet.send, Wallet.create]
    rcases sendTo_mod (sg := sg) s.inv amount payee d true with h |
      ⟨t, w, h, hp, hi⟩
    · rw [h]; exact s.wallet s.inv (.refl _)
    · obtain ⟨cl', h1, h2, _⟩ := s.made ok hi hp
      rw [h, h1]; exact h2.importTx t
  | fan count v payee d =>
    simp only [perform, fanOut]
    rcases fan_mod (sg := sg) s.inv count.toUInt64 v payee d true with h |
      ⟨t, w, h, hp, hi⟩
    · rw [h]; exact s.wallet s.inv (.refl _)
    · obtain ⟨cl', h1, h2, _⟩ := s.made ok hi hp
      rw [h, h1]; exact h2.importTx t
  | importTx t => exact s.importTx t
  | importInput i =>
    simp only [perform, Wallet.importInput]
    split
    · exact s.inputs _
    · exact s
  | newAddress d =>
    obtain ⟨l, h1, _⟩ := generateKey_spec cl.wallet d
    simp only [perform, Wallet.newAddress, h1]
    exact s.wallet (s.inv.keys l) (by rw [held_keys])
  | abandon id =>
    simp only [perform, Wallet.abandon]
    cases hl : cl.txs.lookup id with
    | none => exact s
    | some t =>
      exact (giveBack_spec (cl := { cl with txs := del cl.txs id })
        ⟨s.inv, s.nodup, s.keyed, s.keys, del_nodup _ s.txs,
          fun e he => s.txKeyed e (List.mem_filter.mp he).1⟩ (ok t hl)).1
  | confirm id =>
    show Sane c (Wallet.confirm c cl id).2
    rw [confirm_eq]
    cases hl : cl.txs.lookup id with
    | none =>
      rw [confirmPending_none hl]
      exact s.received ok.2
    | some t =>
      obtain ⟨_, h2, h3, h4, h5, h6, h7⟩ := s.pending (ok.1 t hl) hl
      refine h2.received ?_
      rw [h6]
      intro i hi
      have hns : NoSeed c cl.wallet (newUtxos c cl.wallet t) := by
        intro i hi y hy he
        have := (ok.1 t hl).fresh y
          (List.mem_append_left _ (List.mem_append_left _ hy))
        rw [← he, newUtxos_id hi] at this
        exact this rfl
      have hw : (confirmPending c cl id).2.wallet =
          Wallet.credit cl.wallet (newUtxos c cl.wallet t) := by
        unfold confirmPending
        simp only [hl]
        exact (s.inv.confirm (t := t) ⟨(ok.1 t hl).spent, hns⟩).2
      obtain ⟨_, _, hs, hm⟩ := credit_spec s.inv hns
      by_cases hh : has (confirmPending c cl id).2.wallet.utxos i = true
      · exact .inl hh
      · right
        intro x hx he
        unfold owned at hx
        rw [h3, h4] at hx
        simp only [List.mem_append, List.mem_filter] at hx
        rw [hw, has_iff, hm, ← has_iff, not_or] at hh
        rcases ok.2 i hi with h | hno
        · exact hh.1 h
        rcases hx with (hx | hx) | hx
        · exact hno x (List.mem_append_left _ hx) he
        · exact hh.2 (he ▸ List.mem_map_of_mem hx)
        · exact hno x (List.mem_append_right _ hx.1) he
  | restart order =>
    simp only [perform, Wallet.restart]
    refine s.wallet (s.inv.step (sg := sg) (.load cl.wallet.keys order) ok) ?_
    exact List.Perm.append_left _ ok

theorem ClientHistory.sane {c : Crypto} {sg : Signer} {cl : Client}
    (h : ClientHistory c sg cl) : Sane c cl := by
  induction h with
  | start h =>
    exact ⟨h, by simpa [owned, aside] using h.nodup, by simp, by simp, by simp,
      by simp⟩
  | step h op ok ih => exact ih.step op ok

/-! ### C31 -/

/-- **C31.** Making a payment loses nothing: what is spent is set aside. -/
theorem C31_create {c : Crypto} {sg : Signer} {cl cl' : Client} {t : FullTx}
    (h : ClientHistory c sg cl) (hc : NoClash c (owned c cl)) {amount : UInt32}
    {payee : PubKey} {d : Draw}
    (hr : create c sg cl amount payee d = (some t, cl')) :
    (t.inputs ++ held c cl'.wallet).Perm (held c cl.wallet) ∧
    aside cl' = aside cl ++ t.inputs := by
  have s := h.sane
  unfold create at hr
  rcases sendTo_mod (sg := sg) s.inv amount payee d true with h1 |
    ⟨t', w, h1, hp, hi⟩
  · rw [h1] at hr; cases hr
  · obtain ⟨cl2, h2, _, h3, h4, _⟩ := s.made hc hi hp
    rw [h1, h2] at hr
    simp only [Prod.mk.injEq, Option.some.injEq] at hr
    obtain ⟨rfl, rfl⟩ := hr
    rw [h3]
    exact ⟨hp, h4⟩

/-- **C31.** A pending payment is abandoned: the wallet gets back exactly those of
its inputs that were set aside and that no other pending payment uses, each
once; the others stay set aside. -/
theorem C31_abandon {c : Crypto} {sg : Signer} {cl : Client} {t : FullTx}
    {id : Hash} (h : ClientHistory c sg cl) (hl : cl.txs.lookup id = some t)
    (hc : NoClash c (owned c cl ++ t.inputs)) :
    ∃ cl' r, abandon c cl id = (true, cl') ∧
      (∀ x, x ∈ r ↔ x ∈ t.inputs ∧ x ∈ aside cl ∧
        ∀ e ∈ cl.txs, e.1 ≠ id → x ∉ e.2.inputs) ∧
      r.Nodup ∧
      (held c cl'.wallet).Perm (held c cl.wallet ++ r) ∧
      (r ++ aside cl').Perm (aside cl) ∧
      (∀ e, e ∈ cl'.txs ↔ e ∈ cl.txs ∧ e.1 ≠ id) ∧ cl'.inputs = cl.inputs ∧
      Inv c cl'.wallet := by
  have s := h.sane
  obtain ⟨h1, h2, h3, r, h4, h5, h6⟩ := giveBack_spec
    (cl := { cl with txs := del cl.txs id })
    ⟨s.inv, s.nodup, s.keyed, s.keys, del_nodup _ s.txs,
      fun e he => s.txKeyed e (List.mem_filter.mp he).1⟩ hc
  refine ⟨_, r, by simp only [abandon, hl], fun x => ?_, ?_, h4, h5, ?_, h3,
    h1.inv⟩
  · rw [h6, Bool.eq_false_iff, ne_eq, checkPending_iff]
    show x ∈ t.inputs ∧ x ∈ aside cl ∧ _ ↔ _
    constructor
    · rintro ⟨a, b, d⟩
      refine ⟨a, b, fun e he hne hx => d ⟨e, ?_, hx⟩⟩
      unfold del
      rw [List.mem_filter]
      exact ⟨he, by simpa using hne⟩
    · rintro ⟨a, b, d⟩
      refine ⟨a, b, ?_⟩
      rintro ⟨e, he, hx⟩
      unfold del at he
      rw [List.mem_filter] at he
      exact d e he.1 (by simpa using he.2) hx
  · have := (h5.nodup_iff).mpr
      (List.nodup_append.mp (nodup_of_prevout s.nodup)).2.1
    exact (List.nodup_append.mp this).1
  · intro e
    rw [h2]
    unfold del
    rw [List.mem_filter]
    simp

/-- C31. To abandon something that is not pending changes nothing. -/
theorem C31_abandon_unknown {c : Crypto} {cl : Client} {id : Hash}
    (h : ∀ e ∈ cl.txs, e.1 ≠ id) : abandon c cl id = (false, cl) := by
  unfold abandon
  rw [lookup_not]
  intro hm
  obtain ⟨e, he, hk⟩ := List.mem_map.mp hm
  exact h e he hk

/-- C31. A pending payment is confirmed: the wallet gets exactly the outputs that
are its own, and the inputs are no longer set aside. -/
theorem C31_confirm {c : Crypto} {sg : Signer} {cl : Client} {t : FullTx}
    {id : Hash} (h : ClientHistory c sg cl) (hl : cl.txs.lookup id = some t)
    (hi : cl.inputs.lookup id = none) (ok : Confirmable c cl t) :
    ∃ cl' new, confirm c cl id = (true, cl') ∧
      (∀ x, x ∈ new ↔ ∃ n, inputFromOutput c t n = some x ∧
        ∃ k ∈ cl.wallet.keys, x.prevoutData.commitment = p2pkCommitment c k) ∧
      held c cl'.wallet = held c cl.wallet ++ new ∧
      aside cl' = (aside cl).filter (fun i => decide (i ∉ t.inputs)) ∧
      new.Nodup ∧ Inv c cl'.wallet := by
  obtain ⟨h1, h2, h3, h4, h5, h6, h7⟩ := h.sane.pending ok hl
  have he := confirm_eq c cl id
  rw [confirmInput_none (by rw [h6]; exact hi), h1] at he
  refine ⟨_, newUtxos c cl.wallet t, he, fun x => ?_, h3, h4,
    nodup_of_prevout (newUtxos_nodup ok.small), h2.inv⟩
  unfold newUtxos inputFromOutput
  rw [List.mem_filterMap]
  constructor
  · rintro ⟨n, hn, hx⟩
    cases ho : inputFromOutputId t n (txId c t) with
    | none => rw [ho] at hx; cases hx
    | some i =>
      rw [ho] at hx
      simp only at hx
      split at hx
      · next hsp =>
        simp only [Option.some.injEq] at hx
        subst hx
        refine ⟨n, ho, ?_⟩
        unfold spendable at hsp
        rw [List.any_eq_true] at hsp
        obtain ⟨k, hk, he⟩ := hsp
        exact ⟨k, hk, (of_decide_eq_true he).symm⟩
      · cases hx
  · rintro ⟨n, hn, k, hk, he⟩
    refine ⟨n, ?_, ?_⟩
    · rw [List.mem_range]
      unfold inputFromOutputId at hn
      cases ho : t.outputs[n]? with
      | none => rw [ho] at hn; cases hn
      | some _ => exact (List.getElem?_eq_some_iff.mp ho).1
    · rw [hn]
      simp only
      rw [if_pos]
      unfold spendable
      rw [List.any_eq_true]
      exact ⟨k, hk, decide_eq_true he.symm⟩

/-- **C31.** Something is confirmed at most once: if it is not imported again,
confirming it a second time is refused and changes nothing. -/
theorem C31_once (c : Crypto) (cl : Client) (id : Hash) :
    confirm c (confirm c cl id).2 id = (false, (confirm c cl id).2) := by
  have h1 : ((confirm c cl id).2.txs).lookup id = none := by
    rw [confirm_eq]
    have : ∀ cl : Client, (confirmInput cl id).2.txs = cl.txs := by
      intro cl
      unfold confirmInput
      split <;> rfl
    rw [this]
    unfold confirmPending
    cases hl : cl.txs.lookup id with
    | none => exact hl
    | some t => exact lookup_not (del_keys _ _)
  have h2 : ((confirm c cl id).2.inputs).lookup id = none := by
    rw [confirm_eq]
    generalize (confirmPending c cl id).2 = cl
    unfold confirmInput
    cases hl : cl.inputs.lookup id with
    | none => exact hl
    | some t => exact lookup_not (del_keys _ _)
  rw [confirm_eq c (confirm c cl id).2 id, confirmPending_none h1,
    confirmInput_none h2]
  rfl

/-- C31, the part about notifications, for transactions of which a single output
was imported and that are not the client's own: it is credited. -/
theorem C31_received_partial {c : Crypto} {sg : Signer} {cl : Client} {i : Input}
    (h : ClientHistory c sg cl)
    (hk : ∃ k ∈ cl.wallet.keys, i.prevoutData.commitment = p2pkCommitment c k)
    (hn : ∀ e ∈ cl.inputs, e.1 ≠ i.prevout.txId)
    (ht : ∀ e ∈ cl.txs, e.1 ≠ i.prevout.txId)
    (hx : ∀ x ∈ owned c cl, x.prevout ≠ i.prevout) :
    ∃ cl', confirm c (importInput c cl i) i.prevout.txId = (true, cl') ∧
      held c cl'.wallet = held c cl.wallet ++ [i] ∧ aside cl' = aside cl ∧
      cl'.txs = cl.txs ∧ cl'.inputs = cl.inputs ∧ Inv c cl'.wallet := by
  have hs : spendable c cl.wallet i.prevoutData.commitment = true := by
    obtain ⟨k, hk, he⟩ := hk
    unfold spendable
    rw [List.any_eq_true]
    exact ⟨k, hk, decide_eq_true he.symm⟩
  have hn' : i.prevout.txId ∉ cl.inputs.map (·.1) := by
    intro hm
    obtain ⟨e, he, hk⟩ := List.mem_map.mp hm
    exact hn e he hk
  have ht' : cl.txs.lookup i.prevout.txId = none := by
    apply lookup_not
    intro hm
    obtain ⟨e, he, hk⟩ := List.mem_map.mp hm
    exact ht e he hk
  have hi : importInput c cl i =
      { cl with inputs := cl.inputs ++ [(i.prevout.txId, i)] } := by
    unfold importInput
    rw [if_pos hs, put_new hn']
  have hlook : (importInput c cl i).inputs.lookup i.prevout.txId = some i := by
    rw [hi]
    simp only
    rw [List.lookup_append, lookup_not hn']
    simp
  obtain ⟨h1, h2, _⟩ := h.sane.credit hx
  have he := confirm_eq c (importInput c cl i) i.prevout.txId
  rw [confirmPending_none (by rw [hi]; exact ht'),
    confirmInput_some hlook] at he
  refine ⟨_, he, ?_, ?_, ?_, ?_, ?_⟩
  · rw [hi]; exact h2
  · rw [hi]; rfl
  · rw [hi]
  · rw [hi]
    show del (cl.inputs ++ _) _ = _
    unfold del
    rw [List.filter_append]
    have := del_same hn'
    unfold del at this
    rw [this]
    simp
  · rw [hi]; exact h1.inv

/-- C31. A notification about an output that the wallet cannot spend is
ignored. -/
theorem C31_ignored {c : Crypto} {cl : Client} {i : Input}
    (hk : ∀ k ∈ cl.wallet.keys, i.prevoutData.commitment ≠ p2pkCommitment c k) :
    importInput c cl i = cl := by
  unfold importInput
  rw [if_neg]
  intro hs
  unfold spendable at hs
  rw [List.any_eq_true] at hs
  obtain ⟨k, hm, he⟩ := hs
  exact hk k hm (of_decide_eq_true he).symm

/-! ### Examples -/

/-- A client with outputs worth 5 and 7. -/
def client : Client := { wallet := rich }

theorem client_history : ClientHistory toy sgn client :=
  .start rich_history.inv

/-- A key for change. -/
def keyC : PubKey := fill 32 6

/-- An output of the same transaction as `coin n`. -/
def coin' (n : UInt8) (v : UInt64) : Input :=
  ⟨⟨fill 32 n, 1⟩, ⟨p2pkCommitment toy keyA, v⟩⟩

/-- A payment of 4 is made, sent and abandoned: the money is back. -/
example : ∃ t cl, send toy sgn client 4 keyB (keyC, 0) = (some t, cl) ∧
    balanceOf cl.wallet = 7 ∧ aside cl = [coin 1 5] ∧
    NoClash toy (owned toy cl ++ t.inputs) ∧
    (abandon toy cl (txId toy t)).1 = true ∧
    balanceOf (abandon toy cl (txId toy t)).2.wallet = 12 ∧
    aside (abandon toy cl (txId toy t)).2 = [] := by
  refine ⟨_, _, rfl, by decide, by decide, ?_, by decide, by decide, by decide⟩
  unfold NoClash
  decide

/-- The same payment confirmed: the change arrives. -/
example : ∃ t cl, send toy sgn client 4 keyB (keyC, 0) = (some t, cl) ∧
    cl.inputs.lookup (txId toy t) = none ∧
    (confirm toy cl (txId toy t)).1 = true ∧
    balanceOf (confirm toy cl (txId toy t)).2.wallet = 8 := by
  refine ⟨_, _, rfl, by decide, by decide, by decide⟩

/-- **C31 is violated** for notifications about two outputs of one transaction:
the second is dropped without an error, and is not credited when the transaction
is confirmed. -/
theorem C31_dropped_violated : ∃ cl a b, ClientHistory toy sgn cl ∧
    a.prevout.txId = b.prevout.txId ∧ a.prevout ≠ b.prevout ∧
    spendable toy cl.wallet a.prevoutData.commitment = true ∧
    spendable toy cl.wallet b.prevoutData.commitment = true ∧
    balanceOf cl.wallet = 12 ∧
    (confirm toy (importInput toy (importInput toy cl a) b)
      a.prevout.txId).1 = true ∧
    balanceOf (confirm toy (importInput toy (importInput toy cl a) b)
      a.prevout.txId).2.wallet = 12 + a.prevoutData.value ∧
    b.prevoutData.value = 30 :=
  ⟨client, coin 3 20, coin' 3 30, client_history, rfl, by decide, by decide,
    by decide, by decide, by decide, by decide, rfl⟩

/-- **C31 is violated** when a notification arrives twice: the output is credited
again although the client has spent it. -/
theorem C31_twice_violated : ∃ cl a, ClientHistory toy sgn cl ∧
    (confirm toy (importInput toy cl a) a.prevout.txId).1 = true ∧
    ∃ t cl1, send toy sgn (confirm toy (importInput toy cl a) a.prevout.txId).2
        32 keyB (keyB, 0) = (some t, cl1) ∧
      balanceOf cl1.wallet = 0 ∧ a ∈ t.inputs ∧
      (confirm toy cl1 (txId toy t)).1 = true ∧
      balanceOf (confirm toy cl1 (txId toy t)).2.wallet = 0 ∧
      balanceOf (confirm toy (importInput toy (confirm toy cl1 (txId toy t)).2 a)
        a.prevout.txId).2.wallet = 20 := by
  refine ⟨client, coin 3 20, client_history, by decide, _, _, rfl, by decide,
    by decide, by decide, by decide, by decide⟩

end Verif.Wallet
