import Verif.Evm.RlpProps
/-!
# C53, C77: transactions in the Ethereum format
-/
namespace Verif.Evm

open Verif.Serial

/-! ### Specification -/

/-- The fields which the type of the transaction does not have are those of a fresh
transaction. -/
def EvmTx.OwnFields (tx : EvmTx) : Prop :=
  match tx.type with
  | .legacy => tx.gasTipCap = .zero ∧ tx.gasFeeCap = .zero ∧ tx.accessList = []
  | .accessList => tx.gasTipCap = .zero ∧ tx.gasFeeCap = .zero
  | .dynamicFee => tx.gasPrice = .zero

/-- The recovery number of a legacy transaction is from before EIP-155, or says that the
transaction is for the chain. -/
def EvmTx.ForChain (chain : UInt64) (tx : EvmTx) : Prop :=
  tx.type = .legacy → tx.v.nat % 2 ^ 64 < 35 ∨ (tx.v.nat % 2 ^ 64 - 35) / 2 = chain.toNat

/-- The two transactions ask for the same to be done. -/
structure SameContent (tx tx' : EvmTx) : Prop where
  type : tx.type = tx'.type
  nonce : tx.nonce = tx'.nonce
  to : tx.to = tx'.to
  value : tx.value = tx'.value
  input : tx.input = tx'.input
  gasLimit : tx.gasLimit = tx'.gasLimit
  gasPrice : tx.type ≠ .dynamicFee → tx.gasPrice = tx'.gasPrice
  gasTipCap : tx.type = .dynamicFee → tx.gasTipCap = tx'.gasTipCap
  gasFeeCap : tx.type = .dynamicFee → tx.gasFeeCap = tx'.gasFeeCap
  accessList : tx.type ≠ .legacy → tx.accessList = tx'.accessList

/-! ### C53 -/

theorem wrongChain_iff (chain : UInt64) (v : Word) :
    wrongChain chain v = true ↔
      ¬ (v.nat % 2 ^ 64 < 35 ∨ (v.nat % 2 ^ 64 - 35) / 2 = chain.toNat) := by
  unfold wrongChain eip155
  have h := C51_toU64 v
  generalize toU64 v = x at h
  rw [← h]
  by_cases hx : (35 : UInt64) ≤ x
  · have hx' : 35 ≤ x.toNat := by simpa [UInt64.le_iff_toNat_le] using hx
    have e : ((x - 35) / 2).toNat = (x.toNat - 35) / 2 := by
      rw [UInt64.toNat_div, UInt64.toNat_sub_of_le _ _ hx]; rfl
    simp only [hx, decide_true, Bool.true_and, bne_iff_ne, ne_eq, ← UInt64.toNat_inj, e]
    omega
  · have hx' : ¬ 35 ≤ x.toNat := by simpa [UInt64.le_iff_toNat_le] using hx
    simp only [hx, decide_false, Bool.false_and, Bool.false_eq_true, false_iff]
    omega

theorem decode_encode (limit : Nat) (chain : UInt64) (tx : EvmTx)
    (hl : (txEncode chain false tx).length ≤ limit) (h64 : (txEncode chain false tx).length < 2 ^ 64) :
    txDecode limit chain (txEncode chain false tx) =
      decodeFields chain tx.type (.array (bodyRlp chain tx ++ tailRlp chain false tx)) := by
  unfold txEncode at *
  rw [List.length_append] at hl h64
  exact txDecode_array limit chain tx.type _ (isValid_write chain tx) (by omega) (by omega)

/-- **C53.** Encoding a transaction for a chain and decoding it there returns the same
transaction, for all three types. -/
theorem C53_round_trip (limit : Nat) (chain : UInt64) (tx : EvmTx) (hown : tx.OwnFields)
    (hchain : tx.ForChain chain) (hl : (txEncode chain false tx).length ≤ limit)
    (h64 : (txEncode chain false tx).length < 2 ^ 64) :
    txDecode limit chain (txEncode chain false tx) = .ok tx := by
  rw [decode_encode limit chain tx hl h64, decodeFields_write, if_neg]
  · obtain ⟨ty, to, value, nonce, price, limit, tip, fee, input, al, v, r, s⟩ := tx
    cases ty <;> simp_all [EvmTx.OwnFields]
  · rintro ⟨h1, h2⟩
    exact (wrongChain_iff chain tx.v).mp h2 (hchain h1)

/-- **C53.** What a transaction of another type would have besides is not encoded and
reads as zero. -/
theorem C53_other_fields (limit : Nat) (chain : UInt64) (tx : EvmTx)
    (hchain : tx.ForChain chain) (hl : (txEncode chain false tx).length ≤ limit)
    (h64 : (txEncode chain false tx).length < 2 ^ 64) :
    ∃ tx', txDecode limit chain (txEncode chain false tx) = .ok tx' ∧ SameContent tx tx' ∧
      tx'.OwnFields ∧ tx'.v = tx.v ∧ tx'.r = tx.r ∧ tx'.s = tx.s := by
  rw [decode_encode limit chain tx hl h64, decodeFields_write, if_neg]
  · refine ⟨_, rfl, ⟨rfl, rfl, rfl, rfl, rfl, rfl, ?_, ?_, ?_, ?_⟩, ?_, rfl, rfl, rfl⟩
    · intro h; simp [h]
    · intro h; simp [h]
    · intro h; simp [h]
    · intro h; simp [h]
    · obtain ⟨ty, to, value, nonce, price, limit, tip, fee, input, al, v, r, s⟩ := tx
      cases ty <;> simp [EvmTx.OwnFields]
  · rintro ⟨h1, h2⟩
    exact (wrongChain_iff chain tx.v).mp h2 (hchain h1)

/-- **C53.** A legacy transaction which says that it is for another chain is refused. -/
theorem C53_other_chain (limit : Nat) (chain : UInt64) (tx : EvmTx) (hchain : ¬ tx.ForChain chain)
    (hl : (txEncode chain false tx).length ≤ limit) (h64 : (txEncode chain false tx).length < 2 ^ 64) :
    txDecode limit chain (txEncode chain false tx) = .refused := by
  have ⟨h1, h2⟩ : tx.type = .legacy ∧
      ¬ (tx.v.nat % 2 ^ 64 < 35 ∨ (tx.v.nat % 2 ^ 64 - 35) / 2 = chain.toNat) := by
    unfold EvmTx.ForChain at hchain
    exact Classical.not_imp.mp hchain
  rw [decode_encode limit chain tx hl h64, decodeFields_write,
    if_pos ⟨h1, (wrongChain_iff chain tx.v).mpr h2⟩]

/-- **C53.** A transaction with a type which is encoded for one chain is refused on every
other. -/
theorem C53_other_chain_typed (limit : Nat) (chain other : UInt64) (tx : EvmTx)
    (hne : chain ≠ other) (ht : tx.type ≠ .legacy) (hl : (txEncode chain false tx).length ≤ limit)
    (h64 : (txEncode chain false tx).length < 2 ^ 64) :
    txDecode limit other (txEncode chain false tx) = .refused := by
  have hd : txDecode limit other (txEncode chain false tx) =
      decodeFields other tx.type (.array (bodyRlp chain tx ++ tailRlp chain false tx)) := by
    unfold txEncode at *
    rw [List.length_append] at hl h64
    exact txDecode_array limit other tx.type _ (isValid_write chain tx) (by omega) (by omega)
  rw [hd]
  obtain ⟨ty, to, value, nonce, price, limit, tip, fee, input, al, v, r, s⟩ := tx
  cases ty
  · exact absurd rfl ht
  · simp [decodeFields, bodyRlp, tailRlp, Rlp.valueAt, Rlp.values, value_number, toU64_ofU64, hne]
  · simp [decodeFields, bodyRlp, tailRlp, Rlp.valueAt, Rlp.values, value_number, toU64_ofU64, hne]

/-- A transaction of the fee-market type with an access list. -/
def exampleTx : EvmTx :=
  { EvmTx.empty .dynamicFee with
    to := some ⟨List.replicate 20 0xaa, rfl⟩
    value := .ofU64 1000
    nonce := .ofU64 1
    gasTipCap := .ofU64 2
    gasFeeCap := .ofU64 300
    gasLimit := .ofU64 21000
    input := [1, 2, 3]
    accessList := [(⟨List.replicate 20 0xbb, rfl⟩, [.ofU64 5, .zero])]
    v := .ofU64 1
    r := .ofU64 77
    s := .ofU64 88 }

example : (txEncode 0xcbdc false exampleTx).length = 138 := by decide +kernel
example : txDecode 200 0xcbdc (txEncode 0xcbdc false exampleTx) = .ok exampleTx :=
  C53_round_trip 200 0xcbdc exampleTx rfl (fun h => TxType.noConfusion h) (by decide +kernel)
    (by decide +kernel)
example : (exampleTx.type ≠ .legacy) ∧ (0xcbdc : UInt64) ≠ 1 := by decide

/-- A legacy transaction signed for the chain. -/
def exampleLegacy : EvmTx :=
  { EvmTx.empty .legacy with
    nonce := .ofU64 1
    gasPrice := .ofU64 9
    gasLimit := .ofU64 60000
    input := [0x60]
    v := .ofU64 (35 + 2 * 0xcbdc + 1)
    r := .ofU64 3
    s := .ofU64 4 }

theorem exampleLegacy_v : exampleLegacy.v.nat = 35 + 2 * 0xcbdc + 1 := by
  show (Word.ofU64 (35 + 2 * 0xcbdc + 1)).nat = _
  rw [nat_ofU64]; rfl

example : exampleLegacy.OwnFields ∧ exampleLegacy.ForChain 0xcbdc ∧ ¬ exampleLegacy.ForChain 1 := by
  refine ⟨⟨rfl, rfl, rfl⟩, fun _ => ?_, fun h => ?_⟩
  · rw [exampleLegacy_v]; decide
  · have := h rfl
    rw [exampleLegacy_v] at this
    exact absurd this (by decide)

/-- The elements of an encoded transaction have the prescribed lengths: the hypothesis
of `C52_shaped_partial` is met by all that is encoded. -/
theorem shaped_write (chain : UInt64) (tx : EvmTx) :
    Shaped tx.type (bodyRlp chain tx ++ tailRlp chain false tx) := by
  have hw : ∀ w : Word, (numberRlp w).buf.length ≤ 32 := by
    intro w
    have := (List.dropWhile_sublist (p := (· == (0 : UInt8))) (l := w.val)).length_le
    rw [w.2] at this
    exact this
  have ht : (toRlp tx.to).buf.length ≤ 20 := by
    cases tx.to with
    | none => show (Word.zero.val.dropWhile (· == 0)).length ≤ 20; rw [zero_trim]; decide
    | some a => show a.val.length ≤ 20; rw [a.2]; omega
  have hli : ListShaped (accessListRlp tx.accessList) := by
    intro t ht
    obtain ⟨x, _, rfl⟩ := List.mem_map.mp ht
    refine ⟨_, _, rfl, ?_, ?_⟩
    · show x.1.val.length ≤ 20; rw [x.1.2]; omega
    · intro k hk
      obtain ⟨y, _, rfl⟩ := List.mem_map.mp hk
      show y.val.length ≤ 32; rw [y.2]; omega
  have h0 : (accessListRlp tx.accessList).buf.length ≤ 32 := Nat.zero_le _
  obtain ⟨ty, to, value, nonce, price, limit, tip, fee, input, al, v, r, s⟩ := tx
  simp only at ht hli h0
  cases ty <;> refine ⟨rfl, ?_, ?_, ?_, ?_⟩
  all_goals simp only [bodyRlp, tailRlp, toAt, if_true, if_false, reduceCtorEq, List.cons_append,
    List.nil_append, Bool.false_eq_true, List.append_nil]
  · intro i x hx hi
    rcases i with _ | _ | _ | _ | _ | _ | _ | _ | _ | i <;> simp at hx hi <;> subst hx <;>
      first | exact hw _ | (have := ht; omega)
  · intro x hx; simp at hx; subst hx; exact ht
  · intro x hx; simp at hx; subst hx; exact ⟨_, rfl⟩
  · intro h; exact absurd rfl h
  · intro i x hx hi
    rcases i with _ | _ | _ | _ | _ | _ | _ | _ | _ | _ | _ | i <;> simp at hx hi <;> subst hx <;>
      first | exact hw _ | exact h0 | (have := ht; omega)
  · intro x hx; simp at hx; subst hx; exact ht
  · intro x hx; simp at hx; subst hx; exact ⟨_, rfl⟩
  · intro _ x hx; simp at hx; subst hx; exact hli
  · intro i x hx hi
    rcases i with _ | _ | _ | _ | _ | _ | _ | _ | _ | _ | _ | _ | i <;> simp at hx hi <;> subst hx <;>
      first | exact hw _ | exact h0 | (have := ht; omega)
  · intro x hx; simp at hx; subst hx; exact ht
  · intro x hx; simp at hx; subst hx; exact ⟨_, rfl⟩
  · intro _ x hx; simp at hx; subst hx; exact hli

theorem decodeFields_array (chain : UInt64) (type : TxType) (v : Rlp) (tx : EvmTx)
    (h : decodeFields chain type v = .ok tx) : ∃ vs, v = .array vs := by
  cases v with
  | array vs => exact ⟨vs, rfl⟩
  | buffer b =>
    exfalso
    unfold decodeFields at h
    cases type <;> simp [Rlp.valueAt, Rlp.values] at h

/-- **C53.** What is decoded to a transaction is an array of exactly the elements of its
type: 9, or after the byte 1 11, or after the byte 2 12. -/
theorem C53_elements (limit : Nat) (chain : UInt64) (bs : Bytes) (tx : EvmTx)
    (h : txDecode limit chain bs = .ok tx) :
    ∃ body vs, rlpDecode limit body = .ok (.array vs) ∧
      ((bs = body ∧ vs.length = 9) ∨ (bs = 1 :: body ∧ vs.length = 11) ∨ (bs = 2 :: body ∧ vs.length = 12)) := by
  unfold txDecode checkTxDecode at h
  by_cases hb : bs = []
  · simp [hb] at h
  simp only [hb, if_false] at h
  cases hd : rlpDecode limit (txType bs).2 with
  | ok v =>
    simp only [hd, Outcome.bind_ok] at h
    by_cases hv : isValidRlpTx (txType bs).1 v = true
    · simp only [hv, if_true, Outcome.bind_ok] at h
      obtain ⟨vs, rfl⟩ := decodeFields_array _ _ _ _ h
      refine ⟨_, vs, hd, ?_⟩
      cases bs with
      | nil => exact absurd rfl hb
      | cons b rest =>
        by_cases h1 : b = 1
        · subst h1
          simp only [txType, if_true, isValidRlpTx, Rlp.size, beq_iff_eq] at hv
          exact .inr (.inl ⟨rfl, hv⟩)
        · by_cases h2 : b = 2
          · subst h2
            have e : txType (2 :: rest) = (.dynamicFee, rest) := rfl
            simp only [e, isValidRlpTx, Rlp.size, beq_iff_eq] at hv
            exact .inr (.inr ⟨rfl, hv⟩)
          · have e : txType (b :: rest) = (.legacy, b :: rest) := by simp [txType, h1, h2]
            simp only [e, isValidRlpTx, Rlp.size, beq_iff_eq] at hv ⊢
            exact .inl ⟨trivial, hv⟩
    · simp [hv] at h
  | _ => simp [hd] at h

/-! ### C77 -/

theorem numberRlp_inj {v w : Word} (h : numberRlp v = numberRlp w) : v = w := by
  have h1 := value_number v
  rw [h, value_number] at h1
  injection h1 with h1
  exact h1.symm

theorem toRlp_inj {a b : Option Address} (h : toRlp a = toRlp b) : a = b := by
  have h1 := decodeTo_write a
  rw [h, decodeTo_write] at h1
  injection h1 with h1
  exact h1.symm

theorem accessListRlp_inj {a b : List (Address × List Word)} (h : accessListRlp a = accessListRlp b) :
    a = b := by
  have h1 := decodeAccessList_write a
  rw [h, decodeAccessList_write] at h1
  injection h1 with h1
  exact h1.symm

theorem encode_inj (ty ty' : TxType) (vs vs' : List Rlp)
    (h : typeByte ty ++ (Rlp.array vs).write = typeByte ty' ++ (Rlp.array vs').write)
    (hl : (Rlp.array vs).write.length < 2 ^ 64) (hl' : (Rlp.array vs').write.length < 2 ^ 64) :
    ty = ty' ∧ vs = vs' := by
  have h1 := txType_encode ty vs
  rw [h, txType_encode] at h1
  injection h1 with h1 h2
  have := C52_injective (.array vs) (.array vs') [] [] hl hl' (by rw [h2])
  injection this.1 with h3
  exact ⟨h1.symm, h3⟩

/-- **C77.** What is hashed for the signature determines the chain and all that the
transaction asks for: a signature for one transaction is for no other, on this chain or
another. -/
theorem C77_signed (chain chain' : UInt64) (tx tx' : EvmTx)
    (hl : (txEncode chain true tx).length < 2 ^ 64) (hl' : (txEncode chain' true tx').length < 2 ^ 64)
    (h : txEncode chain true tx = txEncode chain' true tx') : chain = chain' ∧ SameContent tx tx' := by
  unfold txEncode at h hl hl'
  rw [List.length_append] at hl hl'
  obtain ⟨ht, hv⟩ := encode_inj _ _ _ _ h (by omega) (by omega)
  have ofU : ∀ {a b : UInt64}, numberRlp (.ofU64 a) = numberRlp (.ofU64 b) → a = b := by
    intro a b hab
    have := congrArg toU64 (numberRlp_inj hab)
    rwa [toU64_ofU64, toU64_ofU64] at this
  obtain ⟨ty, to, value, nonce, price, limit, tip, fee, input, al, v, r, s⟩ := tx
  obtain ⟨ty', to', value', nonce', price', limit', tip', fee', input', al', v', r', s'⟩ := tx'
  simp only at ht
  subst ht
  cases ty
  all_goals
    simp only [bodyRlp, tailRlp, if_true, if_false, reduceCtorEq, List.cons_append,
      List.nil_append, List.append_nil, List.cons.injEq, Rlp.buffer.injEq, and_true] at hv
  · obtain ⟨h1, h2, h3, h4, h5, h6, h7⟩ := hv
    exact ⟨ofU h7, rfl, numberRlp_inj h1, toRlp_inj h4, numberRlp_inj h5, h6, numberRlp_inj h3,
      fun _ => numberRlp_inj h2, (by intro h; exact TxType.noConfusion h),
      (by intro h; exact TxType.noConfusion h), fun h => absurd rfl h⟩
  · obtain ⟨h0, h1, h2, h3, h4, h5, h6, h7⟩ := hv
    exact ⟨ofU h0, rfl, numberRlp_inj h1, toRlp_inj h4, numberRlp_inj h5, h6, numberRlp_inj h3,
      fun _ => numberRlp_inj h2, (by intro h; exact TxType.noConfusion h),
      (by intro h; exact TxType.noConfusion h), fun _ => accessListRlp_inj h7⟩
  · obtain ⟨h0, h1, h2, h2', h3, h4, h5, h6, h7⟩ := hv
    exact ⟨ofU h0, rfl, numberRlp_inj h1, toRlp_inj h4, numberRlp_inj h5, h6, numberRlp_inj h3,
      fun h => absurd rfl h, fun _ => numberRlp_inj h2, fun _ => numberRlp_inj h2',
      fun _ => accessListRlp_inj h7⟩

/-- **C77.** What is hashed for the transaction identifier determines all that the
transaction asks for and its signature. -/
theorem C77_identified (chain : UInt64) (tx tx' : EvmTx)
    (hl : (txEncode chain false tx).length < 2 ^ 64) (hl' : (txEncode chain false tx').length < 2 ^ 64)
    (h : txEncode chain false tx = txEncode chain false tx') :
    SameContent tx tx' ∧ tx.v = tx'.v ∧ tx.r = tx'.r ∧ tx.s = tx'.s := by
  unfold txEncode at h hl hl'
  rw [List.length_append] at hl hl'
  obtain ⟨ht, hv⟩ := encode_inj _ _ _ _ h (by omega) (by omega)
  obtain ⟨ty, to, value, nonce, price, limit, tip, fee, input, al, v, r, s⟩ := tx
  obtain ⟨ty', to', value', nonce', price', limit', tip', fee', input', al', v', r', s'⟩ := tx'
  simp only at ht
  subst ht
  cases ty
  all_goals
    simp only [bodyRlp, tailRlp, if_true, if_false, reduceCtorEq, List.cons_append, Bool.false_eq_true,
      List.nil_append, List.append_nil, List.cons.injEq, Rlp.buffer.injEq, and_true] at hv
  · obtain ⟨h1, h2, h3, h4, h5, h6, h8, h9, h10⟩ := hv
    exact ⟨⟨rfl, numberRlp_inj h1, toRlp_inj h4, numberRlp_inj h5, h6, numberRlp_inj h3,
      fun _ => numberRlp_inj h2, (by intro h; exact TxType.noConfusion h),
      (by intro h; exact TxType.noConfusion h), fun h => absurd rfl h⟩, numberRlp_inj h8,
      numberRlp_inj h9, numberRlp_inj h10⟩
  · obtain ⟨_, h1, h2, h3, h4, h5, h6, h7, h8, h9, h10⟩ := hv
    exact ⟨⟨rfl, numberRlp_inj h1, toRlp_inj h4, numberRlp_inj h5, h6, numberRlp_inj h3,
      fun _ => numberRlp_inj h2, (by intro h; exact TxType.noConfusion h),
      (by intro h; exact TxType.noConfusion h), fun _ => accessListRlp_inj h7⟩, numberRlp_inj h8,
      numberRlp_inj h9, numberRlp_inj h10⟩
  · obtain ⟨_, h1, h2, h2', h3, h4, h5, h6, h7, h8, h9, h10⟩ := hv
    exact ⟨⟨rfl, numberRlp_inj h1, toRlp_inj h4, numberRlp_inj h5, h6, numberRlp_inj h3,
      fun h => absurd rfl h, fun _ => numberRlp_inj h2, fun _ => numberRlp_inj h2',
      fun _ => accessListRlp_inj h7⟩, numberRlp_inj h8, numberRlp_inj h9, numberRlp_inj h10⟩

end Verif.Evm
