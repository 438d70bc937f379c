import Verif.Evm.TxProps
/-!
# Signatures of Ethereum transactions (C78)

Model of `src/parsec/agent/runners/evm/signature.cpp`.  The curve is not modelled:
`Curve` stands for the functions of libsecp256k1.
-/
namespace Verif.Evm

open Verif.Serial

/-- `secp256k1_ecdsa_recoverable_signature`: its 65 bytes, in three parts. -/
structure RawSig where
  r : Word
  s : Word
  v : UInt8
  deriving DecidableEq

/-- `std::reverse_copy` of 32 bytes. -/
def Word.reverse (w : Word) : Word := ⟨w.val.reverse, by rw [List.length_reverse]; exact w.2⟩

/-- `evm_sig`, src/parsec/agent/runners/evm/messages.hpp:39-43. -/
structure EvmSig where
  v : Word
  r : Word
  s : Word

/-- `secp256k1_ecdsa_recoverable_signature_to_evm_sig`, src/parsec/agent/runners/evm/signature.cpp:22-52. -/
def toEvmSig (sig : RawSig) (type : TxType) (chain : UInt64) : EvmSig :=
  { v := .ofU64 (if type = .legacy then sig.v.toUInt64 + eip155 + chain * 2 else sig.v.toUInt64)
    r := sig.r.reverse
    s := sig.s.reverse }

/-- `pre_eip155_v_offset`, src/parsec/agent/runners/evm/serialization.hpp:26. -/
def preEip155 : UInt64 := 27

/-- `evm_sig_to_secp256k1_ecdsa_recoverable_signature`, src/parsec/agent/runners/evm/signature.cpp:54-83. -/
def fromEvmSig (e : EvmSig) (type : TxType) (chain : UInt64) : Option RawSig :=
  let v := toU64 e.v
  let raw (v : UInt64) : RawSig := { r := e.r.reverse, s := e.s.reverse, v := v.toUInt8 }
  if type = .legacy ∧ eip155 < v then
    let v := v - eip155 - chain * 2
    if v > 255 then none else some (raw v)
  else if type = .legacy ∧ preEip155 ≤ v then some (raw (v - preEip155))
  else some (raw v)

/-- The functions of libsecp256k1 and the hash function which the code calls, and
`eth_addr` (src/parsec/agent/runners/evm/address.cpp). -/
structure Curve where
  Key : Type
  sign : Key → Bytes → RawSig
  recover : RawSig → Bytes → Option Bytes
  pubkey : Key → Bytes
  keccak : Bytes → Bytes
  address : Bytes → Address

/-- `sig_hash`, src/parsec/agent/runners/evm/signature.cpp:134-138. -/
def sigHash (c : Curve) (chain : UInt64) (tx : EvmTx) : Bytes := c.keccak (txEncode chain true tx)

/-- `tx_id`, src/parsec/agent/runners/evm/serialization.cpp:21-25. -/
def txId (c : Curve) (chain : UInt64) (tx : EvmTx) : Bytes := c.keccak (txEncode chain false tx)

/-- `eth_sign`, src/parsec/agent/runners/evm/signature.cpp:85-102. -/
def ethSign (c : Curve) (key : c.Key) (hash : Bytes) (type : TxType) (chain : UInt64) : EvmSig :=
  toEvmSig (c.sign key hash) type chain

/-- `tx.m_sig = sig`. -/
def EvmTx.withSig (tx : EvmTx) (sig : EvmSig) : EvmTx :=
  { tx with
    v := sig.v
    r := sig.r
    s := sig.s }

/-- `tx.m_sig`. -/
def EvmTx.sig (tx : EvmTx) : EvmSig := { v := tx.v, r := tx.r, s := tx.s }

/-- `check_signature`, src/parsec/agent/runners/evm/signature.cpp:104-132. -/
def checkSignature (c : Curve) (chain : UInt64) (tx : EvmTx) : Option Address :=
  match fromEvmSig tx.sig tx.type chain with
  | none => none
  | some sig => (c.recover sig (sigHash c chain tx)).map c.address

/-! ### C78 -/

theorem reverse_reverse (w : Word) : w.reverse.reverse = w := by
  apply Subtype.ext; exact List.reverse_reverse _

/-- The signature is not part of what is signed. -/
theorem encode_withSig (chain : UInt64) (tx : EvmTx) (sig : EvmSig) :
    txEncode chain true (tx.withSig sig) = txEncode chain true tx := rfl

/-- **C78.** A signature survives the conversion to the Ethereum form and back. -/
theorem C78_round_trip (sig : RawSig) (type : TxType) (chain : UInt64)
    (hc : type = .legacy → 0 < chain.toNat ∧ chain.toNat < 2 ^ 62) :
    fromEvmSig (toEvmSig sig type chain) type chain = some sig := by
  have h8 : sig.v.toUInt64.toNat = sig.v.toNat := by simp
  have hv := sig.v.toNat_lt
  have back : sig.v.toUInt64.toUInt8 = sig.v := by
    rw [← UInt8.toNat_inj]; simp
  cases type
  · obtain ⟨h1, h2⟩ := hc rfl
    have e : (sig.v.toUInt64 + eip155 + chain * 2).toNat = sig.v.toNat + 35 + chain.toNat * 2 := by
      rw [UInt64.toNat_add, UInt64.toNat_add, UInt64.toNat_mul, h8]
      show ((sig.v.toNat + 35) % 2 ^ 64 + chain.toNat * 2 % 2 ^ 64) % 2 ^ 64 = _
      omega
    have hd : sig.v.toUInt64 + eip155 + chain * 2 - eip155 - chain * 2 = sig.v.toUInt64 := by
      generalize sig.v.toUInt64 = x
      generalize chain * 2 = y
      rw [← UInt64.toNat_inj]
      simp only [UInt64.toNat_sub, UInt64.toNat_add]
      have := x.toNat_lt
      have := y.toNat_lt
      have : eip155.toNat = 35 := rfl
      omega
    unfold fromEvmSig toEvmSig
    simp only [if_true, toU64_ofU64, true_and, reverse_reverse]
    rw [if_pos (by rw [UInt64.lt_iff_toNat_lt, e]; show 35 < _; omega), hd,
      if_neg (by rw [gt_iff_lt, UInt64.lt_iff_toNat_lt, h8]; show ¬ 255 < _; omega), back]
  · unfold fromEvmSig toEvmSig
    simp only [reduceCtorEq, if_false, toU64_ofU64, false_and, reverse_reverse, back]
  · unfold fromEvmSig toEvmSig
    simp only [reduceCtorEq, if_false, toU64_ofU64, false_and, reverse_reverse, back]

/-- **C78.** A transaction is attributed to the key which signed it, for all three
types. -/
theorem C78_sender (c : Curve) (hcurve : ∀ k h, c.recover (c.sign k h) h = some (c.pubkey k))
    (key : c.Key) (chain : UInt64) (tx : EvmTx) (hc : 0 < chain.toNat ∧ chain.toNat < 2 ^ 62) :
    checkSignature c chain (tx.withSig (ethSign c key (sigHash c chain tx) tx.type chain)) =
      some (c.address (c.pubkey key)) := by
  have h1 : sigHash c chain (tx.withSig (ethSign c key (sigHash c chain tx) tx.type chain)) =
      sigHash c chain tx := rfl
  have h2 : fromEvmSig (tx.withSig (ethSign c key (sigHash c chain tx) tx.type chain)).sig
      (tx.withSig (ethSign c key (sigHash c chain tx) tx.type chain)).type chain =
      some (c.sign key (sigHash c chain tx)) :=
    C78_round_trip _ tx.type chain fun _ => hc
  unfold checkSignature
  rw [h2]
  simp only [h1, hcurve, Option.map_some]

example : 0 < (0xcbdc : UInt64).toNat ∧ (0xcbdc : UInt64).toNat < 2 ^ 62 := by decide

/-- **C78, violated.** Whoever sees a transaction can make another with the same sender,
content and effect but another identifier: only the lowest 64 bits of the recovery number
count.  The decoder accepts both. -/
theorem C78_identifier_violated (c : Curve) (chain : UInt64) (tx : EvmTx) (w : Word)
    (hw : w.nat % 2 ^ 64 = tx.v.nat % 2 ^ 64) (hne : w ≠ tx.v) :
    let tx' := { tx with v := w }
    SameContent tx tx' ∧ checkSignature c chain tx' = checkSignature c chain tx ∧
      (tx.OwnFields → tx'.OwnFields) ∧ (tx.ForChain chain → tx'.ForChain chain) ∧
      ((txEncode chain false tx).length < 2 ^ 64 → (txEncode chain false tx').length < 2 ^ 64 →
        (c.keccak (txEncode chain false tx) = c.keccak (txEncode chain false tx') →
          txEncode chain false tx = txEncode chain false tx') →
        txId c chain tx ≠ txId c chain tx') := by
  have hu : toU64 w = toU64 tx.v := by
    rw [← UInt64.toNat_inj, C51_toU64, C51_toU64, hw]
  refine ⟨⟨rfl, rfl, rfl, rfl, rfl, rfl, fun _ => rfl, fun _ => rfl, fun _ => rfl, fun _ => rfl⟩,
    ?_, fun h => h, ?_, ?_⟩
  · have h1 : sigHash c chain { tx with v := w } = sigHash c chain tx := rfl
    have h2 : fromEvmSig { v := w, r := tx.r, s := tx.s } tx.type chain =
        fromEvmSig tx.sig tx.type chain := by
      unfold fromEvmSig EvmTx.sig
      simp only [hu]
    unfold checkSignature
    rw [h1]
    show (match fromEvmSig { v := w, r := tx.r, s := tx.s } tx.type chain with
      | none => none
      | some sig => (c.recover sig (sigHash c chain tx)).map c.address) = _
    rw [h2]
  · intro h ht
    have := h ht
    show w.nat % 2 ^ 64 < 35 ∨ (w.nat % 2 ^ 64 - 35) / 2 = chain.toNat
    rw [hw]
    exact this
  · intro hl hl' hk he
    exact hne (C77_identified chain tx _ hl hl' (hk he)).2.1.symm

/-- **C78.** Unless the hash function collides, two transactions with the same identifier have the same content and
the same signature. -/
theorem C78_identifier (c : Curve) (chain : UInt64) (tx tx' : EvmTx)
    (hl : (txEncode chain false tx).length < 2 ^ 64) (hl' : (txEncode chain false tx').length < 2 ^ 64)
    (hk : c.keccak (txEncode chain false tx) = c.keccak (txEncode chain false tx') →
      txEncode chain false tx = txEncode chain false tx')
    (h : txId c chain tx = txId c chain tx') : SameContent tx tx' ∧ tx.sig = tx'.sig := by
  obtain ⟨h1, h2, h3, h4⟩ := C77_identified chain tx tx' hl hl' (hk h)
  exact ⟨h1, by unfold EvmTx.sig; rw [h2, h3, h4]⟩

/-- The hypotheses of `C78_identifier_violated` hold for every transaction: add
`2 ^ 64`. -/
theorem second_v (v : Word) : ∃ w : Word, w.nat % 2 ^ 64 = v.nat % 2 ^ 64 ∧ w ≠ v := by
  let one : Word := shl (.ofU64 1) 8
  have h1 : one.nat = 2 ^ 64 := by
    show (shl (.ofU64 1) 8).nat = _
    rw [C51_shl, nat_ofU64]; decide
  refine ⟨add v one, ?_, ?_⟩
  · rw [C51_add, h1, Nat.mod_mod_of_dvd _ (by decide)]
    omega
  · intro he
    have := congrArg Word.nat he
    rw [C51_add, h1] at this
    have := v.nat_lt
    omega

/-- **C78, partial.** Among transactions whose recovery number fits in 64 bits, a legacy
transaction for this chain has no twin: two signatures which are converted to the same
signature of the curve, both with a recovery number above 35, are the same.  What is
missing: recovery numbers of 64 bits or more (`C78_identifier_violated`), typed
transactions, of whose recovery number only eight bits count, and numbers below 36, which
are read as those from before EIP-155. -/
theorem C78_unique_partial (e e' : EvmSig) (chain : UInt64) (sig : RawSig)
    (h : fromEvmSig e .legacy chain = some sig) (h' : fromEvmSig e' .legacy chain = some sig)
    (hv : 35 < e.v.nat) (hv' : 35 < e'.v.nat) (h64 : e.v.nat < 2 ^ 64) (h64' : e'.v.nat < 2 ^ 64) :
    e = e' := by
  have n : ∀ w : Word, w.nat < 2 ^ 64 → (toU64 w).toNat = w.nat := fun w hw => by
    rw [C51_toU64, Nat.mod_eq_of_lt hw]
  have p : ∀ x : EvmSig, 35 < x.v.nat → x.v.nat < 2 ^ 64 → fromEvmSig x .legacy chain = some sig →
      toU64 x.v - eip155 - chain * 2 = sig.v.toUInt64 ∧ x.r = sig.r.reverse ∧ x.s = sig.s.reverse := by
    intro x hx hx' hs
    unfold fromEvmSig at hs
    simp only [true_and] at hs
    rw [if_pos (by rw [UInt64.lt_iff_toNat_lt, n _ hx']; exact hx)] at hs
    split at hs
    · exact absurd hs (by simp)
    · rename_i hle
      injection hs with hs
      subst hs
      refine ⟨?_, (reverse_reverse _).symm, (reverse_reverse _).symm⟩
      rw [← UInt64.toNat_inj]
      generalize toU64 x.v - eip155 - chain * 2 = y at hle
      have : y.toNat ≤ 255 := by
        rw [gt_iff_lt, UInt64.lt_iff_toNat_lt] at hle
        have : (255 : UInt64).toNat = 255 := rfl
        omega
      simp
      omega
  obtain ⟨a1, a2, a3⟩ := p e hv h64 h
  obtain ⟨b1, b2, b3⟩ := p e' hv' h64' h'
  have : toU64 e.v = toU64 e'.v := by
    have := a1.trans b1.symm
    rw [← UInt64.toNat_inj] at this ⊢
    generalize toU64 e.v = x at this ⊢
    generalize toU64 e'.v = y at this ⊢
    generalize chain * 2 = z at this
    simp only [UInt64.toNat_sub] at this
    have := x.toNat_lt
    have := y.toNat_lt
    have := z.toNat_lt
    have : eip155.toNat = 35 := rfl
    omega
  have hvv : e.v = e'.v := Word.nat_inj (by rw [← n _ h64, ← n _ h64', this])
  cases e; cases e'; simp_all

end Verif.Evm
