import Verif.Evm.TxCodec
/-! Helper lemmas for the Ethereum transaction format. -/
namespace Verif.Evm

open Verif.Serial

instance : LawfulMonad Outcome := LawfulMonad.mk'
  (id_map := by intro α x; cases x <;> rfl)
  (pure_bind := by intros; rfl)
  (bind_assoc := by intro α β γ x f g; cases x <;> rfl)

theorem pad_trim (l : Bytes) :
    List.replicate (l.length - (l.dropWhile (· == 0)).length) 0 ++ l.dropWhile (· == 0) = l := by
  induction l with
  | nil => rfl
  | cons b l ih =>
    rw [List.dropWhile_cons]
    split
    · rename_i h
      have hle := (List.dropWhile_sublist (p := (· == (0 : UInt8))) (l := l)).length_le
      have h : b = 0 := by simpa using h
      rw [List.length_cons, show l.length + 1 - (l.dropWhile (· == 0)).length =
        (l.length - (l.dropWhile (· == 0)).length) + 1 by omega, List.replicate_succ,
        List.cons_append, ih, h]
    · simp

theorem trim_inj {a b : Bytes} (hl : a.length = b.length)
    (h : a.dropWhile (· == 0) = b.dropWhile (· == 0)) : a = b := by
  rw [← pad_trim a, ← pad_trim b, h, hl]

theorem value_trim (n : Nat) (w : { b : Bytes // b.length = n }) :
    (makeRlp w.val true).value n = .ok w := by
  have hle := (List.dropWhile_sublist (p := (· == (0 : UInt8))) (l := w.val)).length_le
  rw [w.2] at hle
  unfold Rlp.value makeRlp Rlp.buf
  simp only [if_true]
  rw [dif_pos hle]
  congr 1
  apply Subtype.ext
  have := pad_trim w.val
  rw [w.2] at this
  exact this

theorem value_whole (n : Nat) (w : { b : Bytes // b.length = n }) :
    (makeRlp w.val false).value n = .ok w := by
  unfold Rlp.value makeRlp Rlp.buf
  simp only [Bool.false_eq_true, if_false]
  rw [dif_pos (by rw [w.2]; omega)]
  congr 1
  apply Subtype.ext
  simp [w.2]

theorem value_number (w : Word) : (numberRlp w).value 32 = .ok w := value_trim 32 w

theorem mapM_map_ok {α β γ : Type} (f : α → β) (g : β → Outcome γ) (h : α → γ)
    (hg : ∀ a, g (f a) = .ok (h a)) (l : List α) : (l.map f).mapM g = .ok (l.map h) := by
  induction l with
  | nil => rfl
  | cons a l ih => rw [List.map_cons, List.mapM_cons, hg, ih]; rfl

theorem mapM_range {α β : Type} (g : α → Outcome β) (l : List α) (n : Nat) (out : List β)
    (at' : Nat → Outcome α) (hn : n = l.length)
    (hat : ∀ i, (h : i < l.length) → at' i = .ok l[i]) (h : l.mapM g = .ok out) :
    ((List.range n).mapM fun j => at' j >>= g) = .ok out := by
  have key : ∀ (m : List α) (k : Nat), l.drop k = m →
      ((List.range' k m.length).mapM fun j => at' j >>= g) = m.mapM g := by
    intro m
    induction m with
    | nil => intros; rfl
    | cons a m ih =>
      intro k hk
      have hlt : k < l.length := by
        apply Decidable.byContradiction
        intro hn'
        rw [List.drop_eq_nil_of_le (by omega)] at hk
        exact absurd hk (by simp)
      have hd : l[k] = a ∧ l.drop (k + 1) = m := by
        rw [List.drop_eq_getElem_cons hlt] at hk
        injection hk with h1 h2
        exact ⟨h1, h2⟩
      rw [List.length_cons, List.range'_succ, List.mapM_cons, List.mapM_cons, ih (k + 1) hd.2,
        hat k hlt, hd.1]
      rfl
  rw [List.range_eq_range', hn, ← h]
  exact key l 0 rfl

theorem decodeTuple_write (t : Address × List Word) :
    decodeTuple (.array [makeRlp t.1.val false, .array (t.2.map fun k => makeRlp k.val false)]) =
      .ok t := by
  unfold decodeTuple
  have h1 : (Rlp.array [makeRlp t.1.val false,
      .array (t.2.map fun k => makeRlp k.val false)]).valueAt 1 =
      .ok (.array (t.2.map fun k => makeRlp k.val false)) := rfl
  have := mapM_range (fun k : Rlp => k.value 32) (t.2.map fun k => makeRlp k.val false)
    (Rlp.array (t.2.map fun k => makeRlp k.val false)).size t.2
    (Rlp.array (t.2.map fun k => makeRlp k.val false)).valueAt (by simp [Rlp.size])
    (by intro i h; unfold Rlp.valueAt Rlp.values; simp only [List.getElem?_eq_getElem h])
    (by rw [mapM_map_ok _ _ id (fun k => value_whole 32 k), List.map_id])
  simp only [value_whole, Outcome.bind_ok, h1, this]

theorem decodeAccessList_write (l : List (Address × List Word)) :
    decodeAccessList (accessListRlp l) = .ok l := by
  unfold decodeAccessList accessListRlp
  simp only
  rw [mapM_map_ok _ _ id decodeTuple_write, List.map_id]

theorem decodeData_write (b : Bytes) : decodeData (.buffer b) = .ok b := by
  unfold decodeData Rlp.size Rlp.buf
  simp

theorem zero_trim : Word.zero.val.dropWhile (· == 0) = [] := by decide

theorem decodeTo_write (to : Option Address) : decodeTo (toRlp to) = .ok to := by
  cases to with
  | none =>
    unfold decodeTo toRlp makeRlp Rlp.size
    simp only [if_true, zero_trim]
    rfl
  | some a =>
    unfold decodeTo
    rw [if_pos (by simp [toRlp, makeRlp, Rlp.size, a.2])]
    simp only [toRlp, value_whole, Outcome.bind_ok]

theorem toU64_ofU64 (c : UInt64) : toU64 (.ofU64 c) = c := by
  rw [← UInt64.toNat_inj, C51_toU64, nat_ofU64]
  exact Nat.mod_eq_of_lt (UInt64.toNat_lt c)

/-- The decoded fields of the elements written. -/
theorem decodeFields_write (chain : UInt64) (tx : EvmTx) :
    decodeFields chain tx.type (.array (bodyRlp chain tx ++ tailRlp chain false tx)) =
      if tx.type = .legacy ∧ wrongChain chain tx.v = true then .refused else
      .ok { tx with
        gasPrice := if tx.type = .dynamicFee then .zero else tx.gasPrice
        gasTipCap := if tx.type = .dynamicFee then tx.gasTipCap else .zero
        gasFeeCap := if tx.type = .dynamicFee then tx.gasFeeCap else .zero
        accessList := if tx.type = .legacy then [] else tx.accessList } := by
  obtain ⟨ty, to, value, nonce, price, limit, tip, fee, input, al, v, r, s⟩ := tx
  cases ty
  · cases hw : wrongChain chain v <;>
    simp [decodeFields, bodyRlp, tailRlp, Rlp.valueAt, Rlp.values, value_number, decodeTo_write,
      decodeData_write, hw]
  · simp [decodeFields, bodyRlp, tailRlp, Rlp.valueAt, Rlp.values, value_number, decodeTo_write,
      decodeData_write, decodeAccessList_write, toU64_ofU64]
  · simp [decodeFields, bodyRlp, tailRlp, Rlp.valueAt, Rlp.values, value_number, decodeTo_write,
      decodeData_write, decodeAccessList_write, toU64_ofU64]

theorem array_write_head (vs : List Rlp) : ∃ b rest, (Rlp.array vs).write = b :: rest ∧
    b ≠ 1 ∧ b ≠ 2 := by
  rw [Rlp.write]
  unfold serializeLength
  split
  · refine ⟨_, _, rfl, ?_, ?_⟩ <;>
    · intro h
      have := congrArg UInt8.toNat h
      rw [ofNat_toNat (by omega)] at this
      simp at this
  · have := serializeSize_length_le (Rlp.writeAll vs).length
    refine ⟨_, _, rfl, ?_, ?_⟩ <;>
    · intro h
      have := congrArg UInt8.toNat h
      rw [ofNat_toNat (by omega)] at this
      simp at this

theorem txType_encode (type : TxType) (vs : List Rlp) :
    txType (typeByte type ++ (Rlp.array vs).write) = (type, (Rlp.array vs).write) := by
  cases type
  · obtain ⟨b, rest, h, h1, h2⟩ := array_write_head vs
    rw [h]
    simp [typeByte, txType, h1, h2]
  · rfl
  · rfl

theorem rlpDecode_write (limit : Nat) (v : Rlp) (hl : v.write.length ≤ limit)
    (h64 : v.write.length < 2 ^ 64) : rlpDecode limit v.write = .ok v := by
  have := read_write limit v (2 * v.write.length + 1) [] (by omega) hl h64
  rw [List.append_nil] at this
  unfold rlpDecode
  rw [this]

theorem isValid_write (chain : UInt64) (tx : EvmTx) :
    isValidRlpTx tx.type (.array (bodyRlp chain tx ++ tailRlp chain false tx)) = true := by
  obtain ⟨ty, to, value, nonce, price, limit, tip, fee, input, al, v, r, s⟩ := tx
  cases ty <;> simp [isValidRlpTx, bodyRlp, tailRlp, Rlp.size]

end Verif.Evm
