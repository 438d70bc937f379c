import Verif.Evm.TxLemmas
/-!
# C52: encoding and decoding trees of byte strings
-/
namespace Verif.Evm

open Verif.Serial

/-- **C52.** Decoding the encoding of any tree of byte strings returns that tree; `limit`
is the number of bytes which can be allocated. -/
theorem C52_round_trip (limit : Nat) (v : Rlp) (hl : v.write.length ≤ limit)
    (h64 : v.write.length < 2 ^ 64) : rlpDecode limit v.write = .ok v :=
  rlpDecode_write limit v hl h64

/-- A tree with an empty string, an empty array, a byte which is its own encoding, a byte
which is not, and a string whose length does not fit in the first byte. -/
def exampleTree : Rlp :=
  .array [.buffer [], .array [], .buffer [0x7f], .array [.buffer [0x80], .buffer (List.replicate 60 7)]]

example : exampleTree.write.length = 71 := by decide +kernel
example : rlpDecode 71 exampleTree.write = .ok exampleTree :=
  C52_round_trip _ _ (by decide +kernel) (by decide +kernel)

/-- **C52.** Decoding takes exactly the bytes of the encoding, whatever follows. -/
theorem C52_prefix (limit : Nat) (v : Rlp) (rest : Bytes) (hl : v.write.length ≤ limit)
    (h64 : v.write.length < 2 ^ 64) :
    readFrom limit (2 * (v.write ++ rest).length + 1) (v.write ++ rest) = some (v, rest, true) :=
  read_write limit v _ rest (by rw [List.length_append]; omega) hl h64

/-- **C52.** Different trees have different encodings, of which none is a prefix of
another. -/
theorem C52_injective (v w : Rlp) (r r' : Bytes) (hv : v.write.length < 2 ^ 64)
    (hw : w.write.length < 2 ^ 64) (h : v.write ++ r = w.write ++ r') : v = w ∧ r = r' := by
  have h1 := C52_prefix (2 ^ 64) v r (by omega) hv
  have h2 := C52_prefix (2 ^ 64) w r' (by omega) hw
  rw [h, h2] at h1
  injection h1 with h1
  injection h1 with h1 h3
  injection h3 with h3 _
  exact ⟨h1.symm, h3.symm⟩

/-- **C52.** Decoding any bytes at all ends with a tree or a refusal when memory is not
short, and reads nothing outside the bytes. -/
theorem C52_total (limit : Nat) (hl : 2 ^ 64 ≤ limit) (bs : Bytes) :
    rlpDecode limit bs = .refused ∨ ∃ v, rlpDecode limit bs = .ok v := by
  obtain ⟨v, left, valid, h, -⟩ := (read_total limit hl (2 * bs.length + 1)).1 bs (by omega) (by omega)
  unfold rlpDecode
  rw [h]
  cases valid
  · exact Or.inl rfl
  · exact Or.inr ⟨v, rfl⟩

/-- **C52.** The bound which the model puts on the depth of the recursion is never met:
a larger one gives the same result. -/
theorem C52_depth (limit : Nat) (bs : Bytes) (extra : Nat) :
    readFrom limit (2 * bs.length + 1 + extra) bs = readFrom limit (2 * bs.length + 1) bs := by
  induction extra with
  | zero => rfl
  | succ n ih =>
    rw [← ih]
    exact ((read_fuel limit (2 * bs.length + 1 + n)).1 bs (by omega) (by omega)).1

/-- **C52, violated.** Nine bytes which announce a string of `2 ^ 64 - 1` bytes are not
refused: the allocation throws, and nothing catches it. -/
theorem C52_memory_violated (limit : Nat) (h : limit < 2 ^ 64 - 1) :
    rlpDecode limit (0xbf :: List.replicate 8 0xff) = .throws := by
  have e : readFrom limit 19 (0xbf :: List.replicate 8 0xff) = readBuffer limit (2 ^ 64 - 1) [] true := by
    have hr : readLength 8 (List.replicate 8 0xff) = (2 ^ 64 - 1, [], true) := by decide +kernel
    rw [readFrom]
    simp only
    rw [if_neg (by decide), if_neg (by decide), if_pos (by decide),
      show (0xbf : UInt8).toNat - 0x80 - 55 = 8 from rfl, hr]
  have e2 : readBuffer limit (2 ^ 64 - 1) [] true = none := by
    unfold readBuffer; rw [if_pos h]
  unfold rlpDecode
  rw [show 2 * ((0xbf : UInt8) :: List.replicate 8 0xff).length + 1 = 19 from rfl, e, e2]

/-- **C52.** A field of `n` bytes is taken from a value without touching other memory
exactly when the string of the value is not longer than that, and is then the same
number. -/
theorem C52_value (n : Nat) (v : Rlp) :
    (v.buf.length ≤ n ∧ ∃ w, v.value n = .ok w ∧ bytesNat w.val = bytesNat v.buf) ∨
    (n < v.buf.length ∧ v.value n = .undefined) := by
  by_cases h : v.buf.length ≤ n
  · left
    refine ⟨h, ⟨List.replicate (n - v.buf.length) 0 ++ v.buf, by simp; omega⟩, ?_, bytesNat_zeros _ _⟩
    unfold Rlp.value
    rw [dif_pos h]
  · right
    refine ⟨by omega, ?_⟩
    unfold Rlp.value
    rw [dif_neg h]

example : Rlp.value 32 (.buffer (List.replicate 33 1)) = .undefined := rfl

/-- How `tx_decode` works on an array with the right number of elements. -/
theorem txDecode_array (limit : Nat) (chain : UInt64) (type : TxType) (vs : List Rlp)
    (hv : isValidRlpTx type (.array vs) = true)
    (hl : (Rlp.array vs).write.length ≤ limit) (h64 : (Rlp.array vs).write.length < 2 ^ 64) :
    txDecode limit chain (typeByte type ++ (Rlp.array vs).write) =
      decodeFields chain type (.array vs) := by
  unfold txDecode checkTxDecode
  rw [if_neg (by
    intro h
    have := congrArg List.length h
    have := write_length_pos (.array vs)
    simp at h
    rw [h.2] at this
    simp at this)]
  simp only [txType_encode, rlpDecode_write limit _ hl h64, Outcome.bind_ok, hv, if_true]

/-- **C52, violated.** A transaction whose nonce has 33 bytes makes the decoder write
before the start of a buffer. -/
theorem C52_field_violated (limit : Nat) (hl : 100 ≤ limit) (chain : UInt64) :
    ∃ bs : Bytes, bs.length = 43 ∧ txDecode limit chain bs = .undefined := by
  refine ⟨typeByte .legacy ++ (Rlp.array (.buffer (List.replicate 33 1) ::
    List.replicate 8 (.buffer []))).write, by decide +kernel, ?_⟩
  have e : (Rlp.array (.buffer (List.replicate 33 1) :: List.replicate 8 (.buffer []))).write.length = 43 := by
    decide +kernel
  rw [txDecode_array limit chain .legacy _ rfl (by rw [e]; omega) (by rw [e]; decide)]
  rfl

/-- **C52, violated.** A transaction whose input is an array makes the decoder read from
a buffer without bytes. -/
theorem C52_input_violated (limit : Nat) (hl : 100 ≤ limit) (chain : UInt64) :
    ∃ bs : Bytes, bs.length = 11 ∧ txDecode limit chain bs = .undefined := by
  let vs := List.replicate 5 (Rlp.buffer []) ++ [.array [.buffer []]] ++ List.replicate 3 (.buffer [])
  refine ⟨typeByte .legacy ++ (Rlp.array vs).write, by decide +kernel, ?_⟩
  have e : (Rlp.array vs).write.length = 11 := by decide +kernel
  rw [txDecode_array limit chain .legacy _ rfl (by rw [e]; omega) (by rw [e]; decide)]
  rfl

/-- **C52, violated.** A string of nine bytes counts as a transaction of nine elements;
taking the first of them throws, and nothing catches it. -/
theorem C52_string_violated (limit : Nat) (hl : 100 ≤ limit) (chain : UInt64) :
    txDecode limit chain (0x89 :: List.replicate 9 0) = .throws := by
  have e : (Rlp.buffer (List.replicate 9 0)).write = 0x89 :: List.replicate 9 0 := by decide +kernel
  have hd := rlpDecode_write limit (.buffer (List.replicate 9 0)) (by rw [e]; simp; omega)
    (by rw [e]; decide)
  rw [e] at hd
  have ht : txType (0x89 :: List.replicate 9 0) = (.legacy, 0x89 :: List.replicate 9 0) := by decide
  unfold txDecode checkTxDecode
  rw [if_neg (by simp)]
  simp only [ht, hd]
  rfl

/-- **C52, violated.** An access list entry of one element throws as well. -/
theorem C52_access_violated (limit : Nat) (hl : 100 ≤ limit) (chain : UInt64) :
    ∃ bs : Bytes, txDecode limit chain bs = .throws := by
  let vs := numberRlp (.ofU64 chain) :: List.replicate 6 (Rlp.buffer []) ++ [.array [.array []]] ++
    List.replicate 3 (.buffer [])
  have hn : (numberRlp (.ofU64 chain)).write.length ≤ 33 := by
    have h8 : ((Word.ofU64 chain).val.dropWhile (· == 0)).length ≤ 32 := by
      have := (List.dropWhile_sublist (p := (· == (0 : UInt8))) (l := (Word.ofU64 chain).val)).length_le
      rw [(Word.ofU64 chain).2] at this
      exact this
    unfold numberRlp makeRlp
    simp only [if_true]
    generalize (Word.ofU64 chain).val.dropWhile (· == 0) = b at h8
    rw [Rlp.write]
    unfold writeBuffer
    split
    · split <;> simp [serializeLength]
    · rw [List.length_append]
      unfold serializeLength
      rw [if_pos (by omega)]
      simp; omega
  have e : (Rlp.array vs).write.length ≤ 50 := by
    have hw : Rlp.writeAll vs = (numberRlp (.ofU64 chain)).write ++
        Rlp.writeAll (List.replicate 6 (Rlp.buffer []) ++ [.array [.array []]] ++
          List.replicate 3 (.buffer [])) := rfl
    have h11 : (Rlp.writeAll (List.replicate 6 (Rlp.buffer []) ++ [.array [.array []]] ++
        List.replicate 3 (.buffer []))).length = 11 := by decide +kernel
    have hwl : (Rlp.writeAll vs).length ≤ 44 := by
      rw [hw, List.length_append, h11]; omega
    rw [Rlp.write, List.length_append]
    unfold serializeLength
    rw [if_pos (by omega)]
    simp; omega
  refine ⟨typeByte .accessList ++ (Rlp.array vs).write, ?_⟩
  rw [txDecode_array limit chain .accessList _ rfl (by omega) (by omega)]
  simp only [decodeFields, vs, Rlp.valueAt, Rlp.values, List.cons_append, List.getElem?_cons_zero,
    Outcome.bind_ok, value_number, toU64_ofU64, reduceCtorEq, if_false, Bool.not_true, beq_self_eq_true,
    Bool.false_eq_true]
  rfl

/-! ### Transactions of the expected shape -/

/-- The number of elements of a transaction. -/
def elementsOf : TxType → Nat
  | .legacy => 9
  | .accessList => 11
  | .dynamicFee => 12

/-- Where the destination is among the elements; the value, the input and the access list
follow. -/
def toAt : TxType → Nat
  | .legacy => 3
  | .accessList => 4
  | .dynamicFee => 5

/-- Access lists of pairs of an address and an array of words. -/
def ListShaped (v : Rlp) : Prop :=
  ∀ t ∈ v.values, ∃ a ks, t = .array [a, .array ks] ∧ a.buf.length ≤ 20 ∧
    ∀ k ∈ ks, k.buf.length ≤ 32

/-- Arrays whose elements have the lengths which the format prescribes. -/
structure Shaped (type : TxType) (vs : List Rlp) : Prop where
  count : vs.length = elementsOf type
  words : ∀ (i : Nat) (v : Rlp), vs[i]? = some v → i ≠ toAt type + 2 → v.buf.length ≤ 32
  to : ∀ v : Rlp, vs[toAt type]? = some v → v.buf.length ≤ 20
  input : ∀ v : Rlp, vs[toAt type + 2]? = some v → ∃ b, v = .buffer b
  list : type ≠ .legacy → ∀ v : Rlp, vs[toAt type + 3]? = some v → ListShaped v

/-- A result or a refusal. -/
def Outcome.Safe {α : Type} (x : Outcome α) : Prop := x = .refused ∨ ∃ a, x = .ok a

theorem safe_ok {α : Type} (a : α) : (Outcome.ok a).Safe := .inr ⟨a, rfl⟩
theorem safe_refused {α : Type} : (Outcome.refused : Outcome α).Safe := .inl rfl

theorem safe_bind {α β : Type} {x : Outcome α} {f : α → Outcome β} (hx : x.Safe)
    (hf : ∀ a, (f a).Safe) : (x >>= f).Safe := by
  rcases hx with h | ⟨a, h⟩
  · rw [h]; exact .inl rfl
  · rw [h]; exact hf a

theorem safe_bind2 {α β γ : Type} {x : Outcome α} {g : α → Outcome β} {k : β → Outcome γ}
    (hx : (x >>= g).Safe) (hk : ∀ b, (k b).Safe) : (x >>= fun a => g a >>= k).Safe := by
  rw [← bind_assoc]
  exact safe_bind hx hk

theorem safe_value {n : Nat} {v : Rlp} (h : v.buf.length ≤ n) : (v.value n).Safe := by
  unfold Rlp.value
  rw [dif_pos h]
  exact safe_ok _

theorem safe_mapM {α β : Type} (f : α → Outcome β) (l : List α) (h : ∀ a ∈ l, (f a).Safe) :
    (l.mapM f).Safe := by
  induction l with
  | nil => exact safe_ok _
  | cons a l ih =>
    rw [List.mapM_cons]
    exact safe_bind (h a List.mem_cons_self) fun _ =>
      safe_bind (ih fun b hb => h b (List.mem_cons_of_mem _ hb)) fun _ => safe_ok _

theorem safe_to {v : Rlp} (h : v.buf.length ≤ 20) : (decodeTo v).Safe := by
  unfold decodeTo
  split
  · exact safe_bind (safe_value h) fun _ => safe_ok _
  · exact safe_ok _

theorem safe_list {v : Rlp} (h : ListShaped v) : (decodeAccessList v).Safe := by
  unfold decodeAccessList
  split
  · exact safe_ok _
  · rename_i vs
    refine safe_mapM _ _ fun t ht => ?_
    obtain ⟨a, ks, rfl, ha, hk⟩ := h t ht
    unfold decodeTuple
    refine safe_bind (safe_value ha) fun addr => ?_
    have e : (Rlp.array [a, .array ks]).valueAt 1 = .ok (.array ks) := rfl
    simp only [e, Outcome.bind_ok]
    refine safe_bind (safe_mapM _ _ fun j hj => ?_) fun _ => safe_ok _
    have hj : j < ks.length := List.mem_range.mp hj
    have e2 : (Rlp.array ks).valueAt j = .ok ks[j] := by
      unfold Rlp.valueAt Rlp.values
      simp only [List.getElem?_eq_getElem hj]
    rw [e2, Outcome.bind_ok]
    exact safe_value (hk _ (List.getElem_mem hj))

theorem safe_ite {c : Bool} {α : Type} {f : PUnit → Outcome α} {y : Outcome α} (h : y.Safe) :
    (if c = true then Outcome.refused >>= f else y).Safe := by
  cases c
  · exact h
  · exact safe_refused

/-- **C52, partial.** Transactions whose elements have the lengths which the format
prescribes are decoded or refused: nothing outside a buffer is touched and nothing
throws.  What is missing are the others (`C52_field_violated`, `C52_input_violated`,
`C52_string_violated`, `C52_access_violated`). -/
theorem C52_shaped_partial (limit : Nat) (chain : UInt64) (type : TxType) (vs : List Rlp)
    (h : Shaped type vs) (hl : (Rlp.array vs).write.length ≤ limit)
    (h64 : (Rlp.array vs).write.length < 2 ^ 64) :
    (txDecode limit chain (typeByte type ++ (Rlp.array vs).write)).Safe := by
  obtain ⟨hc, hw, hto, hin, hli⟩ := h
  rw [txDecode_array limit chain type vs (by cases type <;> simp_all [isValidRlpTx, Rlp.size, elementsOf])
    hl h64]
  have at' : ∀ i, (hi : i < vs.length) → (Rlp.array vs).valueAt i = .ok vs[i] := by
    intro i hi
    unfold Rlp.valueAt Rlp.values
    simp only [List.getElem?_eq_getElem hi]
  have word : ∀ i, (hi : i < vs.length) → i ≠ toAt type + 2 →
      ((Rlp.array vs).valueAt i >>= fun v => v.value 32).Safe := by
    intro i hi hne
    rw [at' i hi, Outcome.bind_ok]
    exact safe_value (hw i _ (List.getElem?_eq_getElem hi) hne)
  have dest : ((Rlp.array vs).valueAt (toAt type) >>= decodeTo).Safe := by
    have hi : toAt type < vs.length := by rw [hc]; cases type <;> decide
    rw [at' _ hi, Outcome.bind_ok]
    exact safe_to (hto _ (List.getElem?_eq_getElem hi))
  have data : ((Rlp.array vs).valueAt (toAt type + 2) >>= decodeData).Safe := by
    have hi : toAt type + 2 < vs.length := by rw [hc]; cases type <;> decide
    rw [at' _ hi, Outcome.bind_ok]
    obtain ⟨b, hb⟩ := hin _ (List.getElem?_eq_getElem hi)
    rw [hb, decodeData_write]
    exact safe_ok _
  have list : type ≠ .legacy → ((Rlp.array vs).valueAt (toAt type + 3) >>= decodeAccessList).Safe := by
    intro hne
    have hi : toAt type + 3 < vs.length := by rw [hc]; cases type <;> decide
    rw [at' _ hi, Outcome.bind_ok]
    exact safe_list (hli hne _ (List.getElem?_eq_getElem hi))
  generalize Rlp.array vs = t at *
  unfold decodeFields
  cases type <;> simp only [elementsOf, toAt] at *
  · simp only [if_true, Outcome.bind_ok, Bool.not_true, Bool.false_eq_true, if_false, reduceCtorEq,
      Nat.zero_add, Nat.reduceAdd]
    refine safe_bind2 (word 0 (by omega) (by decide)) fun _ => ?_
    refine safe_bind2 (word 1 (by omega) (by decide)) fun _ => ?_
    refine safe_bind2 (word 2 (by omega) (by decide)) fun _ => ?_
    refine safe_bind2 dest fun _ => ?_
    refine safe_bind2 (word 4 (by omega) (by decide)) fun _ => ?_
    refine safe_bind2 data fun _ => ?_
    refine safe_bind2 (word 6 (by omega) (by decide)) fun _ => ?_
    refine safe_ite ?_
    refine safe_bind2 (word 7 (by omega) (by decide)) fun _ => ?_
    refine safe_bind2 (word 8 (by omega) (by decide)) fun _ => ?_
    exact safe_ok _
  · simp only [Outcome.bind_ok, Bool.not_true, Bool.false_eq_true, if_false, reduceCtorEq,
      Nat.zero_add, Nat.reduceAdd, decide_false, Bool.false_and]
    refine safe_bind2 (word 0 (by omega) (by decide)) fun _ => ?_
    refine safe_ite ?_
    refine safe_bind2 (word 1 (by omega) (by decide)) fun _ => ?_
    refine safe_bind2 (word 2 (by omega) (by decide)) fun _ => ?_
    refine safe_bind2 (word 3 (by omega) (by decide)) fun _ => ?_
    refine safe_bind2 dest fun _ => ?_
    refine safe_bind2 (word 5 (by omega) (by decide)) fun _ => ?_
    refine safe_bind2 data fun _ => ?_
    refine safe_bind2 (list (by decide)) fun _ => ?_
    refine safe_bind2 (word 8 (by omega) (by decide)) fun _ => ?_
    refine safe_bind2 (word 9 (by omega) (by decide)) fun _ => ?_
    refine safe_bind2 (word 10 (by omega) (by decide)) fun _ => ?_
    exact safe_ok _
  · simp only [if_true, Outcome.bind_ok, Bool.not_true, Bool.false_eq_true, if_false, reduceCtorEq,
      Nat.zero_add, Nat.reduceAdd, decide_false, Bool.false_and]
    refine safe_bind2 (word 0 (by omega) (by decide)) fun _ => ?_
    refine safe_ite ?_
    refine safe_bind2 (word 1 (by omega) (by decide)) fun _ => ?_
    refine safe_bind2 (word 2 (by omega) (by decide)) fun _ => ?_
    refine safe_bind2 (word 3 (by omega) (by decide)) fun _ => ?_
    refine safe_bind2 (word 4 (by omega) (by decide)) fun _ => ?_
    refine safe_bind2 dest fun _ => ?_
    refine safe_bind2 (word 6 (by omega) (by decide)) fun _ => ?_
    refine safe_bind2 data fun _ => ?_
    refine safe_bind2 (list (by decide)) fun _ => ?_
    refine safe_bind2 (word 9 (by omega) (by decide)) fun _ => ?_
    refine safe_bind2 (word 10 (by omega) (by decide)) fun _ => ?_
    refine safe_bind2 (word 11 (by omega) (by decide)) fun _ => ?_
    exact safe_ok _

end Verif.Evm
