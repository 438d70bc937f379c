import Verif.Crypto.Sha256Lemmas
import Verif.Crypto.TxHash
import Verif.Serial.Lemmas

/-!
# C114: what the hash class computes is SHA-256, however the message is written

The specification is `Spec.IsSha256` (`Verif/Crypto/Sha256Spec.lean`), written from the standard.
-/

namespace Verif.Sha256

open Verif.Serial Verif.Tx

theorem isSha256_of_holds {x : Sha} {msg : List UInt8} (h : Holds x (padded msg))
    (hlen : 8 * msg.length < 2 ^ 64) : Spec.IsSha256 msg x.s.out := by
  obtain ⟨ha, hb, hc, hd, he, hf, hg, hh⟩ := initial_rootBits
  refine ⟨K, initial.spec, padded msg, consts_rootBits, ha, hb, hc, hd, he, hf, hg, hh,
    padded_spec msg, hlen, ?_⟩
  rw [out_spec, h.hash]

/-- Every message, cut into calls of `Write` in any way, on a new object (whatever the memory of its
buffer held): no call is undefined, and `Finalize` gives the SHA-256 of the message. -/
theorem C114_sha256 (memory : List UInt8) (hm : memory.length = 64) (chunks : List (List UInt8))
    (hlen : 8 * chunks.flatten.length < 2 ^ 64) :
    ∃ x y digest, (Sha.new memory).writes chunks = some x ∧ x.finalize = some (y, digest) ∧
      Spec.IsSha256 chunks.flatten digest := by
  obtain ⟨x, hx, hh⟩ := holds_writes chunks (holds_new hm) (by simp only [List.length_nil]; omega)
  rw [List.nil_append] at hh
  obtain ⟨y, hy, hy'⟩ := holds_finalize hh hlen
  exact ⟨x, y, _, hx, hy, isSha256_of_holds hy' hlen⟩

/-- The same object again after `Reset`: as good as a new one, whatever was done with it before. -/
theorem C114_reset (memory : List UInt8) (hm : memory.length = 64) (before chunks : List (List UInt8))
    (hb : 8 * before.flatten.length < 2 ^ 64) (hlen : 8 * chunks.flatten.length < 2 ^ 64) :
    ∃ w w' d x y digest,
      (Sha.new memory).writes before = some w ∧ w.finalize = some (w', d) ∧
      w'.reset.writes chunks = some x ∧ x.finalize = some (y, digest) ∧
      Spec.IsSha256 chunks.flatten digest := by
  obtain ⟨w, hw, hh⟩ := holds_writes before (holds_new hm) (by simp only [List.length_nil]; omega)
  rw [List.nil_append] at hh
  obtain ⟨w', hw', hh'⟩ := holds_finalize hh hb
  have e : w'.reset = Sha.new w'.buf := rfl
  obtain ⟨x, y, digest, h1, h2, h3⟩ := C114_sha256 w'.buf hh'.size chunks hlen
  exact ⟨w, w', _, x, y, digest, hw, hw', by rw [e]; exact h1, h2, h3⟩

/-- The same object again without `Reset` (which the class allows and `random_source` does): the
result is the SHA-256 of the first message *with its padding*, followed by the second. -/
theorem C114_again (memory : List UInt8) (hm : memory.length = 64) (first second : List (List UInt8))
    (hf : 8 * first.flatten.length < 2 ^ 64)
    (hlen : 8 * (first.flatten.length + second.flatten.length + 128) < 2 ^ 64) :
    ∃ w w' d x y digest p,
      (Sha.new memory).writes first = some w ∧ w.finalize = some (w', d) ∧
      w'.writes second = some x ∧ x.finalize = some (y, digest) ∧
      Spec.Padded first.flatten p ∧ Spec.IsSha256 (p ++ second.flatten) digest := by
  obtain ⟨w, hw, hh⟩ := holds_writes first (holds_new hm) (by simp only [List.length_nil]; omega)
  rw [List.nil_append] at hh
  obtain ⟨w', hw', hh'⟩ := holds_finalize hh hf
  have hp : (padded first.flatten).length ≤ first.flatten.length + 72 := by
    unfold padded
    rw [List.length_append, List.length_append, length_bigEndian, List.length_take]
    omega
  obtain ⟨x, hx, hxx⟩ := holds_writes second hh' (by omega)
  obtain ⟨y, hy, hyy⟩ := holds_finalize hxx (by rw [List.length_append]; omega)
  exact ⟨w, w', _, x, y, _, _, hw, hw', hx, hy, padded_spec _,
    isSha256_of_holds hyy (by rw [List.length_append]; omega)⟩

/-- `hash_data` is SHA-256. -/
theorem C114_hash_data (memory data : List UInt8) (hm : memory.length = 64)
    (hlen : 8 * data.length < 2 ^ 64) :
    ∃ digest, hashData memory data = some digest ∧ Spec.IsSha256 data digest := by
  obtain ⟨x, hx, hh⟩ := holds_write (holds_new hm) data (by simp only [List.length_nil]; omega)
  rw [List.nil_append] at hh
  obtain ⟨y, hy, hy'⟩ := holds_finalize hh hlen
  refine ⟨y.s.out, ?_, isSha256_of_holds hy' hlen⟩
  unfold hashData
  rw [hx]
  dsimp only
  rw [hy]

/-! ## The specification determines the digest -/

theorem rootBits_unique {n p : Nat} (hn : 1 ≤ n) {k k' : UInt32} (h : Spec.RootBits n p k)
    (h' : Spec.RootBits n p k') : k = k' := by
  obtain ⟨i, h1, h2, h3, h4⟩ := h
  obtain ⟨j, h1', h2', h3', h4'⟩ := h'
  have lt_of_pow {a b : Nat} (h : a ^ n < b ^ n) : a < b := by
    rcases Nat.lt_or_ge a b with hab | hab
    · exact hab
    · exact absurd (Nat.pow_le_pow_left hab n) (by omega)
  have hi : i < j + 1 := lt_of_pow (by omega)
  have hj : j < i + 1 := lt_of_pow (by omega)
  obtain rfl : i = j := by omega
  have a1 := lt_of_pow (Nat.lt_of_le_of_lt h3 h4')
  have a2 := lt_of_pow (Nat.lt_of_le_of_lt h3' h4)
  exact UInt32.toNat_inj.mp (by omega)

theorem rounds_congr {K K' : Nat → UInt32} {block : List UInt8} {v : Spec.Eight} :
    ∀ n, (∀ t, t < n → K t = K' t) → Spec.rounds K block v n = Spec.rounds K' block v n := by
  intro n
  induction n with
  | zero => intro _; rfl
  | succ n ih =>
    intro h
    rw [Spec.rounds, Spec.rounds, ih (fun t ht => h t (by omega)), h n (by omega)]

theorem compress_congr {K K' : Nat → UInt32} (h : ∀ t, t < 64 → K t = K' t) (H : Spec.Eight)
    (block : List UInt8) : Spec.compress K H block = Spec.compress K' H block := by
  unfold Spec.compress
  rw [rounds_congr 64 h]

theorem absorb_congr {K K' : Nat → UInt32} (h : ∀ t, t < 64 → K t = K' t) (n : Nat) :
    ∀ (H : Spec.Eight) (m : List UInt8), m.length < 64 * (n + 1) →
      Spec.absorb K H m = Spec.absorb K' H m := by
  induction n with
  | zero =>
    intro H m hm
    rw [absorb_short (by omega), absorb_short (by omega)]
  | succ n ih =>
    intro H m hm
    rcases Nat.lt_or_ge m.length 64 with hl | hl
    · rw [absorb_short hl, absorb_short hl]
    · rw [absorb_long hl, absorb_long hl, compress_congr h]
      exact ih _ _ (by rw [List.length_drop]; omega)

/-- The specification leaves no choice: a message has one SHA-256. -/
theorem C114_unique (msg d d' : List UInt8) (h : Spec.IsSha256 msg d) (h' : Spec.IsSha256 msg d') :
    d = d' := by
  obtain ⟨K, H, p, hK, ha, hb, hc, hd, he, hf, hg, hh, ⟨k, hk, hp, hp0⟩, -, rfl⟩ := h
  obtain ⟨K', H', p', hK', ha', hb', hc', hd', he', hf', hg', hh', ⟨k', hk', hp', hp0'⟩, -, rfl⟩ := h'
  have hKK : ∀ t, t < 64 → K t = K' t :=
    fun t ht => rootBits_unique (by omega) (hK t ht) (hK' t ht)
  have hHH : H = H' := by
    cases H
    cases H'
    simp only [Spec.Eight.mk.injEq]
    exact ⟨rootBits_unique (by omega) ha ha', rootBits_unique (by omega) hb hb',
      rootBits_unique (by omega) hc hc', rootBits_unique (by omega) hd hd',
      rootBits_unique (by omega) he he', rootBits_unique (by omega) hf hf',
      rootBits_unique (by omega) hg hg', rootBits_unique (by omega) hh hh'⟩
  have hpp : p = p' := by
    have e : k = k' := by
      rw [hp] at hp0
      rw [hp'] at hp0'
      simp only [List.length_append, List.length_cons, List.length_nil, List.length_replicate,
        length_bigEndian] at hp0 hp0'
      omega
    rw [hp, hp', e]
  subst hHH
  subst hpp
  rw [absorb_congr hKK p.length H p (by omega)]

/-! ## The identifiers -/

theorem digestOf_sha256 (memory : List UInt8) (hm : memory.length = 64) (chunks : List (List UInt8))
    (hlen : 8 * chunks.flatten.length < 2 ^ 64) :
    ∃ digest, digestOf memory chunks = some digest ∧ Spec.IsSha256 chunks.flatten digest := by
  obtain ⟨x, y, d, h1, h2, h3⟩ := C114_sha256 memory hm chunks hlen
  refine ⟨d, ?_, h3⟩
  unfold digestOf
  rw [h1]
  dsimp only
  rw [h2]

/-- The identifiers as the code computes them, for any way `c.sha` of saying "the SHA-256 of": the
id of a transaction, the UHS id of an output, the hash of an input, and the payload that sentinels
sign are the ones used everywhere else in this model. -/
theorem C114_identifiers (c : Crypto)
    (hc : ∀ m : List UInt8, 8 * m.length < 2 ^ 64 → Spec.IsSha256 m (c.sha m).val)
    (memory : List UInt8) (hm : memory.length = 64) :
    (∀ t : FullTx, 8 * (txIdPreimage t).length < 2 ^ 64 →
      txIdCode memory t = some (txId c t).val) ∧
    (∀ entropy i o, uhsIdCode memory entropy i o = some (uhsIdFromOutput c entropy i o).val) ∧
    (∀ i : Input, inputHashCode memory i = some (i.hash c).val) ∧
    (∀ t : CompactTx, 8 * (enc tCompactTx ({ t with attestations := [] } : CompactTx).wire).length
        < 2 ^ 64 → compactHashCode memory t = some (t.hash c).val) := by
  have key : ∀ (chunks : List (List UInt8)) (m : List UInt8), chunks.flatten = m →
      8 * m.length < 2 ^ 64 → digestOf memory chunks = some (c.sha m).val := by
    intro chunks m e hl
    subst e
    obtain ⟨d, h1, h2⟩ := digestOf_sha256 memory hm chunks hl
    rw [h1, C114_unique _ _ _ h2 (hc _ hl)]
  have lout : ∀ o : Output, (enc tOutput o.wire).length = 40 := by
    intro o
    show (o.commitment.val ++ encInt 8 o.value.toNat).length = 40
    rw [List.length_append, encInt_length, o.commitment.2]
  have lin : ∀ i : Input, (enc tInput i.wire).length = 80 := by
    intro i
    show ((i.prevout.txId.val ++ encInt 8 i.prevout.index.toNat) ++
      (i.prevoutData.commitment.val ++ encInt 8 i.prevoutData.value.toNat)).length = 80
    rw [List.length_append, List.length_append, List.length_append, encInt_length, encInt_length,
      i.prevout.txId.2, i.prevoutData.commitment.2]
  refine ⟨?_, ?_, ?_, ?_⟩
  · intro t hl
    exact key _ _ (by simp [txIdPreimage]) hl
  · intro entropy i o
    refine key _ _ (by simp [uhsIdPreimage]) ?_
    unfold uhsIdPreimage
    rw [List.length_append, List.length_append, encInt_length, lout, entropy.2]
    omega
  · intro i
    refine key _ _ (by simp) ?_
    rw [lin]
    omega
  · intro t hl
    exact key _ _ (by simp) hl

/-! ## Concrete cases -/

/-- `abc`, the example of the standard, in three calls of which one is empty. -/
example : digestOf (List.replicate 64 7) [[0x61], [], [0x62, 0x63]] = some
    [0xba, 0x78, 0x16, 0xbf, 0x8f, 0x01, 0xcf, 0xea, 0x41, 0x41, 0x40, 0xde, 0x5d, 0xae, 0x22, 0x23,
     0xb0, 0x03, 0x61, 0xa3, 0x96, 0x17, 0x7a, 0x9c, 0xb4, 0x10, 0xff, 0x61, 0xf2, 0x00, 0x15, 0xad] := by
  decide +kernel

/-- The two-block example of the standard, cut in the middle of a block. -/
example : digestOf (List.replicate 64 7)
    ["abcdbcdecdefdefgefghfghighijhijkijkljkl".toUTF8.toList, "mklmnlmnomnopnopq".toUTF8.toList] = some
    [0x24, 0x8d, 0x6a, 0x61, 0xd2, 0x06, 0x38, 0xb8, 0xe5, 0xc0, 0x26, 0x93, 0x0c, 0x3e, 0x60, 0x39,
     0xa3, 0x3c, 0xe4, 0x59, 0x64, 0xff, 0x21, 0x67, 0xf6, 0xec, 0xed, 0xd4, 0x19, 0xdb, 0x06, 0xc1] := by
  decide +kernel

/-- There are functions as `C114_identifiers` asks for. -/
example : ∃ c : Crypto, ∀ m : List UInt8, 8 * m.length < 2 ^ 64 → Spec.IsSha256 m (c.sha m).val := by
  have len : ∀ r : Regs, r.out.length = 32 := fun _ => rfl
  have h : ∀ m : List UInt8, ∃ d : Hash, 8 * m.length < 2 ^ 64 → Spec.IsSha256 m d.val := by
    intro m
    rcases Nat.lt_or_ge (8 * m.length) (2 ^ 64) with hm | hm
    · obtain ⟨x, -, hh⟩ := holds_write (holds_new (memory := List.replicate 64 0) (by simp)) m
        (by simp only [List.length_nil]; omega)
      rw [List.nil_append] at hh
      obtain ⟨y, -, hy⟩ := holds_finalize hh hm
      exact ⟨⟨y.s.out, len _⟩, fun _ => isSha256_of_holds hy hm⟩
    · exact ⟨⟨initial.out, len _⟩, fun h => absurd h (by omega)⟩
  exact ⟨⟨fun m => (h m).choose, fun _ => true, fun _ _ _ => true⟩, fun m => (h m).choose_spec⟩

end Verif.Sha256
