import Verif.Crypto.RandomLemmas

/-!
# C115: what the source of random numbers gives out

The header says: "After initial setup, random_source uses SHA256 to generate further random numbers
using a counter" (`src/util/common/random_source.hpp:20-25`).  Read literally the `n`-th block of
output is the SHA-256 of the seed and `n`.  That is so for the first block.  For the others it is not:
`hash_at_index` finalizes the member and goes on writing to it, so that each block is computed from
the block before it and from nothing secret.
-/

namespace Verif.Sha256

open Verif.Serial (encInt leNat encInt_length)

/-- The message whose SHA-256 is the `n`-th block: the seed and zero; then each time the message
before with its padding, and the counter as eight bytes, least significant first. -/
inductive Chain (seed : List UInt8) : Nat → List UInt8 → Prop
  | zero : Chain seed 0 (seed ++ encInt 8 0)
  | succ {n : Nat} {m p : List UInt8} : Chain seed n m → Spec.Padded m p →
      Chain seed (n + 1) (p ++ encInt 8 (n + 1))

theorem chain_pre (seed : List UInt8) (n : Nat) : Chain seed n (pre seed n ++ encInt 8 n) := by
  induction n with
  | zero => exact .zero
  | succ n ih => exact .succ ih (padded_spec _)

/-- `blocks` are the first blocks of the chain that starts with the seed. -/
def Blocks (seed : List UInt8) (blocks : List (List UInt8)) : Prop :=
  ∀ i b, blocks[i]? = some b → ∃ m, Chain seed i m ∧ Spec.IsSha256 m b

theorem blocks_blk {seed : List UInt8} (hs : seed.length = 32) {n : Nat} (hn : n < 2 ^ 54) :
    Blocks seed ((List.range n).map (blk seed)) := by
  intro i b h
  rw [List.getElem?_map] at h
  rcases Nat.lt_or_ge i n with hi | hi
  · rw [List.getElem?_range hi] at h
    simp only [Option.map_some, Option.some.injEq] at h
    subst h
    exact ⟨_, chain_pre seed i, blk_sha256 hs (by omega)⟩
  · rw [List.getElem?_eq_none (by rw [List.length_range]; exact hi)] at h
    simp at h

theorem stream_flatten (seed : List UInt8) (n : Nat) :
    stream seed n = ((List.range n).map (blk seed)).flatten := rfl

/-- The numbers given out, by whichever threads, in the order of the calls: their bytes are those of
the blocks, in order, none left out and none given twice. -/
theorem C115_stream (seed more memory : List UInt8) (ndebug : Bool) (hm : memory.length = 64)
    (hs : seed.length = 32) (n : Nat) (hn : 4 * n < 2 ^ 54) :
    ∃ s s' ws blocks, Source.new ndebug (some (seed ++ more)) memory = .made s ∧
      s.calls n = some (s', ws) ∧ ws.length = n ∧ Blocks seed blocks ∧
      4 * n ≤ blocks.flatten.length ∧
      ws.flatMap (fun w => encInt 4 w.toNat) = blocks.flatten.take (4 * n) := by
  obtain ⟨s, h1, h2⟩ := after_new hm hs ndebug more
  obtain ⟨s', ws, c, h3, h4, h5, -, h6⟩ := after_calls hs n h2 (by omega)
  have hle := h5.le
  have hlt := h5.lt
  refine ⟨s, s', ws, _, h1, h3, h4, blocks_blk hs (n := c) (by omega), ?_, ?_⟩
  · rw [← stream_flatten, length_stream]
    omega
  · rw [← stream_flatten, h6, List.drop_zero]

/-- The documented rule holds for the first block, the first eight numbers. -/
theorem C115_counter_partial (seed more memory : List UInt8) (ndebug : Bool)
    (hm : memory.length = 64) (hs : seed.length = 32) :
    ∃ s s' ws, Source.new ndebug (some (seed ++ more)) memory = .made s ∧
      s.calls 8 = some (s', ws) ∧
      Spec.IsSha256 (seed ++ encInt 8 0) (ws.flatMap (fun w => encInt 4 w.toNat)) := by
  obtain ⟨s, h1, h2⟩ := after_new hm hs ndebug more
  obtain ⟨s', ws, c, h3, h4, h5, -, h6⟩ := after_calls hs 8 h2 (by omega)
  have hle := h5.le
  have hlt := h5.lt
  obtain rfl : c = 1 := by omega
  refine ⟨s, s', ws, h1, h3, ?_⟩
  rw [h6, List.drop_zero, List.take_of_length_le (by rw [length_stream]; omega)]
  have := blk_sha256 hs (n := 0) (by omega)
  simpa [stream, pre] using this

/-- The comparison for one seed. -/
def differ : Bool :=
  match Source.new false (some (List.replicate 32 5)) (List.replicate 64 0) with
  | .made s =>
    match s.calls 16, hashData (List.replicate 64 0) (List.replicate 32 5 ++ encInt 8 1) with
    | some (_, ws), some d => decide ((ws.drop 8).flatMap (fun w => encInt 4 w.toNat) ≠ d)
    | _, _ => false
  | _ => false

/-- It does not hold for the second block: here is a seed for which numbers 9 to 16 are not the
SHA-256 of the seed and 1. -/
theorem C115_counter_violated : ∃ (seed memory : List UInt8) (s s' : Source) (ws : List UInt32),
    seed.length = 32 ∧ memory.length = 64 ∧ Source.new false (some seed) memory = .made s ∧
    s.calls 16 = some (s', ws) ∧
    ¬ Spec.IsSha256 (seed ++ encInt 8 1) ((ws.drop 8).flatMap (fun w => encInt 4 w.toNat)) := by
  have key : ∃ s s' ws d, Source.new false (some (List.replicate 32 5)) (List.replicate 64 0) = .made s ∧
      s.calls 16 = some (s', ws) ∧
      hashData (List.replicate 64 0) (List.replicate 32 5 ++ encInt 8 1) = some d ∧
      (ws.drop 8).flatMap (fun w => encInt 4 w.toNat) ≠ d := by
    have h : differ = true := by decide +kernel
    unfold differ at h
    split at h
    · rename_i s hs
      split at h
      · rename_i hc hd
        exact ⟨s, _, _, _, hs, hc, hd, of_decide_eq_true h⟩
      · exact nomatch h
    · exact nomatch h
  obtain ⟨s, s', ws, d, h1, h2, h3, h4⟩ := key
  refine ⟨List.replicate 32 5, List.replicate 64 0, s, s', ws, by simp, by simp, h1, h2, ?_⟩
  intro h
  obtain ⟨d', h5, h6⟩ := C114_hash_data (List.replicate 64 0) (List.replicate 32 5 ++ encInt 8 1)
    (by simp) (by rw [List.length_append, encInt_length, List.length_replicate]; omega)
  rw [h3, Option.some.injEq] at h5
  subst h5
  exact h4 (C114_unique _ _ _ h h6)

/-! ## Predicting -/

/-- What follows a block: one application of the compression function of the standard to the block
itself, taken as hash value, and to a block of public bytes.  Neither the seed nor anything else is
needed. -/
def following (n : Nat) (block : List UInt8) : List UInt8 :=
  let H : Spec.Eight := ⟨Spec.M block 0, Spec.M block 1, Spec.M block 2, Spec.M block 3,
    Spec.M block 4, Spec.M block 5, Spec.M block 6, Spec.M block 7⟩
  let e := Spec.compress K H (encInt 8 (n + 1) ++ [0x80] ++ List.replicate 47 0 ++
    Spec.bigEndian 8 (8 * (64 * (n + 1) + 8)))
  [e.a, e.b, e.c, e.d, e.e, e.f, e.g, e.h].flatMap (fun w => Spec.bigEndian 4 w.toNat)

theorem M_bytes (l r : List UInt8) (t : Nat) (w : UInt32) (h : l.length = 4 * t) :
    Spec.M (l ++ Spec.bigEndian 4 w.toNat ++ r) t = w := by
  unfold Spec.M
  rw [List.append_assoc, List.drop_append, h, Nat.sub_self, List.drop_zero,
    List.drop_eq_nil_of_le (by omega), List.nil_append,
    List.take_append_of_le_length (by rw [length_bigEndian]; omega),
    List.take_of_length_le (by rw [length_bigEndian]; omega)]
  have hw := w.toNat_lt
  apply UInt32.toNat_inj.mp
  simp only [Spec.bigEndian, List.nil_append, List.cons_append, List.foldl, UInt32.toNat_ofNat',
    UInt8.toNat_ofNat']
  omega

theorem M_outWords (e : Spec.Eight) :
    (⟨Spec.M (outWords e) 0, Spec.M (outWords e) 1, Spec.M (outWords e) 2, Spec.M (outWords e) 3,
      Spec.M (outWords e) 4, Spec.M (outWords e) 5, Spec.M (outWords e) 6,
      Spec.M (outWords e) 7⟩ : Spec.Eight) = e := by
  have key : ∀ (l r : List UInt32) (w : UInt32),
      Spec.M ((l ++ w :: r).flatMap (fun w => Spec.bigEndian 4 w.toNat)) l.length = w := by
    intro l r w
    rw [List.flatMap_append, List.flatMap_cons, ← List.append_assoc]
    refine M_bytes _ _ _ _ ?_
    induction l with
    | nil => rfl
    | cons a l ih => rw [List.flatMap_cons, List.length_append, length_bigEndian, ih,
        List.length_cons]; omega
  have k0 := key [] [e.b, e.c, e.d, e.e, e.f, e.g, e.h] e.a
  have k1 := key [e.a] [e.c, e.d, e.e, e.f, e.g, e.h] e.b
  have k2 := key [e.a, e.b] [e.d, e.e, e.f, e.g, e.h] e.c
  have k3 := key [e.a, e.b, e.c] [e.e, e.f, e.g, e.h] e.d
  have k4 := key [e.a, e.b, e.c, e.d] [e.f, e.g, e.h] e.e
  have k5 := key [e.a, e.b, e.c, e.d, e.e] [e.g, e.h] e.f
  have k6 := key [e.a, e.b, e.c, e.d, e.e, e.f] [e.h] e.g
  have k7 := key [e.a, e.b, e.c, e.d, e.e, e.f, e.g] [] e.h
  unfold outWords
  simp only [List.cons_append, List.nil_append, List.length_cons, List.length_nil] at k0 k1 k2 k3 k4 k5 k6 k7
  rw [k0, k1, k2, k3, k4, k5, k6, k7]

theorem blk_following {seed : List UInt8} (hs : seed.length = 32) (n : Nat) :
    blk seed (n + 1) = following n (blk seed n) := by
  have hl := length_pre hs n
  have e : pre seed (n + 2) = pre seed (n + 1) ++ (encInt 8 (n + 1) ++ [0x80] ++
      List.replicate 47 0 ++ Spec.bigEndian 8 (8 * (64 * (n + 1) + 8))) := by
    rw [pre]
    unfold padded
    rw [List.length_append, encInt_length, hl]
    rw [show 1 + (119 - (64 * (n + 1) + 8) % 64) % 64 = 48 by omega]
    simp [pad]
  unfold following
  conv => rhs; rw [blk]
  rw [M_outWords]
  dsimp only
  rw [blk, e, absorb_append (n + 1) _ _ _ hl, absorb_long (by
    simp only [List.length_append, encInt_length, length_bigEndian, List.length_replicate,
      List.length_cons, List.length_nil]; omega)]
  rw [absorb_short (by
    simp only [List.length_drop, List.length_append, encInt_length, length_bigEndian,
      List.length_replicate, List.length_cons, List.length_nil]; omega),
    List.take_of_length_le (by
    simp only [List.length_append, encInt_length, length_bigEndian, List.length_replicate,
      List.length_cons, List.length_nil]; omega)]
  rfl

/-- Whoever has seen eight numbers in a row that begin at a multiple of eight knows every number that
follows, whatever the seed was. -/
theorem C115_predictable_violated (seed more memory : List UInt8) (ndebug : Bool)
    (hm : memory.length = 64) (hs : seed.length = 32) (n : Nat) (hn : n < 2 ^ 40) :
    ∃ s s' ws, Source.new ndebug (some (seed ++ more)) memory = .made s ∧
      s.calls (8 * (n + 2)) = some (s', ws) ∧
      (ws.drop (8 * (n + 1))).flatMap (fun w => encInt 4 w.toNat) =
        following n (((ws.drop (8 * n)).take 8).flatMap (fun w => encInt 4 w.toNat)) := by
  obtain ⟨s, h1, h2⟩ := after_new hm hs ndebug more
  obtain ⟨s', ws, c, h3, h4, h5, -, h6⟩ := after_calls hs (8 * (n + 2)) h2 (by omega)
  have hle := h5.le
  have hlt := h5.lt
  obtain rfl : c = n + 2 := by omega
  refine ⟨s, s', ws, h1, h3, ?_⟩
  have drop_flat : ∀ (l : List UInt32) (k : Nat), (l.drop k).flatMap (fun w => encInt 4 w.toNat) =
      (l.flatMap (fun w => encInt 4 w.toNat)).drop (4 * k) := by
    intro l
    induction l with
    | nil => intro k; simp
    | cons a l ih =>
      intro k
      cases k with
      | zero => simp
      | succ k =>
        have e : (encInt 4 a.toNat).drop (4 * (k + 1)) = [] :=
          List.drop_eq_nil_of_le (by rw [encInt_length]; omega)
        rw [List.drop_succ_cons, ih, List.flatMap_cons, List.drop_append, encInt_length, e,
          List.nil_append, show 4 * (k + 1) - 4 = 4 * k by omega]
  have take_flat : ∀ (l : List UInt32) (k : Nat), (l.take k).flatMap (fun w => encInt 4 w.toNat) =
      (l.flatMap (fun w => encInt 4 w.toNat)).take (4 * k) := by
    intro l
    induction l with
    | nil => intro k; simp
    | cons a l ih =>
      intro k
      cases k with
      | zero => simp
      | succ k =>
        have e : (encInt 4 a.toNat).take (4 * (k + 1)) = encInt 4 a.toNat :=
          List.take_of_length_le (by rw [encInt_length]; omega)
        rw [List.take_succ_cons, List.flatMap_cons, ih, List.flatMap_cons, List.take_append,
          encInt_length, e, show 4 * (k + 1) - 4 = 4 * k by omega]
  rw [take_flat, drop_flat, drop_flat, h6, List.drop_zero,
    List.take_of_length_le (by rw [length_stream]; omega)]
  have e1 : (stream seed (n + 2)).drop (4 * (8 * (n + 1))) = blk seed (n + 1) := by
    rw [stream_succ, List.drop_append, length_stream, List.drop_eq_nil_of_le (by
      rw [length_stream]; omega), List.nil_append, show 4 * (8 * (n + 1)) - 32 * (n + 1) = 0 by omega,
      List.drop_zero]
  have e2 : ((stream seed (n + 2)).drop (4 * (8 * n))).take (4 * 8) = blk seed n := by
    rw [stream_succ, stream_succ, List.append_assoc, List.drop_append, length_stream,
      List.drop_eq_nil_of_le (by rw [length_stream]; omega), List.nil_append,
      show 4 * (8 * n) - 32 * n = 0 by omega, List.drop_zero,
      List.take_append_of_le_length (by rw [length_blk]; omega),
      List.take_of_length_le (by rw [length_blk]; omega)]
  rw [e1, e2]
  exact blk_following hs n

/-! ## The seed -/

/-- In builds that check assertions the constructor ends only with a seed of 32 bytes, the first of
the file. -/
theorem C115_seeded (file : Option (List UInt8)) (memory : List UInt8) (s : Source)
    (h : Source.new false file memory = .made s) :
    ∃ seed more, file = some (seed ++ more) ∧ seed.length = 32 := by
  unfold Source.new at h
  cases file with
  | none => simp at h
  | some f =>
    rw [if_neg (by simp)] at h
    dsimp only at h
    split at h
    · exact nomatch h
    · rename_i h'
      refine ⟨f.take 32, f.drop 32, by rw [List.take_append_drop], ?_⟩
      simpa using h'

theorem top_byte (w : UInt32) : (encInt 4 w.toNat)[3]? = some (w >>> 24).toUInt8 := by
  have hw := w.toNat_lt
  simp only [encInt, List.getElem?_cons_succ, List.getElem?_cons_zero, Option.some.injEq]
  apply UInt8.toNat_inj.mp
  simp [Nat.shiftRight_eq_div_pow]
  try omega

theorem top_bytes (ws : List UInt32) : ∀ (j : Nat) (w : UInt32), ws[j]? = some w →
    (ws.flatMap (fun w => encInt 4 w.toNat))[4 * j + 3]? = some (w >>> 24).toUInt8 := by
  induction ws with
  | nil => intro j w h; simp at h
  | cons a ws ih =>
    intro j w h
    cases j with
    | zero =>
      simp only [List.getElem?_cons_zero, Option.some.injEq] at h
      subst h
      rw [List.flatMap_cons, List.getElem?_append_left (by rw [encInt_length]; omega)]
      exact top_byte a
    | succ j =>
      rw [List.getElem?_cons_succ] at h
      rw [List.flatMap_cons, List.getElem?_append_right (by rw [encInt_length]; omega), encInt_length]
      rw [show 4 * (j + 1) + 3 - 4 = 4 * j + 3 by omega]
      exact ih j w h

theorem after_randomHash {seed : List UInt8} (hs : seed.length = 32) {s : Source} {k c : Nat}
    (h : After seed s k c) (hk : k + 128 < 2 ^ 54) :
    ∃ s' key c', s.randomHash = some (s', key) ∧ After seed s' (k + 128) c' ∧ key.length = 32 ∧
      ∀ j, j < 32 → key[j]? = (stream seed c')[k + 4 * j + 3]? := by
  obtain ⟨s', ws, c', h1, h2, h3, -, h4⟩ := after_calls hs 32 h (by omega)
  refine ⟨s', ws.map (fun w : UInt32 => (w >>> 24).toUInt8), c', ?_, h3, ?_, ?_⟩
  · unfold Source.randomHash
    rw [h1]
  · rw [List.length_map, h2]
  · intro j hj
    have hw : ws[j]? = some ws[j] := List.getElem?_eq_getElem (by omega)
    rw [List.getElem?_map, hw, Option.map_some, ← top_bytes ws j _ hw, h4, List.getElem?_take,
      if_pos (by omega), List.getElem?_drop]
    congr 1

/-- `random_hash`, after any number of calls before it: its bytes are every fourth byte of 128 bytes
of the blocks. -/
theorem C115_hash (seed more memory : List UInt8) (ndebug : Bool) (hm : memory.length = 64)
    (hs : seed.length = 32) (n : Nat) (hn : n < 2 ^ 50) :
    ∃ s s' ws s'' key blocks, Source.new ndebug (some (seed ++ more)) memory = .made s ∧
      s.calls n = some (s', ws) ∧ s'.randomHash = some (s'', key) ∧ Blocks seed blocks ∧
      key.length = 32 ∧ ∀ j, j < 32 → ∃ b, key[j]? = some b ∧
        blocks.flatten[4 * (n + j) + 3]? = some b := by
  obtain ⟨s, h1, h2⟩ := after_new hm hs ndebug more
  obtain ⟨s', ws, c, h3, h4, h5, -, h6⟩ := after_calls hs n h2 (by omega)
  obtain ⟨s'', key, c', h7, h8, h9, h10⟩ := after_randomHash hs h5 (by omega)
  have hlt := h8.lt
  refine ⟨s, s', ws, s'', key, _, h1, h3, h7, blocks_blk hs (n := c') (by omega), h9, ?_⟩
  intro j hj
  refine ⟨key[j], List.getElem?_eq_getElem (by omega), ?_⟩
  rw [← stream_flatten, show 4 * (n + j) + 3 = 0 + 4 * n + 4 * j + 3 by omega, ← h10 j hj]
  exact List.getElem?_eq_getElem (by omega)

/-- In release builds nobody notices that the file is not there: the source starts from 32 zero
bytes, and the first key is the same in every process on every machine. -/
theorem C115_unseeded_violated : ∃ key : List UInt8, key.length = 32 ∧
    ∀ memory : List UInt8, memory.length = 64 → ∃ s s',
      Source.new true none memory = .made s ∧ s.randomHash = some (s', key) := by
  refine ⟨(List.range 32).map (fun j => (stream (List.replicate 32 0) 4)[4 * j + 3]?.getD 0), by simp, ?_⟩
  intro memory hm
  obtain ⟨s, h1, h2⟩ := after_new (seed := List.replicate 32 0) hm (by simp) true []
  obtain ⟨s', key, c', h3, h4, h5, h6⟩ := after_randomHash (by simp) h2 (by omega)
  have hle := h4.le
  have hlt := h4.lt
  obtain rfl : c' = 4 := by omega
  refine ⟨s, s', by rw [← h1]; rfl, ?_⟩
  rw [h3]
  congr 2
  apply List.ext_getElem?
  intro j
  rcases Nat.lt_or_ge j 32 with hj | hj
  · rw [h6 j hj, List.getElem?_map, List.getElem?_range hj, Option.map_some, Nat.zero_add]
    rw [List.getElem?_eq_getElem (by rw [length_stream]; omega)]
    rfl
  · rw [List.getElem?_eq_none (by omega), List.getElem?_eq_none (by simp; omega)]

/-- Nor that it is too short: the seed is then what there was, and zero bytes. -/
theorem C115_short_violated (file memory : List UInt8) (hf : file.length ≤ 32) :
    Source.new true (some file) memory =
      Source.new true (some (file ++ List.replicate (32 - file.length) 0)) memory := by
  unfold Source.new
  simp only [Bool.not_true, Bool.false_and, Bool.false_eq_true, if_false, Option.getD_some]
  rw [List.take_of_length_le hf, List.take_of_length_le (by
    rw [List.length_append, List.length_replicate]; omega)]
  rw [List.length_append, List.length_replicate, show 32 - (file.length + (32 - file.length)) = 0 by omega]
  simp

/-! ## Concrete cases -/

/-- A file of forty bytes is enough for `C115_seeded`. -/
example : ∃ s, Source.new false (some (List.replicate 40 9)) (List.replicate 64 0) = .made s := by
  obtain ⟨s, h, -⟩ := after_new (seed := List.replicate 32 9) (memory := List.replicate 64 0)
    (by simp) (by simp) false (List.replicate 8 9)
  exact ⟨s, h⟩

/-- One of thirty is not. -/
example : Source.new false (some (List.replicate 30 9)) (List.replicate 64 0) = .abort := by
  decide +kernel

/-- The second number from one seed. -/
example : ((match Source.new false (some (List.replicate 32 5)) (List.replicate 64 0) with
    | .made s => s.calls 2
    | _ => none).map (fun r : Source × List UInt32 => r.2.length)) = some 2 := by
  decide +kernel

end Verif.Sha256
