import Verif.Crypto.Random
import Verif.Crypto.Sha256Props
import Verif.Serial.Lemmas

/-!
# Lemmas about the source of random numbers
-/

namespace Verif.Sha256

open Verif.Serial (encInt leNat encInt_length)

/-- What has been written to the member, paddings included, before the `n`-th hash. -/
def pre (seed : List UInt8) : Nat → List UInt8
  | 0 => seed
  | n + 1 => padded (pre seed n ++ encInt 8 n)

theorem length_pre {seed : List UInt8} (hs : seed.length = 32) (n : Nat) :
    (pre seed (n + 1)).length = 64 * (n + 1) := by
  have len : ∀ m : List UInt8, (padded m).length = m.length + (1 + (119 - m.length % 64) % 64) + 8 := by
    intro m
    unfold padded
    rw [List.length_append, List.length_append, length_bigEndian, List.length_take]
    simp only [pad, List.length_cons, List.length_replicate]
    omega
  induction n with
  | zero =>
    rw [pre, len, List.length_append, encInt_length, pre]
    omega
  | succ n ih =>
    rw [pre, len, List.length_append, encInt_length, ih]
    omega

theorem length_pre_le {seed : List UInt8} (hs : seed.length = 32) (n : Nat) :
    (pre seed n).length ≤ 64 * n + 32 := by
  cases n with
  | zero => rw [pre]; omega
  | succ n => rw [length_pre hs]; omega

/-- The bytes of eight words. -/
def outWords (e : Spec.Eight) : List UInt8 :=
  [e.a, e.b, e.c, e.d, e.e, e.f, e.g, e.h].flatMap (fun w => Spec.bigEndian 4 w.toNat)

/-- The `n`-th hash. -/
def blk (seed : List UInt8) (n : Nat) : List UInt8 :=
  outWords (Spec.absorb K initial.spec (pre seed (n + 1)))

theorem length_blk (seed : List UInt8) (n : Nat) : (blk seed n).length = 32 := by
  simp [blk, outWords, length_bigEndian]

theorem blk_sha256 {seed : List UInt8} (hs : seed.length = 32) {n : Nat} (hn : n < 2 ^ 54) :
    Spec.IsSha256 (pre seed n ++ encInt 8 n) (blk seed n) := by
  obtain ⟨ha, hb, hc, hd, he, hf, hg, hh⟩ := initial_rootBits
  have := length_pre_le hs n
  exact ⟨K, initial.spec, _, consts_rootBits, ha, hb, hc, hd, he, hf, hg, hh, padded_spec _,
    by rw [List.length_append, encInt_length]; omega, rfl⟩

/-- The first `n` hashes in a row. -/
def stream (seed : List UInt8) (n : Nat) : List UInt8 := (List.range n).flatMap (blk seed)

theorem stream_succ (seed : List UInt8) (n : Nat) :
    stream seed (n + 1) = stream seed n ++ blk seed n := by
  simp [stream, List.range_succ]

theorem length_stream (seed : List UInt8) (n : Nat) : (stream seed n).length = 32 * n := by
  induction n with
  | zero => rfl
  | succ n ih => rw [stream_succ, List.length_append, ih, length_blk]; omega

theorem stream_take (seed : List UInt8) (n d : Nat) :
    (stream seed (n + d)).take (32 * n) = stream seed n := by
  induction d with
  | zero => rw [Nat.add_zero, List.take_of_length_le (by rw [length_stream]; omega)]
  | succ d ih =>
    rw [← Nat.add_assoc, stream_succ, List.take_append_of_le_length (by rw [length_stream]; omega), ih]

/-- The source after `k` bytes, `c` hashes having been made. -/
structure After (seed : List UInt8) (s : Source) (k c : Nat) : Prop where
  counter : s.counter.toNat = c
  holds : Holds s.sha (pre seed c)
  buf : s.buf = (stream seed c).drop k
  le : k ≤ 32 * c
  lt : 32 * c < k + 32

theorem after_nextByte {seed : List UInt8} (hs : seed.length = 32) {s : Source} {k c : Nat}
    (h : After seed s k c) (hk : k < 2 ^ 54) :
    ∃ s' b c', s.nextByte = some (s', b) ∧ After seed s' (k + 1) c' ∧
      (stream seed c')[k]? = some b := by
  have hc := h.counter
  have hbuf := h.buf
  have hle := h.le
  have hlt := h.lt
  rcases Nat.lt_or_ge k (32 * c) with hlt' | hge
  · have hk' : k < (stream seed c).length := by rw [length_stream]; exact hlt'
    rw [List.drop_eq_getElem_cons hk'] at hbuf
    refine ⟨{ s with buf := (stream seed c).drop (k + 1) }, _, c, ?_, ?_,
      List.getElem?_eq_getElem hk'⟩
    · rw [Source.nextByte, hbuf]
    · exact ⟨hc, h.holds, rfl, by omega, by omega⟩
  · obtain rfl : k = 32 * c := by omega
    rw [List.drop_eq_nil_of_le (by rw [length_stream]; omega)] at hbuf
    have hpl := length_pre_le hs c
    obtain ⟨x, hx, hh⟩ := holds_write h.holds (encInt 8 c) (by rw [encInt_length]; omega)
    obtain ⟨y, hy, hyy⟩ := holds_finalize hh (by rw [List.length_append, encInt_length]; omega)
    have hout : y.s.out = blk seed c := by
      rw [out_spec, hyy.hash]
      rfl
    have hl := length_blk seed c
    obtain ⟨b, rest, hbr⟩ : ∃ b rest, blk seed c = b :: rest := by
      cases e : blk seed c with
      | nil => rw [e] at hl; simp at hl
      | cons b rest => exact ⟨b, rest, rfl⟩
    have hhash : s.hashAtIndex s.counter = some ({ s with sha := y }, b :: rest) := by
      unfold Source.hashAtIndex
      rw [hc, hx]
      dsimp only
      rw [hy, hout, hbr]
    refine ⟨{ s with
        sha := y
        buf := rest
        counter := s.counter + 1 }, b, c + 1, ?_, ?_, ?_⟩
    · rw [Source.nextByte, hbuf]
      dsimp only
      rw [hhash]
    · refine ⟨?_, hyy, ?_, by omega, by omega⟩
      · dsimp only
        rw [UInt64.toNat_add, hc]
        show (c + 1) % 2 ^ 64 = c + 1
        omega
      · dsimp only
        rw [stream_succ, hbr, List.drop_append, length_stream,
          List.drop_eq_nil_of_le (by rw [length_stream]; omega)]
        rw [show 32 * c + 1 - 32 * c = 1 by omega]
        rfl
    · rw [stream_succ, hbr, List.getElem?_append_right (by rw [length_stream]; omega), length_stream]
      simp

/-- The source of bytes gives the hashes in a row. -/
theorem after_bytes {seed : List UInt8} (hs : seed.length = 32) (n : Nat) :
    ∀ {s : Source} {k c : Nat}, After seed s k c → k + n < 2 ^ 54 →
    ∃ s' bs c', s.bytes n = some (s', bs) ∧ After seed s' (k + n) c' ∧
      bs = ((stream seed c').drop k).take n ∧ c ≤ c' := by
  induction n with
  | zero =>
    intro s k c h _
    exact ⟨s, [], c, rfl, h, by simp, Nat.le_refl _⟩
  | succ n ih =>
    intro s k c h hk
    obtain ⟨s', b, c', h1, h2, h3⟩ := after_nextByte hs h (by omega)
    obtain ⟨s'', bs, c'', h4, h5, h6, h7⟩ := ih h2 (by omega)
    refine ⟨s'', b :: bs, c'', ?_, by rw [show k + (n + 1) = k + 1 + n by omega]; exact h5, ?_, ?_⟩
    · rw [Source.bytes, h1]
      dsimp only
      rw [h4]
    · have hkl : k < (stream seed c'').length := by
        rw [length_stream]
        have := h5.le
        omega
      have hk' : k < 32 * c' := by
        have := h2.le
        omega
      have e : (stream seed c'')[k]? = some b := by
        rw [← h3, ← stream_take seed c' (c'' - c'), List.getElem?_take, if_pos hk']
        congr 2
        omega
      rw [List.getElem?_eq_getElem hkl] at e
      rw [List.drop_eq_getElem_cons hkl, List.take_succ_cons, ← h6, Option.some.inj e]
    · have a1 := h.lt
      have a2 := h2.le
      omega

theorem leNat_four {bs : List UInt8} (h : bs.length = 4) :
    encInt 4 (UInt32.ofNat (leNat bs)).toNat = bs := by
  have hlt := Verif.Serial.leNat_lt bs
  rw [h] at hlt
  rw [UInt32.toNat_ofNat', Nat.mod_eq_of_lt (by omega), ← h]
  exact Verif.Serial.encInt_leNat bs

theorem after_calls {seed : List UInt8} (hs : seed.length = 32) (n : Nat) :
    ∀ {s : Source} {k c : Nat}, After seed s k c → k + 4 * n < 2 ^ 54 →
    ∃ s' ws c', s.calls n = some (s', ws) ∧ ws.length = n ∧ After seed s' (k + 4 * n) c' ∧ c ≤ c' ∧
      ws.flatMap (fun w => encInt 4 w.toNat) = ((stream seed c').drop k).take (4 * n) := by
  induction n with
  | zero =>
    intro s k c h _
    exact ⟨s, [], c, rfl, rfl, h, Nat.le_refl _, by simp⟩
  | succ n ih =>
    intro s k c h hk
    obtain ⟨s', bs, c', h1, h2, h3, hcc⟩ := after_bytes hs 4 h (by omega)
    obtain ⟨s'', ws, c'', h4, h5, h6, h7, h8⟩ := ih h2 (by omega)
    have hle := h2.le
    have e : bs = ((stream seed c'').drop k).take 4 := by
      rw [h3, ← stream_take seed c' (c'' - c'), List.drop_take, List.take_take,
        Nat.min_eq_left (by omega)]
      congr 3
      omega
    have hle' := h6.le
    have hbl : bs.length = 4 := by
      rw [e, List.length_take, List.length_drop, length_stream]
      omega
    refine ⟨s'', UInt32.ofNat (leNat bs) :: ws, c'', ?_, by simp [h5], ?_, by omega, ?_⟩
    · rw [Source.calls, Source.call, h1]
      dsimp only
      rw [h4]
    · rw [show k + 4 * (n + 1) = k + 4 + 4 * n by omega]
      exact h6
    · rw [List.flatMap_cons, leNat_four hbl, h8, e]
      rw [show 4 * (n + 1) = 4 + 4 * n by omega, List.take_add, List.drop_drop]

theorem after_new {seed memory : List UInt8} (hm : memory.length = 64) (hs : seed.length = 32)
    (ndebug : Bool) (more : List UInt8) :
    ∃ s, Source.new ndebug (some (seed ++ more)) memory = .made s ∧ After seed s 0 0 := by
  obtain ⟨x, hx, hh⟩ := holds_write (holds_new hm) seed (by simp only [List.length_nil]; omega)
  rw [List.nil_append] at hh
  refine ⟨⟨[], x, 0⟩, ?_, ⟨rfl, hh, rfl, by omega, by omega⟩⟩
  have ht : (seed ++ more).take 32 = seed := by
    rw [List.take_append_of_le_length (by omega), List.take_of_length_le (by omega)]
  have hg : ((some (seed ++ more)).getD []).take 32 = seed := ht
  unfold Source.new
  rw [if_neg (by simp)]
  dsimp only
  rw [hg, if_neg (by simp [hs]), hs]
  simp only [Nat.sub_self, List.replicate_zero, List.append_nil]
  rw [hx]

end Verif.Sha256
