/-!
# SHA-256 as the standard defines it (FIPS 180-4)

Written from the standard and not from the code: the functions of section 4.1.2, the constants of
section 4.2.2 as what they are (the fractional parts of roots of primes), the padding of section
5.1.1, the initial value of section 5.3.3, and the computation of section 6.2.2.
-/

namespace Verif.Sha256.Spec

/-- `ROTR` (FIPS 180-4, section 3.2). -/
def rotr (n : UInt32) (x : UInt32) : UInt32 := (x >>> n) ||| (x <<< (32 - n))

/-- `Ch`, equation (4.2). -/
def Ch (x y z : UInt32) : UInt32 := (x &&& y) ^^^ (~~~x &&& z)

/-- `Maj`, equation (4.3). -/
def Maj (x y z : UInt32) : UInt32 := (x &&& y) ^^^ (x &&& z) ^^^ (y &&& z)

/-- Equation (4.4). -/
def Sum0 (x : UInt32) : UInt32 := rotr 2 x ^^^ rotr 13 x ^^^ rotr 22 x

/-- Equation (4.5). -/
def Sum1 (x : UInt32) : UInt32 := rotr 6 x ^^^ rotr 11 x ^^^ rotr 25 x

/-- Equation (4.6). -/
def sig0 (x : UInt32) : UInt32 := rotr 7 x ^^^ rotr 18 x ^^^ (x >>> 3)

/-- Equation (4.7). -/
def sig1 (x : UInt32) : UInt32 := rotr 17 x ^^^ rotr 19 x ^^^ (x >>> 10)

/-- Being a prime number. -/
def Prime (p : Nat) : Prop := 2 ≤ p ∧ ∀ d, d < p → 2 ≤ d → p % d ≠ 0

instance (p : Nat) : Decidable (Prime p) := by unfold Prime; infer_instance

/-- The first 64 prime numbers: those below 312. -/
def primes : List Nat := (List.range 312).filter (fun p => decide (Prime p))

/-- `k` is the first 32 bits of the fractional part of the `n`-th root of `p`: with `i` the whole
part of the root, `i + k / 2³²` is at most the root and `i + (k + 1) / 2³²` is more. -/
def RootBits (n p : Nat) (k : UInt32) : Prop :=
  ∃ i, i ^ n ≤ p ∧ p < (i + 1) ^ n ∧
    (i * 2 ^ 32 + k.toNat) ^ n ≤ p * 2 ^ (32 * n) ∧
    p * 2 ^ (32 * n) < (i * 2 ^ 32 + k.toNat + 1) ^ n

/-- The working variables and the hash value: eight words. -/
structure Eight where
  a : UInt32
  b : UInt32
  c : UInt32
  d : UInt32
  e : UInt32
  f : UInt32
  g : UInt32
  h : UInt32
deriving DecidableEq, Repr

/-- The `t`-th word of a block of 64 bytes, most significant byte first (section 5.2.1). -/
def M (block : List UInt8) (t : Nat) : UInt32 :=
  UInt32.ofNat (((block.drop (4 * t)).take 4).foldl (fun n b => 256 * n + b.toNat) 0)

/-- The message schedule, step 1 of section 6.2.2. -/
def W (block : List UInt8) (t : Nat) : UInt32 :=
  if t < 16 then M block t
  else sig1 (W block (t - 2)) + W block (t - 7) + sig0 (W block (t - 15)) + W block (t - 16)

/-- One round, step 3 of section 6.2.2. -/
def round (K w : UInt32) (v : Eight) : Eight :=
  let T1 := v.h + Sum1 v.e + Ch v.e v.f v.g + K + w
  let T2 := Sum0 v.a + Maj v.a v.b v.c
  ⟨T1 + T2, v.a, v.b, v.c, v.d + T1, v.e, v.f, v.g⟩

/-- The first `t` rounds. -/
def rounds (K : Nat → UInt32) (block : List UInt8) (v : Eight) : Nat → Eight
  | 0 => v
  | t + 1 => round (K t) (W block t) (rounds K block v t)

/-- The hash value after a block, steps 2 to 4 of section 6.2.2. -/
def compress (K : Nat → UInt32) (H : Eight) (block : List UInt8) : Eight :=
  let v := rounds K block H 64
  ⟨v.a + H.a, v.b + H.b, v.c + H.c, v.d + H.d, v.e + H.e, v.f + H.f, v.g + H.g, v.h + H.h⟩

/-- The hash value after a message that is a whole number of blocks. -/
def absorb (K : Nat → UInt32) (H : Eight) (msg : List UInt8) : Eight :=
  if msg.length < 64 then H else absorb K (compress K H (msg.take 64)) (msg.drop 64)
termination_by msg.length
decreasing_by simp; omega

/-- A number as `n` bytes, most significant first. -/
def bigEndian : Nat → Nat → List UInt8
  | 0, _ => []
  | n + 1, x => bigEndian n (x / 256) ++ [UInt8.ofNat (x % 256)]

/-- The message with the padding of section 5.1.1: a one bit, then as few zero bits as make a whole
number of blocks together with the length in bits as 64 bits. -/
def Padded (msg p : List UInt8) : Prop :=
  ∃ k, k < 64 ∧ p = msg ++ [0x80] ++ List.replicate k 0 ++ bigEndian 8 (8 * msg.length) ∧
    p.length % 64 = 0

/-- `digest` is the SHA-256 of `msg`: for the constants `K` of section 4.2.2 and the initial hash
value of section 5.3.3.  The standard defines it for messages of fewer than `2⁶⁴` bits. -/
def IsSha256 (msg digest : List UInt8) : Prop :=
  ∃ (K : Nat → UInt32) (H : Eight) (p : List UInt8),
    (∀ t, t < 64 → RootBits 3 (primes.getD t 0) (K t)) ∧
    RootBits 2 2 H.a ∧ RootBits 2 3 H.b ∧ RootBits 2 5 H.c ∧ RootBits 2 7 H.d ∧
    RootBits 2 11 H.e ∧ RootBits 2 13 H.f ∧ RootBits 2 17 H.g ∧ RootBits 2 19 H.h ∧
    Padded msg p ∧
    8 * msg.length < 2 ^ 64 ∧
    digest = [(absorb K H p).a, (absorb K H p).b, (absorb K H p).c, (absorb K H p).d,
      (absorb K H p).e, (absorb K H p).f, (absorb K H p).g, (absorb K H p).h].flatMap
        (fun w => bigEndian 4 w.toNat)

end Verif.Sha256.Spec
