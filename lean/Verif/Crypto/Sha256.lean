/-!
# The hash function of the vendored library: `CSHA256`

Every identifier in the system (transaction ids, UHS ids, witness commitments, attestation messages,
shard routing of Parsec keys) is computed with the class `CSHA256` (`3rdparty/crypto/sha256.{h,cpp}`).
The class keeps eight words, a buffer of 64 bytes and a count of bytes; the compression function is
unrolled by hand, with the registers rotated from line to line and the message schedule kept in
sixteen variables that are overwritten.

What is modelled: the portable implementation (`sha256::Transform`), which is the one that
`Transform` (`sha256.cpp:480`) points to unless `SHA256AutoDetect` replaces it; `Write`, `Finalize`,
`Reset`, the constructor, and `hash_data`.  What is not: the SSE4 and SHA-NI versions, which
`SHA256AutoDetect` may install, and the functions for double hashes, which this project never calls.
-/

namespace Verif.Sha256

/-- The eight words of the state, also the registers of a transformation (`sha256.h:17`,
`sha256.cpp:81`). -/
structure Regs where
  a : UInt32
  b : UInt32
  c : UInt32
  d : UInt32
  e : UInt32
  f : UInt32
  g : UInt32
  h : UInt32
deriving DecidableEq, Repr

/-- `Ch` (`3rdparty/crypto/sha256.cpp:48`). -/
def ch (x y z : UInt32) : UInt32 := z ^^^ (x &&& (y ^^^ z))

/-- `Maj` (`3rdparty/crypto/sha256.cpp:49`). -/
def maj (x y z : UInt32) : UInt32 := (x &&& y) ||| (z &&& (x ||| y))

/-- `Sigma0` (`3rdparty/crypto/sha256.cpp:50`). -/
def bigSigma0 (x : UInt32) : UInt32 :=
  (x >>> 2 ||| x <<< 30) ^^^ (x >>> 13 ||| x <<< 19) ^^^ (x >>> 22 ||| x <<< 10)

/-- `Sigma1` (`3rdparty/crypto/sha256.cpp:51`). -/
def bigSigma1 (x : UInt32) : UInt32 :=
  (x >>> 6 ||| x <<< 26) ^^^ (x >>> 11 ||| x <<< 21) ^^^ (x >>> 25 ||| x <<< 7)

/-- `sigma0` (`3rdparty/crypto/sha256.cpp:52`). -/
def smallSigma0 (x : UInt32) : UInt32 :=
  (x >>> 7 ||| x <<< 25) ^^^ (x >>> 18 ||| x <<< 14) ^^^ (x >>> 3)

/-- `sigma1` (`3rdparty/crypto/sha256.cpp:53`). -/
def smallSigma1 (x : UInt32) : UInt32 :=
  (x >>> 17 ||| x <<< 15) ^^^ (x >>> 19 ||| x <<< 13) ^^^ (x >>> 10)

/-- `Round` (`3rdparty/crypto/sha256.cpp:56-62`): the new values of the two parameters passed by
reference, `d` and `h`. -/
def round (a b c d e f g h k : UInt32) : UInt32 × UInt32 :=
  let t1 := h + bigSigma1 e + ch e f g + k
  let t2 := bigSigma0 a + maj a b c
  (d + t1, t1 + t2)

/-- The call of `Round` on the `t`-th line of the unrolled transformation
(`3rdparty/crypto/sha256.cpp:84-150`): the lines pass the registers rotated by one place more each
time, and after eight lines the order is the first one again. -/
def roundCall (t : Nat) (r : Regs) (k : UInt32) : Regs :=
  match t % 8 with
  | 0 => let p := round r.a r.b r.c r.d r.e r.f r.g r.h k
         { r with
           d := p.1
           h := p.2 }
  | 1 => let p := round r.h r.a r.b r.c r.d r.e r.f r.g k
         { r with
           c := p.1
           g := p.2 }
  | 2 => let p := round r.g r.h r.a r.b r.c r.d r.e r.f k
         { r with
           b := p.1
           f := p.2 }
  | 3 => let p := round r.f r.g r.h r.a r.b r.c r.d r.e k
         { r with
           a := p.1
           e := p.2 }
  | 4 => let p := round r.e r.f r.g r.h r.a r.b r.c r.d k
         { r with
           h := p.1
           d := p.2 }
  | 5 => let p := round r.d r.e r.f r.g r.h r.a r.b r.c k
         { r with
           g := p.1
           c := p.2 }
  | 6 => let p := round r.c r.d r.e r.f r.g r.h r.a r.b k
         { r with
           f := p.1
           b := p.2 }
  | _ => let p := round r.b r.c r.d r.e r.f r.g r.h r.a k
         { r with
           e := p.1
           a := p.2 }

/-- The constants written on the 64 lines (`3rdparty/crypto/sha256.cpp:84-150`). -/
def consts : List UInt32 :=
  [0x428a2f98, 0x71374491, 0xb5c0fbcf, 0xe9b5dba5, 0x3956c25b, 0x59f111f1, 0x923f82a4, 0xab1c5ed5,
   0xd807aa98, 0x12835b01, 0x243185be, 0x550c7dc3, 0x72be5d74, 0x80deb1fe, 0x9bdc06a7, 0xc19bf174,
   0xe49b69c1, 0xefbe4786, 0x0fc19dc6, 0x240ca1cc, 0x2de92c6f, 0x4a7484aa, 0x5cb0a9dc, 0x76f988da,
   0x983e5152, 0xa831c66d, 0xb00327c8, 0xbf597fc7, 0xc6e00bf3, 0xd5a79147, 0x06ca6351, 0x14292967,
   0x27b70a85, 0x2e1b2138, 0x4d2c6dfc, 0x53380d13, 0x650a7354, 0x766a0abb, 0x81c2c92e, 0x92722c85,
   0xa2bfe8a1, 0xa81a664b, 0xc24b8b70, 0xc76c51a3, 0xd192e819, 0xd6990624, 0xf40e3585, 0x106aa070,
   0x19a4c116, 0x1e376c08, 0x2748774c, 0x34b0bcb5, 0x391c0cb3, 0x4ed8aa4a, 0x5b9cca4f, 0x682e6ff3,
   0x748f82ee, 0x78a5636f, 0x84c87814, 0x8cc70208, 0x90befffa, 0xa4506ceb, 0xbef9a3f7, 0xc67178f2]

/-- `Initialize` (`3rdparty/crypto/sha256.cpp:65-75`). -/
def initial : Regs :=
  ⟨0x6a09e667, 0xbb67ae85, 0x3c6ef372, 0xa54ff53a, 0x510e527f, 0x9b05688c, 0x1f83d9ab, 0x5be0cd19⟩

/-- `ReadBE32` at an offset (`3rdparty/crypto/common.h:56-61`). -/
def readBE32 (chunk : List UInt8) (off : Nat) : UInt32 :=
  (chunk.getD off 0).toUInt32 <<< 24 ||| (chunk.getD (off + 1) 0).toUInt32 <<< 16 |||
  (chunk.getD (off + 2) 0).toUInt32 <<< 8 ||| (chunk.getD (off + 3) 0).toUInt32

/-- `WriteBE32` (`3rdparty/crypto/common.h:70-74`). -/
def writeBE32 (x : UInt32) : List UInt8 :=
  [(x >>> 24).toUInt8, (x >>> 16).toUInt8, (x >>> 8).toUInt8, x.toUInt8]

/-- `WriteBE64` (`3rdparty/crypto/common.h:76-80`). -/
def writeBE64 (x : UInt64) : List UInt8 :=
  [(x >>> 56).toUInt8, (x >>> 48).toUInt8, (x >>> 40).toUInt8, (x >>> 32).toUInt8,
   (x >>> 24).toUInt8, (x >>> 16).toUInt8, (x >>> 8).toUInt8, x.toUInt8]

/-- One of the 64 lines (`3rdparty/crypto/sha256.cpp:84-150`).  The first sixteen read a word of the
chunk into one of `w0`, …, `w15`; the others add to the variable sixteen lines old.  The lines are
written here once, with the number of the line as parameter.  The last two lines of the source add
without storing, which makes no difference because nothing reads the variable afterwards. -/
def line (chunk : List UInt8) (x : Regs × List UInt32) (t : Nat) : Regs × List UInt32 :=
  let w := x.2
  let v := if t < 16 then readBE32 chunk (4 * t)
    else w.getD (t % 16) 0 + (smallSigma1 (w.getD ((t + 14) % 16) 0) + w.getD ((t + 9) % 16) 0 +
      smallSigma0 (w.getD ((t + 1) % 16) 0))
  (roundCall t x.1 (consts.getD t 0 + v), w.set (t % 16) v)

/-- The body of the loop of `Transform` (`3rdparty/crypto/sha256.cpp:81-159`); the sixteen variables
start out with anything, here zero. -/
def transform1 (s : Regs) (chunk : List UInt8) : Regs :=
  let r := ((List.range 64).foldl (line chunk) (s, List.replicate 16 0)).1
  ⟨s.a + r.a, s.b + r.b, s.c + r.c, s.d + r.d, s.e + r.e, s.f + r.f, s.g + r.g, s.h + r.h⟩

/-- `Transform` (`3rdparty/crypto/sha256.cpp:78-162`). -/
def transform (s : Regs) (chunk : List UInt8) : Nat → Regs
  | 0 => s
  | blocks + 1 => transform (transform1 s chunk) (chunk.drop 64) blocks

/-- An object of class `CSHA256` (`3rdparty/crypto/sha256.h:14-19`). -/
structure Sha where
  s : Regs
  buf : List UInt8
  bytes : UInt64
deriving DecidableEq, Repr

/-- The constructor (`3rdparty/crypto/sha256.cpp:633-636`).  It leaves the buffer as the memory
happened to be. -/
def Sha.new (memory : List UInt8) : Sha := ⟨initial, memory, 0⟩

/-- `Reset` (`3rdparty/crypto/sha256.cpp:681-686`). -/
def Sha.reset (x : Sha) : Sha :=
  { x with
    bytes := 0
    s := initial }

/-- `memcpy(buf + off, src, n)` into an array (`3rdparty/crypto/sha256.cpp:644,658`): undefined
behaviour (`none`) when it runs past the end of the array. -/
def poke (buf : List UInt8) (off : Nat) (src : List UInt8) : Option (List UInt8) :=
  if off + src.length ≤ buf.length then
    some (buf.take off ++ src ++ buf.drop (off + src.length))
  else none

/-- The first part of `Write`: fill the buffer and process it
(`3rdparty/crypto/sha256.cpp:641-649`).  Gives the object, the rest of the data and `bufsize`. -/
def Sha.fill (x : Sha) (data : List UInt8) : Option (Sha × List UInt8 × Nat) :=
  let bufsize := (x.bytes % 64).toNat
  if bufsize ≠ 0 ∧ bufsize + data.length ≥ 64 then
    match poke x.buf bufsize (data.take (64 - bufsize)) with
    | none => none
    | some b =>
      some (⟨transform x.s b 1, b, x.bytes + (64 - bufsize).toUInt64⟩, data.drop (64 - bufsize), 0)
  else some (x, data, bufsize)

/-- The second part of `Write`: process what makes whole blocks straight from the data
(`3rdparty/crypto/sha256.cpp:650-655`). -/
def Sha.whole (x : Sha) (data : List UInt8) : Sha × List UInt8 :=
  if data.length ≥ 64 then
    let blocks := data.length / 64
    ({ x with
       s := transform x.s data blocks
       bytes := x.bytes + (64 * blocks).toUInt64 }, data.drop (64 * blocks))
  else (x, data)

/-- The third part of `Write`: keep the rest (`3rdparty/crypto/sha256.cpp:656-660`). -/
def Sha.rest (x : Sha) (data : List UInt8) (bufsize : Nat) : Option Sha :=
  if data.length > 0 then
    match poke x.buf bufsize data with
    | none => none
    | some b => some { x with
        buf := b
        bytes := x.bytes + data.length.toUInt64 }
  else some x

/-- `CSHA256::Write` (`3rdparty/crypto/sha256.cpp:638-662`); `none` is undefined behaviour. -/
def Sha.write (x : Sha) (data : List UInt8) : Option Sha :=
  match x.fill data with
  | none => none
  | some (y, d, bufsize) =>
    let z := y.whole d
    z.1.rest z.2 bufsize

/-- The bytes of `CSHA256::Finalize`'s result (`3rdparty/crypto/sha256.cpp:671-678`). -/
def Regs.out (r : Regs) : List UInt8 :=
  writeBE32 r.a ++ writeBE32 r.b ++ writeBE32 r.c ++ writeBE32 r.d ++
  writeBE32 r.e ++ writeBE32 r.f ++ writeBE32 r.g ++ writeBE32 r.h

/-- The array `pad` (`3rdparty/crypto/sha256.cpp:666`). -/
def pad : List UInt8 := 0x80 :: List.replicate 63 0

/-- `CSHA256::Finalize` (`3rdparty/crypto/sha256.cpp:664-679`).  The object is left as it is after
the padding was written. -/
def Sha.finalize (x : Sha) : Option (Sha × List UInt8) :=
  let sizedesc := writeBE64 (x.bytes <<< 3)
  match x.write (pad.take (1 + ((119 - x.bytes % 64) % 64).toNat)) with
  | none => none
  | some y =>
    match y.write sizedesc with
    | none => none
    | some z => some (z, z.s.out)

/-- Several calls of `Write` on one object, as in `transaction.cpp:73-80`
(`src/uhs/transaction/transaction.cpp:73-80,108-116,163-168`). -/
def Sha.writes (x : Sha) : List (List UInt8) → Option Sha
  | [] => some x
  | d :: ds =>
    match x.write d with
    | none => none
    | some y => y.writes ds

/-- `hash_data` (`src/util/common/hash.cpp:40-50`). -/
def hashData (memory data : List UInt8) : Option (List UInt8) :=
  match (Sha.new memory).write data with
  | none => none
  | some x =>
    match x.finalize with
    | none => none
    | some r => some r.2

end Verif.Sha256
