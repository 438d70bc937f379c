/-!
# Bech32 and addresses (C38)

Model of `3rdparty/bech32/bech32.cpp`, of `ConvertBits` in
`3rdparty/bech32/util/strencodings.h`, of `address::decode` in
`src/uhs/client/client.cpp` and of `newaddress_command` in
`src/uhs/client/client-cli.cpp`.

Characters and 5-bit values are natural numbers below 256.  The 32-bit number of
`PolyMod` stays below 2^30 (`polymod_lt`), so that natural numbers model it exactly.
-/
namespace Verif.Bech32

/-- A text, by the codes of its characters. -/
abbrev Text := List Nat

/-- `CHARSET`, 3rdparty/bech32/bech32.cpp:16: "qpzry9x8gf2tvdw0s3jn54khce6mua7l". -/
def charset : List Nat :=
  [113, 112, 122, 114, 121, 57, 120, 56, 103, 102, 50, 116, 118, 100, 119, 48,
   115, 51, 106, 110, 53, 52, 107, 104, 99, 101, 54, 109, 117, 97, 55, 108]

/-- `CHARSET_REV`, 3rdparty/bech32/bech32.cpp:19-28; `none` for -1. -/
def charsetRev : List (Option Nat) :=
  [none, none, none, none, none, none, none, none, none, none, none, none, none, none, none, none,
   none, none, none, none, none, none, none, none, none, none, none, none, none, none, none, none,
   none, none, none, none, none, none, none, none, none, none, none, none, none, none, none, none,
   some 15, none, some 10, some 17, some 21, some 20, some 26, some 30, some 7, some 5, none, none, none, none, none, none,
   none, some 29, none, some 24, some 13, some 25, some 9, some 8, some 23, none, some 18, some 22, some 31, some 27, some 19, none,
   some 1, some 0, some 3, some 16, some 11, some 28, some 12, some 14, some 6, some 4, some 2, none, none, none, none, none,
   none, some 29, none, some 24, some 13, some 25, some 9, some 8, some 23, none, some 18, some 22, some 31, some 27, some 19, none,
   some 1, some 0, some 3, some 16, some 11, some 28, some 12, some 14, some 6, some 4, some 2, none, none, none, none, none]

/-- One round of the loop of `PolyMod`, 3rdparty/bech32/bech32.cpp:76-87. -/
def polymodStep (c v : Nat) : Nat :=
  let c0 := c >>> 25
  let c := ((c &&& 0x1ffffff) <<< 5) ^^^ v
  let c := if c0 &&& 1 != 0 then c ^^^ 0x3b6a57b2 else c
  let c := if c0 &&& 2 != 0 then c ^^^ 0x26508e6d else c
  let c := if c0 &&& 4 != 0 then c ^^^ 0x1ea119fa else c
  let c := if c0 &&& 8 != 0 then c ^^^ 0x3d4233dd else c
  if c0 &&& 16 != 0 then c ^^^ 0x2a1462b3 else c

/-- `PolyMod`, 3rdparty/bech32/bech32.cpp:33-90. -/
def polymod (v : List Nat) : Nat := v.foldl polymodStep 1

/-- `LowerCase`, 3rdparty/bech32/bech32.cpp:93-96. -/
def lowerCase (c : Nat) : Nat := if 65 ≤ c ∧ c ≤ 90 then c - 65 + 97 else c

/-- `ExpandHRP`, 3rdparty/bech32/bech32.cpp:99-111. -/
def expandHrp (hrp : Text) : List Nat :=
  hrp.map (· >>> 5) ++ [0] ++ hrp.map (· &&& 0x1f)

/-- `VerifyChecksum`, 3rdparty/bech32/bech32.cpp:114-121. -/
def verifyChecksum (hrp : Text) (values : List Nat) : Bool :=
  polymod (expandHrp hrp ++ values) == 1

/-- `CreateChecksum`, 3rdparty/bech32/bech32.cpp:124-135. -/
def createChecksum (hrp : Text) (values : List Nat) : List Nat :=
  let m := polymod (expandHrp hrp ++ values ++ [0, 0, 0, 0, 0, 0]) ^^^ 1
  [(m >>> 25) &&& 31, (m >>> 20) &&& 31, (m >>> 15) &&& 31, (m >>> 10) &&& 31,
   (m >>> 5) &&& 31, (m >>> 0) &&& 31]

/-- `Encode`, 3rdparty/bech32/bech32.cpp:143-156.  `none`: a value above 31 reads past the end of
`CHARSET`.  The assertion of line 147 is left to the caller. -/
def encode (hrp : Text) (values : List Nat) : Option Text :=
  (values ++ createChecksum hrp values).mapM (charset[·]?) |>.map (hrp ++ [49] ++ ·)

/-- Lines 160-167 of `Decode`: printable, and of one case. -/
def wellFormed (s : Text) : Bool :=
  s.all (fun c => 33 ≤ c ∧ c ≤ 126) &&
    !(s.any (fun c => 97 ≤ c ∧ c ≤ 122) && s.any (fun c => 65 ≤ c ∧ c ≤ 90))

/-- `str.rfind('1')`, 3rdparty/bech32/bech32.cpp:168: what is before and after the last '1'. -/
def splitLast1 : Text → Option (Text × Text)
  | [] => none
  | c :: s =>
    match splitLast1 s with
    | some (a, b) => some (c :: a, b)
    | none => if c = 49 then some ([], s) else none

/-- `Decode`, 3rdparty/bech32/bech32.cpp:159-190; `none` is the pair of empty strings. -/
def decode (s : Text) : Option (Text × List Nat) :=
  if wellFormed s then
    match splitLast1 s with
    | none => none
    | some (pre, post) =>
      if s.length > 90 ∨ pre = [] ∨ post.length < 6 then none
      else
        match post.mapM (fun c => (charsetRev[c]?).join) with
        | none => none
        | some values =>
          let hrp := pre.map lowerCase
          if verifyChecksum hrp values then some (hrp, values.take (values.length - 6))
          else none
  else none

/-- The inner loop of `ConvertBits`, strencodings.h:185-188, for one input: the
output and the number of bits left. -/
def emit (to : Nat) (acc : Nat) : Nat → Nat → List Nat × Nat
  | 0, bits => ([], bits)
  | fuel + 1, bits =>
    if to ≤ bits then
      let r := emit to acc fuel (bits - to)
      (((acc >>> (bits - to)) &&& (2 ^ to - 1)) :: r.1, r.2)
    else ([], bits)

/-- The outer loop, strencodings.h:182-190: the output, `acc` and `bits`. -/
def convertLoop (frm to : Nat) : List Nat → Nat → Nat → List Nat × Nat × Nat
  | [], acc, bits => ([], acc, bits)
  | v :: vs, acc, bits =>
    let acc := ((acc <<< frm) ||| v) &&& (2 ^ (frm + to - 1) - 1)
    let e := emit to acc (bits + frm) (bits + frm)
    let r := convertLoop frm to vs acc e.2
    (e.1 ++ r.1, r.2)

/-- `ConvertBits`, strencodings.h:176-197: the output and the result.  `size_t`
does not overflow: `acc` is kept below 2^(frm+to-1). -/
def convertBits (frm to : Nat) (pad : Bool) (vs : List Nat) : List Nat × Bool :=
  let r := convertLoop frm to vs 0 0
  let out := r.1
  let acc := r.2.1
  let bits := r.2.2
  if pad then
    (if bits = 0 then out else out ++ [(acc <<< (to - bits)) &&& (2 ^ to - 1)], true)
  else
    (out, !(decide (frm ≤ bits) || ((acc <<< (to - bits)) &&& (2 ^ to - 1)) != 0))

/-- `cbdc::config::bech32_hrp`, src/util/common/config.hpp:34: "usd". -/
def usd : Text := [117, 115, 100]

/-- What `address::decode` does. -/
inductive Decoded where
  | key (k : List Nat)
  | invalid
  /-- `data[0]` of an empty vector is read -/
  | undefined
  deriving DecidableEq, Repr

/-- `address::decode`, src/uhs/client/client.cpp:27-58. -/
def addressDecode (s : Text) : Decoded :=
  match decode s with
  | none => .invalid
  | some (hrp, enc) =>
    if hrp ≠ usd then .invalid
    else
      match (convertBits 5 8 false enc).1 with
      | [] => .undefined
      | d :: data =>
        if d ≠ 0 ∨ (d :: data).length ≠ 33 then .invalid else .key data

/-- `newaddress_command`, client-cli.cpp:122-142. -/
def newAddress (key : List Nat) : Option Text :=
  encode usd (convertBits 8 5 true (0 :: key)).1

end Verif.Bech32
