/-
Model of the wire format: `src/util/serialization/{src/util/serialization/format.hpp,src/util/serialization/format.cpp,
src/util/serialization/buffer_serializer.cpp,src/util/serialization/util.hpp}`.

The C++ templates are instantiated per type; here the types themselves are
data (`Ty`), so that one theorem speaks about every composed message type.
-/
namespace Verif.Serial

/-- A byte string (`cbdc::buffer`, `std::vector<std::byte>`). -/
abbrev Bytes := List UInt8

/-- State of a `buffer_serializer` after a deserialization
(`src/util/serialization/buffer_serializer.cpp:39-47`, `src/util/serialization/util.hpp:62-70`).

`ok a rest`: valid, with `rest` not yet consumed. `fail rest`: the sticky flag
`m_valid` is false; the cursor stays where it was and *further reads may still
be attempted from there*. `bad` is everything that is not an ordinary failure:
undefined behaviour (a byte other than 0/1 copied over a `bool`), an exception
(`std::out_of_range` from an unknown variant index, `std::length_error` from
`buffer::extend`) or a loop that never ends. -/
inductive Res (α : Type) where
  | ok (a : α) (rest : Bytes)
  | fail (rest : Bytes)
  | bad
  deriving Repr, DecidableEq

/-- Guarded sequencing `if(!(deser >> a)) return deser; ...`. -/
def Res.bind {α β : Type} (r : Res α) (f : α → Bytes → Res β) : Res β :=
  match r with
  | .ok a rest => f a rest
  | .fail rest => .fail rest
  | .bad => .bad

/-- The flag is sticky: whatever is read after a failure, the outcome is a
failure (unless it is `bad`). -/
def Res.spoil {α β : Type} : Res α → Res β
  | .ok _ rest => .fail rest
  | .fail rest => .fail rest
  | .bad => .bad

/-- Unguarded sequencing `packet >> a >> b`: the second read is attempted even
if the first one failed. -/
def Res.seq {α β : Type} (r : Res α) (d : Bytes → Res β) : Res (α × β) :=
  match r with
  | .ok a rest => (d rest).bind fun b r' => .ok (a, b) r'
  | .fail rest => (d rest).spoil
  | .bad => .bad

/-- Message types that the templates of `src/util/serialization/format.hpp` can (de)serialize. -/
inductive Ty where
  /-- empty types, `src/util/serialization/format.hpp:52-64` -/
  | unit
  /-- integral type (or enum, `src/util/serialization/format.hpp:436-451`) of the given width in bytes,
  `src/util/serialization/format.hpp:72-91` -/
  | int (width : Nat)
  /-- `bool`, `src/util/serialization/format.hpp:72-91` -/
  | bool
  /-- `std::array` of bytes, `src/util/serialization/format.hpp:101-115` -/
  | arr (len : Nat)
  /-- `cbdc::buffer`, `src/util/serialization/format.cpp:24-36` -/
  | buf
  /-- `std::optional`, `src/util/serialization/format.hpp:119-152` -/
  | opt (t : Ty)
  /-- `std::pair`, `src/util/serialization/format.hpp:157-179` -/
  | pair (a b : Ty)
  /-- consecutive fields of a structure, `packet >> a >> b`, e.g.
  `src/uhs/transaction/messages.cpp:18-21` -/
  | fields (a b : Ty)
  /-- `std::vector`, `src/util/serialization/format.hpp:185-233` -/
  | vec (t : Ty)
  /-- `std::unordered_set` (and, with `pair` elements keyed on the first
  component, see `umap`), `src/util/serialization/format.hpp:322-359` -/
  | uset (t : Ty)
  /-- `std::unordered_map`, `src/util/serialization/format.hpp:238-285` -/
  | umap (k v : Ty)
  /-- `std::set`, `src/util/serialization/format.hpp:289-318` -/
  | oset (t : Ty)
  /-- `std::variant` with `n` alternatives, `src/util/serialization/format.hpp:363-400` -/
  | variant (n : Nat) (alt : Fin n → Ty)

/-- In-memory values. Integers are naturals (range in `WF`). Sets and maps are
lists of elements in the order in which the C++ iterates over them. -/
def Ty.val : Ty → Type
  | .unit => Unit
  | .int _ => Nat
  | .bool => Bool
  | .arr _ => Bytes
  | .buf => Bytes
  | .opt t => Option t.val
  | .pair a b => a.val × b.val
  | .fields a b => a.val × b.val
  | .vec t => List t.val
  | .uset t => List t.val
  | .umap k v => List (k.val × v.val)
  | .oset t => List t.val
  | .variant n alt => (i : Fin n) × (alt i).val

/-- Equality of values, used by the set and map containers. -/
def Ty.decEq : (t : Ty) → DecidableEq t.val
  | .unit => inferInstanceAs (DecidableEq Unit)
  | .int _ => inferInstanceAs (DecidableEq Nat)
  | .bool => inferInstanceAs (DecidableEq Bool)
  | .arr _ => inferInstanceAs (DecidableEq Bytes)
  | .buf => inferInstanceAs (DecidableEq Bytes)
  | .opt t => have := t.decEq; inferInstanceAs (DecidableEq (Option t.val))
  | .pair a b =>
    have := a.decEq; have := b.decEq; inferInstanceAs (DecidableEq (a.val × b.val))
  | .fields a b =>
    have := a.decEq; have := b.decEq; inferInstanceAs (DecidableEq (a.val × b.val))
  | .vec t => have := t.decEq; inferInstanceAs (DecidableEq (List t.val))
  | .uset t => have := t.decEq; inferInstanceAs (DecidableEq (List t.val))
  | .umap k v =>
    have := k.decEq; have := v.decEq; inferInstanceAs (DecidableEq (List (k.val × v.val)))
  | .oset t => have := t.decEq; inferInstanceAs (DecidableEq (List t.val))
  | .variant n alt =>
    have := fun i => (alt i).decEq
    inferInstanceAs (DecidableEq ((i : Fin n) × (alt i).val))

instance (t : Ty) : DecidableEq t.val := t.decEq

/-- `sizeof(T)` bytes of an integer in machine (little-endian) order,
`src/util/serialization/format.hpp:72-78`. -/
def encInt : (width : Nat) → Nat → Bytes
  | 0, _ => []
  | w + 1, n => UInt8.ofNat (n % 256) :: encInt w (n / 256)

/-- Inverse of `encInt` on a byte string. -/
def leNat : Bytes → Nat
  | [] => 0
  | b :: bs => b.toNat + 256 * leNat bs

/-- `buffer_serializer::read`, `src/util/serialization/buffer_serializer.cpp:39-47`: all `n` bytes or
failure. (Simplification: `m_cursor + len` is a `size_t` sum in C++ and could
wrap for `len` close to `2^64`; every caller has previously resized the
destination to `len` bytes, which throws for such lengths.) -/
def read (n : Nat) (b : Bytes) : Res Bytes :=
  if n ≤ b.length then .ok (b.take n) (b.drop n) else .fail b

/-- `operator>>(serializer&, T&)` for integers, `src/util/serialization/format.hpp:85-91`. -/
def decInt (w : Nat) (b : Bytes) : Res Nat :=
  (read w b).bind fun bs r => .ok (leNat bs) r

/-- `bool` is read with a `memcpy` of one byte, `src/util/serialization/format.hpp:85-91`; a byte other
than 0 or 1 is not a value of `bool`: undefined behaviour. -/
def decBool (b : Bytes) : Res Bool :=
  (read 1 b).bind fun bs r =>
    match bs with
    | [0] => .ok false r
    | [1] => .ok true r
    | _ => .bad

/-- The largest buffer size `std::vector::resize` accepts. -/
def maxBuf : Nat := 2 ^ 63 - 1

/-- `operator>>(serializer&, buffer&)`, `src/util/serialization/format.cpp:30-36`. `extend` throws
`std::length_error` for sizes above `max_size()` even when the bytes are not
there. (A failed read of the size leaves it 0, and reading 0 bytes is a no-op.) -/
def decBuf (b : Bytes) : Res Bytes :=
  (decInt 8 b).bind fun n r => if maxBuf < n then .bad else read n r

/-- The element loop of `std::vector`, `src/util/serialization/format.hpp:203-233` (simplification: the
reservation in chunks of at most 1 MiB does not change which elements are read). -/
def decN {α : Type} (dec : Bytes → Res α) : Nat → Bytes → Res (List α)
  | 0, b => .ok [] b
  | n + 1, b => (dec b).bind fun a r => (decN dec n r).bind fun as r' => .ok (a :: as) r'

/-- The element loop of `std::unordered_set`, `src/util/serialization/format.hpp:345-357`: it runs until
the *set* has `len` elements, so an element that is already present costs an
iteration without making progress. `fuel` bounds the number of iterations, and
running out of it (only possible for types whose encoding is empty) is `bad`. -/
def decUset {α : Type} [DecidableEq α] (dec : Bytes → Res α) (len : Nat) :
    (fuel : Nat) → List α → Bytes → Res (List α)
  | 0, _, _ => .bad
  | fuel + 1, acc, b =>
    if acc.length < len then
      (dec b).bind fun a r =>
        if a ∈ acc then decUset dec len fuel acc r else decUset dec len fuel (acc ++ [a]) r
    else .ok acc b

/-- The element loop of `std::unordered_map`, `src/util/serialization/format.hpp:263-283`; `emplace`
keeps the first value of a key. -/
def decUmap {κ ν : Type} [DecidableEq κ] (dk : Bytes → Res κ) (dv : Bytes → Res ν)
    (len : Nat) : (fuel : Nat) → List (κ × ν) → Bytes → Res (List (κ × ν))
  | 0, _, _ => .bad
  | fuel + 1, acc, b =>
    if acc.length < len then
      (dk b).bind fun k r => (dv r).bind fun v r' =>
        if k ∈ acc.map Prod.fst then decUmap dk dv len fuel acc r'
        else decUmap dk dv len fuel (acc ++ [(k, v)]) r'
    else .ok acc b

/-- The element loop of `std::set`, `src/util/serialization/format.hpp:310-316`: exactly `len` reads,
duplicates dropped. (Simplification: the sorted order of the set is not
modelled; elements keep the order in which they were read.) -/
def decOset {α : Type} [DecidableEq α] (dec : Bytes → Res α) :
    (n : Nat) → List α → Bytes → Res (List α)
  | 0, acc, b => .ok acc b
  | n + 1, acc, b =>
    (dec b).bind fun a r =>
      if a ∈ acc then decOset dec n acc r else decOset dec n (acc ++ [a]) r

/-- `operator<<` for every supported type. -/
def enc : (t : Ty) → t.val → Bytes
  | .unit => fun _ => []
  | .int w => fun (n : Nat) => encInt w n
  | .bool => fun (b : Bool) => if b then [1] else [0]
  | .arr _ => fun (bs : Bytes) => bs
  | .buf => fun (bs : Bytes) => encInt 8 bs.length ++ bs
  | .opt t => fun (o : Option t.val) =>
    match o with
    | none => [0]
    | some v => 1 :: enc t v
  | .pair a b => fun (p : a.val × b.val) => enc a p.1 ++ enc b p.2
  | .fields a b => fun (p : a.val × b.val) => enc a p.1 ++ enc b p.2
  | .vec t => fun (vs : List t.val) => encInt 8 vs.length ++ vs.flatMap (enc t)
  | .uset t => fun (vs : List t.val) => encInt 8 vs.length ++ vs.flatMap (enc t)
  | .umap k v => fun (vs : List (k.val × v.val)) =>
    encInt 8 vs.length ++ vs.flatMap fun p => enc k p.1 ++ enc v p.2
  | .oset t => fun (vs : List t.val) => encInt 8 vs.length ++ vs.flatMap (enc t)
  | .variant n alt => fun (x : (i : Fin n) × (alt i).val) =>
    encInt 1 x.1.val ++ enc (alt x.1) x.2

/-- `operator>>` for every supported type. The index of a variant is read without
a check (`src/util/serialization/format.hpp:390-393`), so that after a failed read alternative 0 is
attempted. -/
def dec : (t : Ty) → Bytes → Res t.val
  | .unit, b => .ok () b
  | .int w, b => decInt w b
  | .bool, b => decBool b
  | .arr n, b => read n b
  | .buf, b => decBuf b
  | .opt t, b =>
    (decBool b).bind fun h r =>
      if h then (dec t r).bind fun v r' => .ok (some v) r' else .ok none r
  | .pair x y, b => (dec x b).bind fun p r => (dec y r).bind fun q r' => .ok (p, q) r'
  | .fields x y, b => (dec x b).seq (dec y)
  | .vec t, b => (decInt 8 b).bind fun n r => decN (dec t) n r
  | .uset t, b =>
    (decInt 8 b).bind fun n r => decUset (dec t) n (r.length + n + 1) [] r
  | .umap k v, b =>
    (decInt 8 b).bind fun n r => decUmap (dec k) (dec v) n (r.length + n + 1) [] r
  | .oset t, b => (decInt 8 b).bind fun n r => decOset (dec t) n [] r
  | .variant n alt, b =>
    match decInt 1 b with
    | .ok i r =>
      if h : i < n then (dec (alt ⟨i, h⟩) r).bind fun v r' => .ok ⟨⟨i, h⟩, v⟩ r'
      else .bad
    | .fail r => if h : 0 < n then (dec (alt ⟨0, h⟩) r).spoil else .bad
    | .bad => .bad

/-- Values that the C++ types can hold: integers within their width, arrays of
their length, containers below `2^64` elements, sets and maps without repeated
keys, fewer than 255 alternatives (`static_assert` in `src/util/serialization/format.hpp:367-369`). -/
def WF : (t : Ty) → t.val → Prop
  | .unit => fun _ => True
  | .int w => fun (n : Nat) => n < 256 ^ w
  | .bool => fun _ => True
  | .arr n => fun (bs : Bytes) => bs.length = n
  | .buf => fun (bs : Bytes) => bs.length ≤ maxBuf
  | .opt t => fun (o : Option t.val) => ∀ v, o = some v → WF t v
  | .pair a b => fun (p : a.val × b.val) => WF a p.1 ∧ WF b p.2
  | .fields a b => fun (p : a.val × b.val) => WF a p.1 ∧ WF b p.2
  | .vec t => fun (vs : List t.val) => vs.length < 2 ^ 64 ∧ ∀ v ∈ vs, WF t v
  | .uset t => fun (vs : List t.val) => vs.length < 2 ^ 64 ∧ vs.Nodup ∧ ∀ v ∈ vs, WF t v
  | .umap k v => fun (vs : List (k.val × v.val)) =>
    vs.length < 2 ^ 64 ∧ (vs.map Prod.fst).Nodup ∧ ∀ p ∈ vs, WF k p.1 ∧ WF v p.2
  | .oset t => fun (vs : List t.val) => vs.length < 2 ^ 64 ∧ vs.Nodup ∧ ∀ v ∈ vs, WF t v
  | .variant n alt => fun (x : (i : Fin n) × (alt i).val) => n < 255 ∧ WF (alt x.1) x.2

/-- `make_buffer`, `src/util/serialization/util.hpp:32-41`. (Simplification: the precomputed size is
not modelled, `buffer_serializer::write` extends the buffer as needed.) -/
def makeBuffer (t : Ty) (v : t.val) : Bytes := enc t v

/-- `from_buffer`, `src/util/serialization/util.hpp:62-70`: trailing bytes are ignored. `none` of the
outer option is `bad`. -/
def fromBuffer (t : Ty) (b : Bytes) : Option (Option t.val) :=
  match dec t b with
  | .ok v _ => some (some v)
  | .fail _ => some none
  | .bad => none

end Verif.Serial
