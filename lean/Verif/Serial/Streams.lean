import Verif.Serial.Model

/-! The five serializers: what they do with the raw writes and reads of the overloads of `operator<<`
and `operator>>`, in `size_t` arithmetic. -/
namespace Verif.Serial.Streams

/-- Sums of `size_t` wrap. -/
def wrap (n : Nat) : Nat := n % 2 ^ 64

/-! ### Writing -/

/-- `size_serializer::m_cursor` after `operator<<`, `src/util/serialization/size_serializer.cpp:25-28`. -/
def sizeWrite (cursor : Nat) (d : Bytes) : Nat := wrap (cursor + d.length)

/-- `serialized_size`, `src/util/serialization/util.hpp:20-25`. The argument is what the overloads
pass to `write`, one after the other (they do not look at its result). -/
def serializedSize (chunks : List Bytes) : Nat := chunks.foldl sizeWrite 0

/-- `buffer_serializer`, `src/util/serialization/buffer_serializer.hpp:16-58`. -/
structure Buf where
  pkt : Bytes
  cursor : Nat
  valid : Bool

/-- `buffer_serializer::write`, `src/util/serialization/buffer_serializer.cpp:30-37`: extend by
zero bytes, copy over what is there. `none` is a write outside the buffer. `checked` is a standard
library that stops the program when `operator[]` of a vector is given an index outside of it
(`_GLIBCXX_ASSERTIONS`): `buffer::data_at`, `src/util/common/buffer.cpp:36-42`, does so for the
position behind the last byte. -/
def Buf.write (checked : Bool) (s : Buf) (d : Bytes) : Option Buf :=
  let e := wrap (s.cursor + d.length)
  let pkt := if s.pkt.length < e then s.pkt ++ List.replicate (e - s.pkt.length) 0 else s.pkt
  if s.cursor + d.length ≤ pkt.length ∧ (checked = true → s.cursor < pkt.length) then
    some {
      pkt := pkt.take s.cursor ++ d ++ pkt.drop (s.cursor + d.length)
      cursor := e
      valid := s.valid }
  else none

/-- All writes of an object. -/
def Buf.writes (checked : Bool) (s : Buf) : List Bytes → Option Buf
  | [] => some s
  | d :: ds => (s.write checked d).bind fun s' => s'.writes checked ds

/-- `make_buffer` and `make_shared_buffer`, `src/util/serialization/util.hpp:32-55`: a buffer of the
computed size, of zero bytes, then written over from the start. -/
def makeBuffer (checked : Bool) (chunks : List Bytes) : Option Bytes :=
  (Buf.writes checked ⟨List.replicate (serializedSize chunks) 0, 0, true⟩ chunks).map Buf.pkt

/-- `nuraft_serializer` and the buffer it refers to, `src/util/raft/serialization.hpp:15-60`. -/
structure Nur where
  buf : Bytes
  pos : Nat
  valid : Bool

/-- `nuraft_serializer::write`, `src/util/raft/serialization.cpp:34-43`: never beyond the size of the
buffer. `none` is the exception of `nuraft::buffer::put_raw`. -/
def Nur.write (s : Nur) (d : Bytes) : Option Nur :=
  if s.buf.length < wrap (s.pos + d.length) then some { s with valid := false }
  else if s.pos + d.length ≤ s.buf.length then
    some {
      buf := s.buf.take s.pos ++ d ++ s.buf.drop (s.pos + d.length)
      pos := s.pos + d.length
      valid := s.valid }
  else none

/-- All writes of an object. -/
def Nur.writes (s : Nur) : List Bytes → Option Nur
  | [] => some s
  | d :: ds => (s.write d).bind fun s' => s'.writes ds

/-- `nuraft_serializer::end_of_buffer`, `src/util/raft/serialization.cpp:30-32`. -/
def Nur.atEnd (s : Nur) : Bool := decide (s.buf.length ≤ s.pos)

/-- `make_buffer` for NuRaft, `src/util/raft/util.hpp:20-28`; the constructor of the serializer goes to
the start, `src/util/raft/serialization.cpp:13-15`. `fresh` is what the memory held that
`nuraft::buffer::alloc` gave; `none` are its exception for two gigabytes and that of `put_raw`. -/
def makeNuraft (fresh : Nat → Bytes) (chunks : List Bytes) : Option Nur :=
  if 2 ^ 31 ≤ serializedSize chunks then none
  else Nur.writes ⟨fresh (serializedSize chunks), 0, true⟩ chunks

/-- `ostream_serializer` on a new file that takes `room` bytes. -/
structure Out where
  content : Bytes
  room : Nat
  good : Bool

/-- `ostream_serializer::write`, `src/util/serialization/ostream_serializer.cpp:37-42`: a stream that
has failed takes nothing more; a write that does not fit leaves what fitted and fails. -/
def Out.write (s : Out) (d : Bytes) : Out :=
  if s.good then {
    content := s.content ++ d.take (s.room - s.content.length)
    room := s.room
    good := decide (s.content.length + d.length ≤ s.room) }
  else s

/-- All writes of an object to a new file. -/
def writeFile (room : Nat) (chunks : List Bytes) : Out := chunks.foldl Out.write ⟨[], room, true⟩

/-! ### Reading -/

/-- How something ends: with a value, with an exception, or with an access outside a buffer. -/
inductive End (σ α : Type) where
  | value (a : α) (s : σ)
  | threw
  | outside

/-- What an overload of `operator>>` can do with a serializer: read some bytes, whether or not that
works (`none`: the destination is as before), ask it whether it is still valid, end, or throw. -/
inductive Prog (α : Type) where
  | ret (a : α)
  | throws
  | read (n : Nat) (k : Option Bytes → Prog α)
  | valid (k : Bool → Prog α)

/-- The reading half of `cbdc::serializer`, `src/util/serialization/serializer.hpp:13-58`. -/
structure Reader (σ : Type) where
  read : σ → Nat → End σ (Option Bytes)
  good : σ → Bool

/-- Running an overload on a serializer. -/
def run {σ α : Type} (r : Reader σ) : Prog α → σ → End σ α
  | .ret a, s => .value a s
  | .throws, _ => .threw
  | .read n k, s =>
    match r.read s n with
    | .value b s' => run r (k b) s'
    | .threw => .threw
    | .outside => .outside
  | .valid k, s => run r (k (r.good s)) s

/-- `buffer_serializer::read` and `operator bool`,
`src/util/serialization/buffer_serializer.cpp:13-15`, `:39-47`. -/
def bufReader (checked : Bool) : Reader Buf where
  read s n :=
    if s.pkt.length < wrap (s.cursor + n) then .value none { s with valid := false }
    else if s.cursor + n ≤ s.pkt.length ∧ (checked = true → s.cursor < s.pkt.length) then
      .value (some ((s.pkt.drop s.cursor).take n)) { s with cursor := s.cursor + n }
    else .outside
  good s := s.valid

/-- `nuraft_serializer::read` and `operator bool`, `src/util/raft/serialization.cpp:17-19`, `:45-52`;
`nuraft::buffer::get_raw` throws when there is not enough. -/
def nurReader : Reader Nur where
  read s n :=
    if s.buf.length < wrap (s.pos + n) then .value none { s with valid := false }
    else if s.pos + n ≤ s.buf.length then
      .value (some ((s.buf.drop s.pos).take n)) { s with pos := s.pos + n }
    else .threw
  good s := s.valid

/-- `istream_serializer` on a file. -/
structure In where
  left : Bytes
  good : Bool

/-- `istream_serializer::read`, `src/util/serialization/istream_serializer.cpp:41-50`, and
`stream_serializer::operator bool`, `src/util/serialization/stream_serializer.cpp:11-13`: the vector
throws for lengths it cannot have; a stream that has failed gives nothing more; a read that
finds too little takes all there is and fails. (Simplification: there is memory for every vector
shorter than 2^63.) -/
def inReader : Reader In where
  read s n :=
    if maxBuf < n then .threw
    else if s.good = false then .value none s
    else if n ≤ s.left.length then .value (some (s.left.take n)) { s with left := s.left.drop n }
    else .value none ⟨[], false⟩
  good s := s.good

/-- A serializer for a given buffer, as `from_buffer` makes it, `src/util/serialization/util.hpp:62-70`. -/
def Buf.of (b : Bytes) : Buf := ⟨b, 0, true⟩

/-- The same for NuRaft, `src/util/raft/util.hpp:35-43`; the cursor the buffer had does not matter. -/
def Nur.of (b : Bytes) : Nur := ⟨b, 0, true⟩

/-- A file opened for reading, `src/uhs/transaction/wallet.cpp:330-332`. -/
def In.of (b : Bytes) : In := ⟨b, true⟩

end Verif.Serial.Streams
