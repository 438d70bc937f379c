import Verif.Serial.Lemmas
/-!
# The raft log store (C34)

Model of `src/util/raft/log_store.cpp` on top of an ordered key-value database.
Keys are the indexes, ordered as numbers (`src/util/raft/index_comparator.cpp:13-29`); they are
taken to stay below 2^64.  Entries are of any type, with the conversion to bytes
supplied by NuRaft (`log_entry::serialize` and `deserialize`), which is trusted to
be exact.  Failing writes are not modelled: the code asserts that they succeed.
-/
namespace Verif.Raft

open Verif.Serial

/-- NuRaft's conversion of entries. -/
structure Codec (E : Type) where
  enc : E → Bytes
  dec : Bytes → E
  term : E → Nat
  exact : ∀ e, dec (enc e) = e
  small : ∀ e, (enc e).length < 2 ^ 64

/-- The database, in the order of the keys. -/
abbrev DB (E : Type) := List (Nat × E)

/-- `Put`. -/
def DB.put {E : Type} : DB E → Nat → E → DB E
  | [], k, e => [(k, e)]
  | p :: r, k, e =>
    if k < p.1 then (k, e) :: p :: r
    else if k = p.1 then (k, e) :: r
    else p :: DB.put r k e

/-- `Delete`. -/
def DB.del {E : Type} (db : DB E) (k : Nat) : DB E := db.filter fun p => p.1 != k

/-- `Get`. -/
def DB.get {E : Type} (db : DB E) (k : Nat) : Option E :=
  (db.find? fun p => p.1 == k).map (·.2)

/-- The log store: the database, `m_start_idx`, `m_next_idx`, and `past`, the
contents that the disk may have after a failure of the machine: those at the last
synchronous write and after each write since. -/
structure Store (E : Type) where
  db : DB E
  start : Nat
  next : Nat
  past : List (DB E)

/-- `get_first_or_last_index<true>`, src/util/raft/log_store.cpp:19-23, 31-37. -/
def firstIndex {E : Type} (db : DB E) : Nat :=
  match db.head? with
  | some p => p.1
  | none => 1

/-- `get_first_or_last_index<false>`, src/util/raft/log_store.cpp:24-37. -/
def lastIndex {E : Type} (db : DB E) : Nat :=
  match db.getLast? with
  | some p => p.1
  | none => 0

/-- `load`, src/util/raft/log_store.cpp:40-64. -/
def load {E : Type} (db : DB E) : Store E :=
  ⟨db, firstIndex db, lastIndex db + 1, [db]⟩

/-- An asynchronous write (`m_write_opt.sync = false`, line 41). -/
def Store.write {E : Type} (s : Store E) (db : DB E) : Store E :=
  { s with db, past := s.past ++ [db] }

/-- `append`, src/util/raft/log_store.cpp:124-136: the new store and the index returned. -/
def append {E : Type} (s : Store E) (e : E) : Store E × Nat :=
  ({ s.write (s.db.put s.next e) with next := s.next + 1 }, s.next)

/-- The deletions of a batch. -/
def delAll {E : Type} (db : DB E) (ks : List Nat) : DB E := ks.foldl DB.del db

/-- `write_at`, src/util/raft/log_store.cpp:138-161.  `none`: beyond the next index the size
`m_next_idx - index` of the vector wraps and its constructor throws. -/
def writeAt {E : Type} (s : Store E) (index : Nat) (e : E) : Option (Store E) :=
  if s.next < index then none
  else
    let db := delAll (s.db.put index e)
      ((List.range (s.next - (index + 1))).map (index + 1 + ·))
    some { s.write db with next := index + 1 }

/-- `log_entries`, src/util/raft/log_store.cpp:163-188.  `none`: the iterator runs past the
last entry, which is undefined. -/
def logEntries {E : Type} (s : Store E) (start stop : Nat) : Option (List E) :=
  if stop < start then none
  else
    let l := (s.db.dropWhile fun p => decide (p.1 < start)).map (·.2)
    if l.length < stop - start then none else some (l.take (stop - start))

/-- `entry_at`, src/util/raft/log_store.cpp:190-209; `none` is the null entry. -/
def entryAt {E : Type} (s : Store E) (index : Nat) : Option E := s.db.get index

/-- `term_at`, src/util/raft/log_store.cpp:211-214; the null entry has term 0. -/
def termAt {E : Type} (c : Codec E) (s : Store E) (index : Nat) : Nat :=
  match entryAt s index with
  | some e => c.term e
  | none => 0

/-- `last_entry`, src/util/raft/log_store.cpp:85-105; `none` is the null entry. -/
def lastEntry {E : Type} (s : Store E) : Option E := s.db.getLast?.map (·.2)

/-- `pack`, src/util/raft/log_store.cpp:216-247. -/
def pack {E : Type} (c : Codec E) (s : Store E) (index cnt : Nat) : Option Bytes :=
  match logEntries s index (index + cnt) with
  | none => none
  | some es =>
    some (encInt 8 cnt ++ es.flatMap fun e => encInt 8 (c.enc e).length ++ c.enc e)

/-- The loop of `apply_pack`, src/util/raft/log_store.cpp:256-263.  `none`: NuRaft's buffer
throws when it is read past its end. -/
def unpackLoop {E : Type} (c : Codec E) : Nat → Bytes → Option (List E)
  | 0, _ => some []
  | n + 1, b =>
    if b.length < 8 then none
    else
      let len := leNat (b.take 8)
      let b := b.drop 8
      if b.length < len then none
      else (unpackLoop c n (b.drop len)).map fun es => c.dec (b.take len) :: es

/-- Lines 250-263 of `apply_pack`. -/
def unpack {E : Type} (c : Codec E) (b : Bytes) : Option (List E) :=
  if b.length < 8 then none else unpackLoop c (leNat (b.take 8)) (b.drop 8)

/-- The writes of `apply_pack`, src/util/raft/log_store.cpp:266-276. -/
def putAll {E : Type} (db : DB E) : Nat → List E → DB E
  | _, [] => db
  | i, e :: es => putAll (db.put i e) (i + 1) es

/-- `apply_pack`, src/util/raft/log_store.cpp:249-288. -/
def applyPack {E : Type} (c : Codec E) (s : Store E) (index : Nat) (b : Bytes) :
    Option (Store E) :=
  match unpack c b with
  | none => none
  | some es =>
    let db := putAll s.db index es
    some { s.write db with start := firstIndex db, next := lastIndex db + 1 }

/-- `compact`, src/util/raft/log_store.cpp:290-312.  `none`: below the start index the size of
the vector wraps and its constructor throws. -/
def compact {E : Type} (s : Store E) (last : Nat) : Option (Store E) :=
  if last + 1 < s.start then none
  else
    let db := delAll s.db ((List.range (last + 1 - s.start)).map (s.start + ·))
    some { s.write db with start := last + 1, next := max s.next (last + 1) }

/-- `flush`, src/util/raft/log_store.cpp:314-337: key 0 is written and deleted in one
synchronous batch. -/
def flush {E : Type} (s : Store E) : Store E :=
  let db := s.db.filter fun p => p.1 != 0
  { s with db, past := [db] }

/-- What can happen to a log store. -/
inductive Op (E : Type) where
  | append (e : E)
  | writeAt (index : Nat) (e : E)
  | applyPack (index : Nat) (b : Bytes)
  | compact (last : Nat)
  | flush
  /-- the process ends (or is killed) and starts again -/
  | restart
  /-- the machine fails; the number says which writes reached the disk -/
  | powerLoss (kept : Nat)

/-- One operation; `none` if the process ends with an exception. -/
def step {E : Type} (c : Codec E) (s : Store E) : Op E → Option (Store E)
  | .append e => some (append s e).1
  | .writeAt i e => writeAt s i e
  | .applyPack i b => applyPack c s i b
  | .compact l => compact s l
  | .flush => some (flush s)
  | .restart => some (load s.db)
  | .powerLoss k => (s.past[k]?).map load

end Verif.Raft
