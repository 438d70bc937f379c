import Verif.Crypto.Sha256
import Verif.Serial.Model

/-!
# The source of random numbers

`random_source` (`src/util/common/random_source.{hpp,cpp}`) makes the private keys of wallets
(`src/uhs/transaction/wallet.cpp:139-144`) and the identifiers of distributed transactions
(`src/uhs/twophase/coordinator/controller.cpp:390,623`).  It reads 32 bytes of a file, writes them
to an object of class `CSHA256`, and from then on gives out the bytes of hashes.

What is modelled: the constructor, `operator()`, `random_hash` and `hash_at_index`.  `operator()`
holds a mutex from its first to its last statement, so calls of different threads come one after
another and a list of calls is all there is.
-/

namespace Verif.Sha256

open Verif.Serial (encInt leNat)

/-- The members of `random_source` (`src/util/common/random_source.hpp:68-73`). -/
structure Source where
  buf : List UInt8
  sha : Sha
  counter : UInt64
deriving DecidableEq, Repr

/-- How the constructor ends. -/
inductive Made where
  | abort
  | undefined
  | made (s : Source)
deriving DecidableEq, Repr

/-- The constructor (`src/util/common/random_source.cpp:14-25`).  `file` is what can be read of the
file, `none` if it cannot be opened; reading from a stream that is not open reads nothing.  The two
assertions are there only if `NDEBUG` is not defined; `scripts/build.sh:15` notes that release
builds define it. -/
def Source.new (ndebug : Bool) (file : Option (List UInt8)) (memory : List UInt8) : Made :=
  if !ndebug && file.isNone then .abort
  else
    let got := (file.getD []).take 32
    if !ndebug && got.length ≠ 32 then .abort
    else
      let dest := got ++ List.replicate (32 - got.length) 0
      match (Sha.new memory).write dest with
      | none => .undefined
      | some sha => .made ⟨[], sha, 0⟩

/-- `hash_at_index` (`src/util/common/random_source.cpp:53-60`): on the member itself, neither copied
nor reset.  The index is stored as the machine stores it, taken to be little endian. -/
def Source.hashAtIndex (s : Source) (idx : UInt64) : Option (Source × List UInt8) :=
  match s.sha.write (encInt 8 idx.toNat) with
  | none => none
  | some x =>
    match x.finalize with
    | none => none
    | some (y, d) => some ({ s with sha := y }, d)

/-- The inside of the loop of `operator()` (`src/util/common/random_source.cpp:32-39`). -/
def Source.nextByte (s : Source) : Option (Source × UInt8) :=
  match s.buf with
  | b :: rest => some ({ s with buf := rest }, b)
  | [] =>
    match s.hashAtIndex s.counter with
    | none => none
    | some (s', h) =>
      match h with
      | [] => none
      | b :: rest => some ({ s' with
          buf := rest
          counter := s.counter + 1 }, b)

/-- Several turns of that loop. -/
def Source.bytes (s : Source) : Nat → Option (Source × List UInt8)
  | 0 => some (s, [])
  | n + 1 =>
    match s.nextByte with
    | none => none
    | some (s', b) =>
      match s'.bytes n with
      | none => none
      | some (s'', bs) => some (s'', b :: bs)

/-- `operator()` (`src/util/common/random_source.cpp:27-43`). -/
def Source.call (s : Source) : Option (Source × UInt32) :=
  match s.bytes 4 with
  | none => none
  | some (s', bs) => some (s', UInt32.ofNat (leNat bs))

/-- Several calls of `operator()`, one after another. -/
def Source.calls (s : Source) : Nat → Option (Source × List UInt32)
  | 0 => some (s, [])
  | n + 1 =>
    match s.call with
    | none => none
    | some (s', w) =>
      match s'.calls n with
      | none => none
      | some (s'', ws) => some (s'', w :: ws)

/-- `random_hash` (`src/util/common/random_source.cpp:45-52`), with nobody else using the source: 32
numbers, each made into a byte by `std::uniform_int_distribution<unsigned char>`.  The standard leaves
that distribution undefined for this type; the library of the compiler multiplies by the number of
values and drops the lower 32 bits, which is the upper byte. -/
def Source.randomHash (s : Source) : Option (Source × List UInt8) :=
  match s.calls 32 with
  | none => none
  | some (s', ws) => some (s', ws.map (fun w : UInt32 => (w >>> 24).toUInt8))

end Verif.Sha256
