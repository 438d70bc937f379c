import Verif.Atomizer.Snapshot

/-!
Model of the archiver, `src/uhs/atomizer/archiver/controller.cpp`.

Not modelled: throughput samples (`227-238`), the stop after `max_samples` (`165-168`), logging. A
database write succeeds and is durable (`m_write_options` has `sync` set, `src/uhs/atomizer/archiver/controller.cpp:22`).
-/
namespace Verif.Archiver

open Verif.Tx Verif.Serial Verif.Atomizer

/-- The keys of the database: the decimal heights and `m_bestblock_key`. -/
inductive Key where
  | height (h : UInt64)
  | best
  deriving DecidableEq

/-- The values: bytes of a block, or a decimal height. -/
inductive Value where
  | blk (b : Bytes)
  | num (h : UInt64)

/-- The database, `m_best_height` and `m_deferred`, `src/uhs/atomizer/archiver/controller.hpp:103-125`. -/
structure State where
  db : Key → Option Value
  best : UInt64
  deferred : List (UInt64 × Block)

/-- Messages to the atomizer cluster. -/
inductive Out where
  | request (h : UInt64)
  | prune (h : UInt64)
  deriving DecidableEq

/-- Write one key. -/
def put (db : Key → Option Value) (k : Key) (v : Value) : Key → Option Value :=
  fun k' => if k' = k then some v else db k'

/-- The stored best height; `std::stoul` of anything else would throw. -/
def readBest (db : Key → Option Value) : Option UInt64 :=
  match db .best with
  | some (.num h) => some h
  | _ => none

/-- `init_best_block`, `src/uhs/atomizer/archiver/controller.cpp:86-100`, on the database found at start; nothing is
deferred. -/
def start (db : Key → Option Value) : State :=
  match readBest db with
  | some h => ⟨db, h, []⟩
  | none => ⟨put db .best (.num 0), 0, []⟩

/-- `make_buffer(blk)`. -/
def encodeBlock (b : Block) : Bytes := makeBuffer tBlock b.wire

/-- `from_buffer<block>`. -/
def decodeBlock (b : Bytes) : Option Block :=
  match fromBuffer tBlock b with
  | some (some v) => Block.ofWire v
  | _ => none

/-- `m_deferred.find`. -/
def State.held (s : State) (h : UInt64) : Option Block :=
  (s.deferred.find? fun p => p.1 == h).map Prod.snd

/-- `digest_block`, `src/uhs/atomizer/archiver/controller.cpp:177-259`. The first argument bounds the recursion; `none` is
running out of it. -/
def digest : Nat → State → Block → Option (State × List Out)
  | 0, _, _ => none
  | fuel + 1, s, b =>
    let best := if s.best = 0 then (readBest s.db).getD s.best else s.best
    let s := { s with best := best }
    if b.height ≤ s.best then some (s, [])
    else if b.height ≠ s.best + 1 then
      let req := if (s.held (b.height - 1)).isSome then [] else [Out.request (b.height - 1)]
      -- `emplace` keeps an entry already present
      let deferred := if (s.held b.height).isSome then s.deferred else s.deferred ++ [(b.height, b)]
      some ({ s with deferred := deferred }, req)
    else
      let db := put (put s.db (.height b.height) (.blk (encodeBlock b))) .best (.num b.height)
      let next := s.held (b.height + 1)
      let s' : State := ⟨db, s.best + 1, s.deferred.filter fun p => p.1 != b.height⟩
      match next with
      | none => some (s', [.prune (s.best + 1)])
      | some b' =>
        match digest fuel s' b' with
        | none => none
        | some (s'', outs) => some (s'', .prune (s.best + 1) :: outs)

/-- `get_block`, `src/uhs/atomizer/archiver/controller.cpp:261-284`. The outer `none` is the failed assertion that the stored
bytes are a block. -/
def State.getBlock (s : State) (h : UInt64) : Option (Option Block) :=
  match s.db (.height h) with
  | some (.blk b) => (decodeBlock b).map some
  | some (.num _) => none
  | none => some none

/-- What happens to an archiver: a block arrives from the atomizer, or the process restarts. -/
inductive Ev where
  | block (b : Block)
  | restart

/-- One event. -/
def State.step (s : State) : Ev → Option (State × List Out)
  | .block b => digest (s.deferred.length + 1) s b
  | .restart => some (start s.db, [])

/-- A sequence of events and everything sent. -/
def State.run (s : State) : List Ev → Option (State × List Out)
  | [] => some (s, [])
  | e :: es => do
    let (s', o) ← s.step e
    let (s'', o') ← s'.run es
    some (s'', o ++ o')

/-- An archiver on an empty database. -/
def fresh : State := start fun _ => none

end Verif.Archiver
