import Verif.Archiver.Props
import Verif.Atomizer.Blocks

/-!
Model of the thread of a shard that digests blocks, `src/uhs/atomizer/shard/controller.cpp:112-154`, of the archiver
client it catches up with, `src/uhs/atomizer/archiver/client.cpp:19-45`, and of the archiver at the other end,
`src/uhs/atomizer/archiver/controller.cpp:147-173`.

Simplified: one exchange between the client and the archiver is one step. The 10 ms pauses are steps that change
nothing. A connection that has failed once fails for ever, as the client never connects again
(`src/uhs/atomizer/archiver/client.cpp:26-36`); a read interrupted by a signal, which also counts as a failure there, is not
modelled. The atomizer connection is the list of packets not yet taken, `src/util/network/connection_manager.cpp`.
-/
namespace Verif.Catchup

open Verif.Tx Verif.Serial Verif.Atomizer
open Verif.Archiver (decodeBlock encodeBlock FitsB)

/-- `from_buffer<atomizer::block>`, `src/uhs/atomizer/shard/controller.cpp:114`, `src/uhs/atomizer/archiver/controller.cpp:160`:
a block, nothing, or an exception (outer `none`). -/
def readPacket (b : Bytes) : Option (Option Block) :=
  match fromBuffer tBlock b with
  | some (some v) => (Block.ofWire v).map some
  | some none => some none
  | none => none

/-- `archiver::response`, `src/uhs/atomizer/archiver/messages.hpp`, as the archiver's `server_handler` writes it,
`src/uhs/atomizer/archiver/controller.cpp:154-155`. -/
def encodeResponse (r : Option Block) : Bytes := makeBuffer (.opt tBlock) (r.map Block.wire)

/-- The response as the client reads it, `src/uhs/atomizer/archiver/client.cpp:38-44`. The outer `none` is an exception. -/
def decodeResponse (b : Bytes) : Option (Option Block) :=
  match fromBuffer (.opt tBlock) b with
  | some (some (some v)) => (Block.ofWire v).map some
  | some (some none) => some none
  | some none => some none
  | none => none

/-- Where the thread is: waiting for a packet, about to digest the block, or in the loop that asks for earlier ones,
`src/uhs/atomizer/shard/controller.cpp:126,137`. -/
inductive Mode where
  | idle
  | digest (b : Block)
  | fetch (b : Block) (i : UInt64)
  deriving DecidableEq

/-- The shard with its thread, the packets it has not taken, the connection to the archiver and the archiver. -/
structure State where
  shard : Shard
  mode : Mode
  inbox : List Bytes
  connected : Bool
  archiver : Archiver.State

/-- What happens: a packet from the atomizer reaches the shard or the archiver, the shard's thread moves, the
connection between the two breaks, the archiver restarts (which breaks it too), or the shard restarts and finds the
archiver or not (`src/uhs/atomizer/shard/controller.cpp:52-54` only warns). -/
inductive Ev where
  | arrive (b : Bytes)
  | toArchiver (b : Bytes)
  | tick
  | cut
  | restartArchiver
  | restartShard (found : Bool)

/-- `client::get_block`, `src/uhs/atomizer/archiver/client.cpp:23-45`, with the archiver's `server_handler`,
`src/uhs/atomizer/archiver/controller.cpp:147-156`. The outer `none` is a failed assertion or an exception. -/
def State.ask (s : State) (h : UInt64) : Option (Option Block) :=
  if s.connected then
    match s.archiver.getBlock h with
    | some r => decodeResponse (encodeResponse r)
    | none => none
  else some none

/-- One move of the thread, `src/uhs/atomizer/shard/controller.cpp:112-154`. -/
def State.move (s : State) : Option State :=
  match s.mode with
  | .idle =>
    match s.inbox with
    | [] => some s
    | p :: ps =>
      match readPacket p with
      | none => none
      | some none => some { s with inbox := ps }
      | some (some b) => some { s with inbox := ps, mode := .digest b }
  | .digest b =>
    let r := s.shard.digestBlock b
    if r.2 then some { s with shard := r.1, mode := .idle }
    else if b.height ≤ s.shard.best then some { s with mode := .idle }
    else some { s with mode := .fetch b (s.shard.best + 1) }
  | .fetch b i =>
    if i < b.height then
      match s.ask i with
      | none => none
      | some none => some s
      | some (some past) => some { s with shard := (s.shard.digestBlock past).1, mode := .fetch b (i + 1) }
    else some { s with mode := .digest b }

/-- One event; `none` when a process dies. The archiver's handler is `src/uhs/atomizer/archiver/controller.cpp:158-173`. -/
def State.step (s : State) : Ev → Option State
  | .arrive b => some { s with inbox := s.inbox ++ [b] }
  | .toArchiver p =>
    match readPacket p with
    | none => none
    | some none => some s
    | some (some b) => (s.archiver.step (.block b)).map fun r => { s with archiver := r.1 }
  | .tick => s.move
  | .cut => some { s with connected := false }
  | .restartArchiver =>
    (s.archiver.step .restart).map fun r => { s with archiver := r.1, connected := false }
  | .restartShard found =>
    some { s with shard := Shard.openDb s.shard.range s.shard.disk, mode := .idle, inbox := [], connected := found }

/-- Events in order. -/
def State.run (s : State) : List Ev → Option State
  | [] => some s
  | e :: es => (s.step e).bind fun s' => s'.run es

/-- A shard and an archiver with empty databases; the shard may have failed to reach the archiver. `seed` are the ids
put into the database beforehand. -/
def start (range : UInt8 × UInt8) (seed : Hash → Bool) (found : Bool) : State :=
  ⟨Shard.openDb range ⟨seed, none⟩, .idle, [], found, Archiver.fresh⟩

end Verif.Catchup
