import Verif.Serial.Model

/-!
Model of the files in which a raft node keeps its term, its vote and its cluster,
`src/util/raft/state_manager.cpp` and `src/util/raft/node.cpp`.

NuRaft is outside: it is taken to vote as raft prescribes, to call `save_state` before an answer to a request for a vote
leaves the node, and to handle one request at a time. A file operation is one step, between which the process may be
killed; what the process has written by then stays. The loss of power is a separate event.
-/
namespace Verif.Raft.State

open Verif.Serial

/-- What `srv_state` holds as far as votes go: the term and the vote in it. -/
structure Srv where
  term : Nat
  voted : Option Nat
  deriving DecidableEq

/-- `srv_state::serialize` and `deserialize` of NuRaft, which throws for other bytes (`none`). -/
structure Codec where
  enc : Srv → Bytes
  dec : Bytes → Option Srv

/-- The file and the temporary file beside it. -/
structure Fs where
  main : Option Bytes
  tmp : Option Bytes
  deriving DecidableEq

/-- The file operations of `save_object`. -/
inductive Op where
  | openTmp
  | write (b : Bytes)
  | rename
  deriving DecidableEq

/-- One file operation; `none` if it throws. Only `rename` does: errors of streams are not looked at. -/
def Op.run (fs : Fs) : Op → Option Fs
  | .openTmp => some { fs with tmp := some [] }
  | .write b => some { fs with tmp := fs.tmp.map (· ++ b) }
  | .rename => fs.tmp.map fun b => { main := some b, tmp := none }

/-- `save_object`, `src/util/raft/state_manager.cpp:28-44`, with the bytes in the pieces in which the stream hands them on; fewer
bytes arrive if the disk is full. -/
def saveOps (pieces : List Bytes) : List Op :=
  [.openTmp] ++ pieces.map .write ++ [.rename]

/-- What `load_object` gives: no file, an object, or an exception. -/
inductive Loaded where
  | absent
  | got (s : Srv)
  | throws
  deriving DecidableEq

/-- `load_object`, `src/util/raft/state_manager.cpp:46-63`. -/
def load (C : Codec) (fs : Fs) : Loaded :=
  match fs.main with
  | none => .absent
  | some b =>
    match C.dec b with
    | none => .throws
    | some s => .got s

/-- A run of file operations, as far as the process gets. -/
def runOps (fs : Fs) : List Op → Option Fs
  | [] => some fs
  | o :: os => match o.run fs with
    | none => none
    | some fs' => runOps fs' os

/-- A node. `mem` is what it holds in memory, `none` while it is down; `ops` the rest of a save under way and `reply` the vote
that will be sent when it is done; `older` all contents the file had, for the loss of power. -/
structure Node where
  fs : Fs
  mem : Option Srv
  ops : List Op
  reply : Option (Nat × Nat)
  older : List (Option Bytes)
  deriving DecidableEq

/-- A vote that was sent: voter, term and candidate. -/
structure Grant where
  voter : Nat
  term : Nat
  cand : Nat
  deriving DecidableEq

/-- The nodes and the votes sent so far. -/
structure Sys where
  nodes : Nat → Node
  grants : List Grant

/-- What happens at a node: it is asked for a vote (or asks for its own), hears of a term, goes on with a save, is killed, is
started, or loses its power. -/
inductive Ev where
  | vote (n term cand : Nat) (pieces : List Bytes)
  | learn (n term : Nat) (pieces : List Bytes)
  | move (n : Nat)
  | kill (n : Nat)
  | start (n : Nat)
  | power (n version keep : Nat)
  deriving DecidableEq

/-- The rule of raft for a vote. -/
def mayVote (s : Srv) (term cand : Nat) : Bool :=
  s.term < term || (s.term == term && (s.voted == none || s.voted == some cand))

/-- `save_state`, `src/util/raft/state_manager.cpp:91-93`, is begun, with the reply that follows it. -/
def Node.save (nd : Node) (s : Srv) (pieces : List Bytes) (reply : Option (Nat × Nat)) : Node :=
  { nd with mem := some s, ops := saveOps pieces, reply := reply }

/-- The node is not in the middle of a save. -/
def Node.idle (nd : Node) : Bool := nd.ops == [] && nd.reply == none

/-- A request for a vote. -/
def Node.vote (nd : Node) (term cand : Nat) (pieces : List Bytes) : Node :=
  match nd.mem with
  | some s => if nd.idle && mayVote s term cand then nd.save ⟨term, some cand⟩ pieces (some (term, cand)) else nd
  | none => nd

/-- A message with a later term. -/
def Node.learn (nd : Node) (term : Nat) (pieces : List Bytes) : Node :=
  match nd.mem with
  | some s => if nd.idle && decide (s.term < term) then nd.save ⟨term, none⟩ pieces none else nd
  | none => nd

/-- The next file operation; an exception ends the process. -/
def Node.move (nd : Node) : Node × Option (Nat × Nat) :=
  match nd.ops with
  | [] => ({ nd with reply := none }, nd.reply)
  | o :: os =>
    match o.run nd.fs with
    | some fs => ({ nd with fs := fs, ops := os, older := if fs.main = nd.fs.main then nd.older else nd.fs.main :: nd.older }, none)
    | none => ({ nd with mem := none, ops := [], reply := none }, none)

/-- The process is gone. -/
def Node.kill (nd : Node) : Node := { nd with mem := none, ops := [], reply := none }

/-- `init`, `src/util/raft/node.cpp:35-79`: NuRaft reads the state with `read_state`, `src/util/raft/state_manager.cpp:95-98`, and begins
with an empty one if there is none. -/
def Node.start (C : Codec) (nd : Node) : Node :=
  match nd.mem with
  | some _ => nd
  | none =>
    match load C nd.fs with
    | .absent => { nd with mem := some ⟨0, none⟩ }
    | .got s => { nd with mem := some s }
    | .throws => nd

/-- Without `fsync`, what is found after a loss of power is any content the file had, or the beginning of it. -/
def Node.power (nd : Node) (version keep : Nat) : Node :=
  { nd.kill with fs := { main := (((nd.fs.main :: nd.older)[version]?).getD none).map (·.take keep), tmp := none } }

/-- A node is replaced. -/
def Sys.set (s : Sys) (n : Nat) (nd : Node) : Sys := { s with nodes := fun i => if i = n then nd else s.nodes i }

/-- One event. -/
def step (C : Codec) (s : Sys) : Ev → Sys
  | .vote n t c ps => s.set n ((s.nodes n).vote t c ps)
  | .learn n t ps => s.set n ((s.nodes n).learn t ps)
  | .move n =>
    let r := (s.nodes n).move
    let s' := s.set n r.1
    match r.2 with
    | some v => { s' with grants := s'.grants ++ [⟨n, v.1, v.2⟩] }
    | none => s'
  | .kill n => s.set n (s.nodes n).kill
  | .start n => s.set n ((s.nodes n).start C)
  | .power n v k => s.set n ((s.nodes n).power v k)

/-- Events one after the other. -/
def run (C : Codec) (s : Sys) (evs : List Ev) : Sys := evs.foldl (step C) s

/-- No files and no process. -/
def new : Sys := { nodes := fun _ => ⟨⟨none, none⟩, none, [], none, []⟩, grants := [] }

/-! ### The cluster -/

/-- An entry of `cluster_config`: id, endpoint, and priority. -/
structure Server where
  id : Nat
  endpoint : Bytes × Nat
  priority : Nat
  deriving DecidableEq

/-- `load_config`, `src/util/raft/state_manager.cpp:65-85`, with `stored` what the file holds. The default priority of NuRaft is 1. -/
def loadConfig (stored : Option (List Server)) (endpoints : List (Bytes × Nat)) : List Server :=
  match stored with
  | some c => c
  | none => endpoints.mapIdx fun i e => ⟨i + 1, e, if i = 0 then 100 else 1⟩

/-- The id under which a node runs, `src/util/raft/node.cpp:17-18`. -/
def serverId (node : Nat) : Nat := node + 1

end Verif.Raft.State
