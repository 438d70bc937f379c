import Verif.Config.File
/-!
# The programs of the two architectures

Model of the eight programs that are started with a configuration file and the
number of a component: what they make of their arguments, what the controllers
take from the options, and in which order they open their files, connect to
others and start to listen.

Simplifications: the file system gives a text for every name (a file that cannot
be opened is empty, as the assertion on it is not compiled); the program is
called with its own name as first argument; messages, threads, log files, the
seeding of a shard and the parameters of raft are left out.
-/
namespace Verif.Config.Daemon

open Verif.Evm (Outcome)
open Verif.Hex (Text)
open Verif.Http (stoull)

/-- The programs (src/uhs/atomizer/sentinel/sentineld.cpp,
src/uhs/atomizer/shard/shardd.cpp, src/uhs/atomizer/archiver/archiverd.cpp,
src/uhs/atomizer/watchtower/watchtowerd.cpp,
src/uhs/atomizer/atomizer/atomizer-raftd.cpp,
src/uhs/twophase/sentinel_2pc/sentineld_2pc.cpp,
src/uhs/twophase/locking_shard/locking_shardd.cpp,
src/uhs/twophase/coordinator/coordinatord.cpp). -/
inductive Program
  | sentinel | shard | archiver | watchtower | atomizer
  | sentinelTwo | lockingShard | coordinator
  deriving DecidableEq, Repr

/-- What a program does while it starts. -/
inductive Act
  /-- Opens a data base (src/uhs/atomizer/archiver/controller.cpp:67-84). -/
  | store (dir : Text)
  /-- Connects to each of them.  One that does not answer is kept and tried again
  later (`cluster_connect` without `error_fatal`,
  src/util/network/connection_manager.cpp:113-126). -/
  | contact (es : List Endpoint)
  /-- Connects to one after the other up to the first that does not answer, and
  goes on (`cluster_connect` with `error_fatal`, its result only logged,
  src/uhs/atomizer/atomizer/controller.cpp:61-64). -/
  | row (es : List Endpoint)
  /-- Connects or ends the program with an error
  (src/uhs/atomizer/sentinel/controller.cpp:59-62). -/
  | demand (e : Endpoint)
  /-- Waits until one of them answers (src/uhs/atomizer/watchtower/controller.cpp:71-84). -/
  | await (es : List Endpoint)
  /-- Joins the other nodes of its cluster as the node with this number
  (`raft::node::init`, src/util/raft/node.cpp:36-76). -/
  | join (me : Nat) (es : List Endpoint)
  /-- Listens (src/util/network/connection_manager.cpp:138-151). -/
  | serve (e : Endpoint)
  deriving DecidableEq

/-- What a program that starts has taken from its arguments and the options.  `plan` is done at
once, `leads` when it becomes the leader of its cluster. -/
structure Role where
  program : Program
  id : Nat
  node : Nat := 0
  level : Level
  samples : UInt64 := 0
  plan : List Act
  leads : List Act := []
  deriving DecidableEq

/-- How a program starts: it explains its usage and ends with a status, or reads
its arguments.  `refused` is an error message and the status -1 or 1. -/
inductive Start
  | usage (status : Int)
  | reads (x : Outcome Role)

/-! ### The controllers -/

/-- `m_shard_endpoints` with `m_shard_db_dirs` (src/util/common/config.hpp:162, 185). -/
def places (o : FullOptions) : List (Endpoint × Text) := o.shards.filterMap (·.place)

/-- `sentinel::controller` (src/uhs/atomizer/sentinel/controller.cpp:15-82). -/
def sentinelControl (o : FullOptions) (id : UInt32) (level : Level) : Outcome Role :=
  match o.sentinels[id.toNat]? with
  | none => .refused
  | some s =>
    match s.priv with
    | none => .refused
    | some _ => .ok {
        program := .sentinel
        id := id.toNat
        level
        plan := (places o).map (fun q => .contact [q.1])
          ++ ((o.sentinels.map (·.endpoint)).filter (· ≠ s.endpoint)).map .demand
          ++ [.serve s.endpoint] }

/-- `shard::controller` (src/uhs/atomizer/shard/controller.cpp:14-19, 42-102).  The range of
the shard, the first archiver, the directory and the endpoint are read without a check. -/
def shardControl (o : FullOptions) (id : UInt32) (level : Level) : Outcome Role :=
  match o.shards[id.toNat]?, o.archivers[0]?, (places o)[id.toNat]? with
  | some _, some a, some q => .ok {
      program := .shard
      id := id.toNat
      level
      plan := [.store q.2, .row [a.endpoint], .row (o.watchtowers.map (·.internal)),
        .contact (o.atomizers.map (·.endpoint)), .serve q.1] }
  | _, _, _ => .undefined

/-- `archiver::controller` (src/uhs/atomizer/archiver/controller.cpp:24-32, 48-142). -/
def archiverControl (o : FullOptions) (id : UInt32) (level : Level) (samples : UInt64) :
    Outcome Role :=
  match o.archivers[id.toNat]? with
  | none => .undefined
  | some a => .ok {
      program := .archiver
      id := id.toNat
      level
      samples
      plan := [.store a.db, .contact (o.atomizers.map (·.endpoint)), .serve a.endpoint] }

/-- `watchtower::controller` (src/uhs/atomizer/watchtower/controller.cpp:14-23, 43-93). -/
def watchtowerControl (o : FullOptions) (id : UInt32) (level : Level) : Outcome Role :=
  match o.archivers[0]?, o.watchtowers[id.toNat]? with
  | some a, some w => .ok {
      program := .watchtower
      id := id.toNat
      level
      plan := [.serve w.internal, .serve w.client, .contact (o.atomizers.map (·.endpoint)),
        .await (o.atomizers.map (·.endpoint)), .await [a.endpoint]] }
  | _, _ => .undefined

/-- `atomizer::controller` (src/uhs/atomizer/atomizer/controller.cpp:17-32, 60-101, 248-283). -/
def atomizerControl (o : FullOptions) (id : UInt32) (level : Level) : Outcome Role :=
  match o.atomizers[id.toNat]? with
  | none => .undefined
  | some a => .ok {
      program := .atomizer
      id := id.toNat
      level
      plan := [.row (o.watchtowers.map (·.internal)),
        .join id.toNat (o.atomizers.map (·.raft))]
      leads := [.serve a.endpoint] }

/-- How a client of a cluster connects (`tcp_client::init`, src/util/rpc/tcp_client.hpp:71-87):
a failure counts if there is only one node. -/
def client (es : List Endpoint) (single : Endpoint → Act) : List Act :=
  if es.length ≤ 1 then es.map single else [.contact es]

/-- `sentinel_2pc::controller` (src/uhs/twophase/sentinel_2pc/controller.cpp:15-94).  The
division is by zero if there are no coordinators.  A coordinator that is alone is tried
five times, and then left out. -/
def sentinelTwoControl (o : FullOptions) (id : UInt32) (level : Level) : Outcome Role :=
  if o.coordinators.length.toUInt32 = 0 then .undefined
  else match o.coordinators[(id % o.coordinators.length.toUInt32).toNat]? with
    | none => .undefined
    | some c =>
      match o.sentinels[id.toNat]? with
      | none => .refused
      | some s =>
        if s.priv = none ∧ 0 < o.threshold then .refused
        else .ok {
          program := .sentinelTwo
          id := id.toNat
          level
          plan := client (c.nodes.map (·.2)) (fun e => .row [e])
            ++ ((o.sentinels.map (·.endpoint)).filter (· ≠ s.endpoint)).map (fun e => .contact [e])
            ++ [.serve s.endpoint] }

/-- `i > size - 1`, computed with 64 bits
(src/uhs/twophase/locking_shard/controller.cpp:51, 67, 74). -/
def beyond (i : UInt64) (size : Nat) : Bool := decide (size.toUInt64 - 1 < i)

/-- `locking_shard::controller` (src/uhs/twophase/locking_shard/controller.cpp:17-134). -/
def lockingShardControl (o : FullOptions) (id node : UInt64) (level : Level) : Outcome Role :=
  if beyond id o.shards.length then .refused
  else if beyond id o.shardNodes.length then .refused
  else if o.shardNodes.any fun v => beyond node v.length then .refused
  else match o.shardNodes[id.toNat]? with
    | none => .undefined
    | some v =>
      match v[node.toNat]? with
      | none => .undefined
      | some n => .ok {
          program := .lockingShard
          id := id.toNat
          node := node.toNat
          level
          plan := [.join node.toNat (v.map (·.raft)), .serve n.readonly]
          leads := [.serve n.endpoint] }

/-- `coordinator::controller` (src/uhs/twophase/coordinator/controller.cpp:18-110, 471-489,
585-652). -/
def coordinatorControl (o : FullOptions) (id node : UInt64) (level : Level) : Outcome Role :=
  if beyond id o.coordinators.length then .refused
  else if o.coordinators.any fun v => beyond node v.nodes.length then .refused
  else match o.coordinators[id.toNat]? with
    | none => .undefined
    | some v =>
      match v.nodes[node.toNat]? with
      | none => .undefined
      | some n => .ok {
          program := .coordinator
          id := id.toNat
          node := node.toNat
          level
          plan := [.join node.toNat (v.nodes.map (·.1))]
          leads := o.shardNodes.flatMap (fun c => client (c.map (·.endpoint)) .demand)
            ++ [.serve n.2] }

/-! ### The programs -/

/-- The message that a component is not configured, and the status -1
(src/uhs/atomizer/sentinel/sentineld.cpp:31-34 and the others). -/
def configured {α : Type} (x : Option α) : Outcome α :=
  match x with
  | some a => .ok a
  | none => .refused

/-- `operator[]` of a vector. -/
def subscript {α : Type} (x : Option α) : Outcome α :=
  match x with
  | some a => .ok a
  | none => .undefined

/-- src/uhs/atomizer/sentinel/sentineld.cpp:15-46. -/
def sentineld (p : Platform) (files : Text → Text) : List Text → Start
  | _ :: path :: a :: _ => .reads do
      let id ← stoull a
      let o ← loadOptions p (files path)
      let s ← configured o.sentinels[id.toNat]?
      sentinelControl o id.toUInt32 s.level
  | _ => .usage (-1)

/-- src/uhs/atomizer/shard/shardd.cpp:16-45. -/
def shardd (p : Platform) (files : Text → Text) : List Text → Start
  | _ :: path :: a :: _ => .reads do
      let id ← stoull a
      let o ← loadOptions p (files path)
      let _ ← configured (places o)[id.toNat]?
      let s ← subscript o.shards[id.toNat]?
      shardControl o id.toUInt32 s.level
  | _ => .usage 0

/-- The last argument of an archiver (src/uhs/atomizer/archiver/archiverd.cpp:22-25). -/
def archiverSamples : List Text → Outcome UInt64
  | b :: _ => stoull b
  | [] => .ok 0

/-- src/uhs/atomizer/archiver/archiverd.cpp:12-53. -/
def archiverd (p : Platform) (files : Text → Text) : List Text → Start
  | _ :: path :: a :: more => .reads do
      let samples ← archiverSamples more
      let o ← loadOptions p (files path)
      let id ← stoull a
      let s ← configured o.archivers[id.toNat]?
      archiverControl o id.toUInt32 s.level samples
  | _ => .usage 0

/-- src/uhs/atomizer/watchtower/watchtowerd.cpp:14-42: the number is not checked. -/
def watchtowerd (p : Platform) (files : Text → Text) : List Text → Start
  | _ :: path :: a :: _ => .reads do
      let id ← stoull a
      let o ← loadOptions p (files path)
      let s ← subscript o.watchtowers[id.toNat]?
      watchtowerControl o id.toUInt32 s.level
  | _ => .usage 0

/-- src/uhs/atomizer/atomizer/atomizer-raftd.cpp:12-46. -/
def atomizerd (p : Platform) (files : Text → Text) : List Text → Start
  | _ :: path :: a :: _ => .reads do
      let id ← stoull a
      let o ← loadOptions p (files path)
      let s ← configured o.atomizers[id.toNat]?
      atomizerControl o id.toUInt32 s.level
  | _ => .usage 0

/-- src/uhs/twophase/sentinel_2pc/sentineld_2pc.cpp:12-52. -/
def sentinelTwod (p : Platform) (files : Text → Text) : List Text → Start
  | _ :: path :: a :: _ => .reads do
      let id ← stoull a
      let o ← loadOptions p (files path)
      let s ← configured o.sentinels[id.toNat]?
      sentinelTwoControl o id.toUInt32 s.level
  | _ => .usage (-1)

/-- src/uhs/twophase/locking_shard/locking_shardd.cpp:14-54. -/
def lockingShardd (p : Platform) (files : Text → Text) : List Text → Start
  | _ :: path :: a :: b :: _ => .reads do
      let o ← loadOptions p (files path)
      let id ← stoull a
      let node ← stoull b
      let v ← configured o.shardNodes[id.toNat]?
      let _ ← configured v[node.toNat]?
      let s ← subscript o.shards[id.toNat]?
      lockingShardControl o id node s.level
  | _ => .usage 0

/-- src/uhs/twophase/coordinator/coordinatord.cpp:13-55. -/
def coordinatord (p : Platform) (files : Text → Text) : List Text → Start
  | _ :: path :: a :: b :: _ => .reads do
      let o ← loadOptions p (files path)
      let id ← stoull a
      let node ← stoull b
      let v ← configured o.coordinators[id.toNat]?
      let _ ← configured v.nodes[node.toNat]?
      coordinatorControl o id node v.level
  | _ => .usage 0

/-- The `main` of each program. -/
def start (p : Platform) (files : Text → Text) : Program → List Text → Start
  | .sentinel => sentineld p files
  | .shard => shardd p files
  | .archiver => archiverd p files
  | .watchtower => watchtowerd p files
  | .atomizer => atomizerd p files
  | .sentinelTwo => sentinelTwod p files
  | .lockingShard => lockingShardd p files
  | .coordinator => coordinatord p files

end Verif.Config.Daemon
