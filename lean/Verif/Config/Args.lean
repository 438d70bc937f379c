import Verif.Config.File
/-!
# The command line of the programmable system

Model of the functions that turn the arguments of a program into its
configuration (src/parsec/util.cpp:12-193), and of what the programs for a
shard, a ticket machine and an agent take from it.  An outcome `refused` is the
program ending with an error message, `throws` an exception that nobody catches,
`undefined` reading an optional value that is not there.

Simplifications: counts too large for the memory are not modelled; the number
behind a text with a decimal point is up to the platform.
-/
namespace Verif.Config.Args

open Verif.Evm (Outcome)
open Verif.Hex (Text)
open Verif.Http (lit stoull)

/-! ### Arguments -/

/-- `split` (src/parsec/util.cpp:12-26) for a delimiter that is not empty: the pieces
between the occurrences, found from the left.  `k` is what is left to skip of a
delimiter, `acc` the piece so far. -/
def split (d : Text) : Text → Nat → Text → List Text
  | [], _, acc => [acc]
  | _ :: r, k + 1, acc => split d r k acc
  | c :: r, 0, acc =>
    if d.isPrefixOf (c :: r) then acc :: split d r (d.length - 1) []
    else split d r 0 (acc ++ [c])

/-- One turn of the loop of `parse_args` (src/parsec/util.cpp:33-44): the name and
the value of an argument. -/
def parseArg (arg : Text) : Outcome (Text × Text) :=
  match split [45, 45] arg 0 [] with
  | [[], body] =>
    if body = [] then .refused
    else
      match split [61] body 0 [] with
      | [k, v] => .ok (k, v)
      | _ => .refused
  | _ => .refused

/-- `parse_args` (src/parsec/util.cpp:28-47) without the name of the program:
`emplace` keeps the first value of a name. -/
def parseArgs : List Text → List (Text × Text) → Outcome (List (Text × Text))
  | [], acc => .ok acc
  | a :: as, acc => do
    let x ← parseArg a
    parseArgs as (if (acc.lookup x.1).isSome then acc else acc ++ [x])

/-! ### The configuration -/

/-- `load_type` (src/parsec/util.hpp:15-20). -/
inductive Load
  | transfer | erc20
  deriving DecidableEq, Repr

/-- `runner_type` (src/parsec/util.hpp:23-28). -/
inductive Runner
  | lua | evm
  deriving DecidableEq, Repr

/-- `config` (src/parsec/util.hpp:31-54).  `config{}` (src/parsec/util.cpp:107) sets the
type of the load to its first value.  The rate is given by the 64 bits of the `double`. -/
structure Cfg where
  tickets : List Endpoint
  component : UInt64
  level : Level
  shards : List (List Endpoint)
  node : Option UInt64
  agents : List Endpoint
  runner : Runner
  accounts : UInt64
  load : Load
  contention : UInt64
  deriving DecidableEq

/-- The arguments, as they are looked up (src/parsec/util.cpp:50, 102). -/
abbrev Opts := Text → Option Text

/-- An argument that has to be there (src/parsec/util.cpp:56-59, 64-67, 83-85, 110-113). -/
def must (o : Opts) (k : Text) : Outcome Text :=
  match o k with
  | some t => .ok t
  | none => .refused

/-- `read_endpoints` (src/parsec/util.cpp:49-73). -/
def readEndpoints (o : Opts) (name : Text) : Outcome (List Endpoint) := do
  let t ← must o (name ++ lit "_count")
  let n ← stoull t
  readFrom (fun i => do
    let e ← must o (name ++ dec i ++ lit "_endpoint")
    parseIpPort e) n.toNat 0

/-- `read_cluster_endpoints` (src/parsec/util.cpp:75-98). -/
def readClusters (o : Opts) (name : Text) : Outcome (List (List Endpoint)) := do
  let t ← must o (name ++ lit "_count")
  let n ← stoull t
  readFrom (fun i => readEndpoints o (name ++ dec i)) n.toNat 0

/-- The level (src/parsec/util.cpp:116-124): a name that is not known is ignored. -/
def readLevel (o : Opts) : Level :=
  match o (lit "loglevel") with
  | some t => (parseLevel t).getD .trace
  | none => .trace

/-- The number of the node (src/parsec/util.cpp:133-137). -/
def readNode (o : Opts) : Outcome (Option UInt64) :=
  match o (lit "node_id") with
  | some t => do
    let n ← stoull t
    .ok (some n)
  | none => .ok none

/-- The type of the load (src/parsec/util.cpp:151-162). -/
def readLoad (o : Opts) : Outcome Load :=
  match o (lit "loadgen_txtype") with
  | some t =>
    if t = lit "transfer" then .ok .transfer
    else if t = lit "erc20" then .ok .erc20
    else .refused
  | none => .ok .transfer

/-- The rate of contention (src/parsec/util.cpp:164-169). -/
def readContention (p : Platform) (o : Opts) : Outcome UInt64 :=
  match o (lit "contention_rate") with
  | some t =>
    match p.stod t with
    | some d => .ok d
    | none => .throws
  | none => .ok 0

/-- The number of accounts (src/parsec/util.cpp:171-177). -/
def readAccounts (o : Opts) : Outcome UInt64 :=
  match o (lit "loadgen_accounts") with
  | some t => stoull t
  | none => .ok 1000

/-- The runner (src/parsec/util.cpp:179-190, src/parsec/util.hpp:46). -/
def readRunner (o : Opts) : Outcome Runner :=
  match o (lit "runner_type") with
  | some t =>
    if t = lit "evm" then .ok .evm
    else if t = lit "lua" then .ok .lua
    else .refused
  | none => .ok .evm

/-- The body of `read_config` (src/parsec/util.cpp:107-192). -/
def readOpts (p : Platform) (o : Opts) : Outcome Cfg := do
  let t ← must o (lit "component_id")
  let component ← stoull t
  let tickets ← readEndpoints o (lit "ticket_machine")
  let node ← readNode o
  let shards ← readClusters o (lit "shard")
  let agents ← readEndpoints o (lit "agent")
  let load ← readLoad o
  let contention ← readContention p o
  let accounts ← readAccounts o
  let runner ← readRunner o
  .ok ⟨tickets, component, readLevel o, shards, node, agents, runner, accounts, load, contention⟩

/-- `read_config` (src/parsec/util.cpp:100-193); `args` are the arguments without the
name of the program. -/
def readConfig (p : Platform) (args : List Text) : Outcome Cfg := do
  let l ← parseArgs args []
  readOpts p fun k => l.lookup k

/-! ### What the programs take from it -/

/-- Where a node listens: for requests, and together with the other nodes of its
cluster for the replication. -/
structure Role where
  own : Endpoint
  raft : List Endpoint
  deriving DecidableEq

/-- `new_ep.second++` (src/parsec/runtime_locking_shard/runtime_locking_shardd.cpp:32-37,
src/parsec/ticket_machine/ticket_machined.cpp:30-35): the port is a 16 bit number. -/
def raftOf (l : List Endpoint) : List Endpoint := l.map fun e => (e.1, e.2 + 1)

/-- The start of a shard (src/parsec/runtime_locking_shard/runtime_locking_shardd.cpp:15-43). -/
def shardRole (c : Cfg) : Outcome Role :=
  match c.shards[c.component.toNat]? with
  | none => .refused
  | some nodes =>
    match c.node with
    | none => .undefined
    | some n =>
      match nodes[n.toNat]? with
      | none => .refused
      | some e => .ok ⟨e, raftOf nodes⟩

/-- The start of a ticket machine (src/parsec/ticket_machine/ticket_machined.cpp:15-41). -/
def ticketRole (c : Cfg) : Outcome Role :=
  match c.tickets[c.component.toNat]? with
  | none => .refused
  | some e => .ok ⟨e, raftOf c.tickets⟩

/-- The start of an agent (src/parsec/agent/agentd.cpp:34-45, 122-155): it has no replicas. -/
def agentRole (c : Cfg) : Outcome Role :=
  match c.agents[c.component.toNat]? with
  | none => .refused
  | some e => .ok ⟨e, []⟩

end Verif.Config.Args
