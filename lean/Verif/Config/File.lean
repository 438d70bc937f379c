import Verif.Config.Model
import Verif.Http.Json
/-!
# The configuration file

Model of the class `parser` and of `read_options` and `load_options`
(src/util/common/config.cpp, src/util/common/config.hpp).  An outcome `refused`
is an error message (which one is not modelled), `throws` an exception that
ends the program, `undefined` a read outside a string or a key with bytes that
were never written.

Simplifications: the program is compiled without assertions; a file that cannot
be opened, and counts too large for the memory, are not modelled; the vectors
that belong to a kind of component are one list with a record for each
component; the number behind a text with a decimal point is up to the platform.
-/
namespace Verif.Config

open Verif.Evm (Outcome)
open Verif.Hex (Text HashRes hashFromHex)
open Verif.Http (lit stoull)
open Verif.Serial (Bytes)

/-! ### The parser -/

/-- What the program gets from the system: the environment, and the conversion
of a text into a `double` (`std::stod`), which is represented by its 64 bits
(src/util/common/config.cpp:833, 852). -/
structure Platform where
  getenv : Text → Option Text
  stod : Text → Option UInt64

/-- `value_t` (src/util/common/config.hpp:369). -/
inductive Val
  | str (t : Text)
  | num (n : UInt64)
  | dbl (d : UInt64)
  deriving DecidableEq, Repr

/-- The lines that `std::getline` yields (src/util/common/config.cpp:778). -/
def splitLines : Text → Text → List Text
  | [], acc => if acc = [] then [] else [acc]
  | c :: r, acc => if c = 10 then acc :: splitLines r [] else splitLines r (acc ++ [c])

/-- A line taken apart (src/util/common/config.cpp:779-785): the key ends at the
first `=`; a line without one, or with nothing behind it, is skipped. -/
def entry (line : Text) : Option (Text × Text) :=
  match line.dropWhile (· ≠ 61) with
  | _ :: c :: v => some (line.takeWhile (· ≠ 61), c :: v)
  | _ => none

/-- `parse_value` (src/util/common/config.cpp:846-858).  For an empty text
`value[value.size() - 1]` is outside the string. -/
def parseValue (p : Platform) (v : Text) : Outcome Val :=
  match v with
  | [] => .undefined
  | c :: r =>
    if c ≠ 34 ∧ (c :: r).getLast? ≠ some 34 then
      if 46 ∉ v then do
        let n ← stoull v
        .ok (.num n)
      else
        match p.stod v with
        | some d => .ok (.dbl d)
        | none => .throws
    else .ok (.str (r.take (v.length - 2)))

/-- `init` (src/util/common/config.cpp:776-788): `emplace` keeps the first value
of a key. -/
def parseLines (p : Platform) : List Text → List (Text × Val) → Outcome (List (Text × Val))
  | [], acc => .ok acc
  | l :: ls, acc =>
    match entry l with
    | none => parseLines p ls acc
    | some (k, v) => do
      let x ← parseValue p v
      parseLines p ls (if (acc.lookup k).isSome then acc else acc ++ [(k, x)])

/-- The constructor (src/util/common/config.cpp:765-774). -/
def parse (p : Platform) (file : Text) : Outcome (List (Text × Val)) :=
  parseLines p (splitLines file []) []

/-- `std::toupper` in the default locale (src/util/common/config.cpp:827-832). -/
def upper (t : Text) : Text := t.map fun c => if 97 ≤ c ∧ c ≤ 122 then c - 32 else c

/-- What the parser answers for a key (`find_or_env`, src/util/common/config.hpp:371-372). -/
abbrev Source := Text → Outcome (Option Val)

/-- `find_or_env` (src/util/common/config.cpp:824-844). -/
def findOrEnv (p : Platform) (opts : List (Text × Val)) : Source := fun k =>
  match p.getenv (upper k) with
  | some e => do
    let x ← parseValue p e
    .ok (some x)
  | none => .ok (opts.lookup k)

/-- `get_ulong` (src/util/common/config.cpp:795-798, src/util/common/config.hpp:374-386). -/
def getNum (src : Source) (k : Text) : Outcome (Option UInt64) := do
  match ← src k with
  | some (.num n) => .ok (some n)
  | _ => .ok none

/-- `get_string` (src/util/common/config.cpp:790-793). -/
def getStr (src : Source) (k : Text) : Outcome (Option Text) := do
  match ← src k with
  | some (.str t) => .ok (some t)
  | _ => .ok none

/-- `get_decimal` (src/util/common/config.cpp:819-822). -/
def getDbl (src : Source) (k : Text) : Outcome (Option UInt64) := do
  match ← src k with
  | some (.dbl d) => .ok (some d)
  | _ => .ok none

/-- `endpoint_t` (src/util/network/socket.hpp:19). -/
abbrev Endpoint := Text × UInt16

/-- `parse_ip_port` (src/util/common/config.cpp:13-30): host up to the first colon,
port up to the second one; the port is cut to 16 bits. -/
def parseIpPort (t : Text) : Outcome Endpoint := do
  let n ← stoull (((t.dropWhile (· ≠ 58)).drop 1).takeWhile (· ≠ 58))
  .ok (t.takeWhile (· ≠ 58), n.toUInt16)

/-- `get_endpoint` (src/util/common/config.cpp:800-808). -/
def getEndpoint (src : Source) (k : Text) : Outcome (Option Endpoint) := do
  match ← getStr src k with
  | none => .ok none
  | some t => do
    let e ← parseIpPort t
    .ok (some e)

/-- `log_level` (src/util/common/logging.hpp:33-47). -/
inductive Level
  | trace | debug | info | warn | error | fatal
  deriving DecidableEq, Repr

/-- `parse_loglevel` (src/util/common/logging.cpp:70-90). -/
def parseLevel (t : Text) : Option Level :=
  if t = lit "TRACE" then some .trace
  else if t = lit "DEBUG" then some .debug
  else if t = lit "INFO" then some .info
  else if t = lit "WARN" then some .warn
  else if t = lit "ERROR" then some .error
  else if t = lit "FATAL" then some .fatal
  else none

/-- `get_loglevel` (src/util/common/config.cpp:810-817) with the default
(src/util/common/config.hpp:67). -/
def getLevel (src : Source) (k : Text) : Outcome Level := do
  match ← getStr src k with
  | none => .ok .warn
  | some t => .ok ((parseLevel t).getD .warn)

/-! ### The names of the settings -/

/-- A number in decimal, as a stream writes it (src/util/common/config.cpp:32-242). -/
def dec (n : Nat) : Text :=
  if n < 10 then [(48 + n).toUInt8] else dec (n / 10) ++ [(48 + n % 10).toUInt8]

/-- The settings that stand alone (src/util/common/config.hpp:73-126). -/
inductive Scalar
  | twoPhase | threshold | sentinels | shards | atomizers | archivers | watchtowers
  | coordinators | completedTxs | seedFrom | seedTo | seedKey | seedValue | threads
  | blockInterval | stxoDepth | blockCache | errorCache | electionUpper | electionLower
  | heartbeat | snapshotDistance | raftBatch | batchSize | inputCount | outputCount
  | invalidRate | fixedRate | windowSize | mintCount | mintValue | loadgens
  deriving DecidableEq, Repr

/-- The kinds of components (src/util/common/config.hpp:75-115). -/
inductive Kind
  | sentinel | shard | atomizer | archiver | watchtower | coordinator
  deriving DecidableEq, Repr

/-- What can be set for a component (src/util/common/config.hpp:70-125). -/
inductive Field
  | endpoint | loglevel | raftEndpoint | db | start | stop | count | readonly
  | clientEndpoint | internalEndpoint | privateKey | publicKey
  deriving DecidableEq, Repr

/-- src/util/common/config.hpp:73-126. -/
def Scalar.name : Scalar → Text
  | .twoPhase => lit "2pc"
  | .threshold => lit "attestation_threshold"
  | .sentinels => lit "sentinel_count"
  | .shards => lit "shard_count"
  | .atomizers => lit "atomizer_count"
  | .archivers => lit "archiver_count"
  | .watchtowers => lit "watchtower_count"
  | .coordinators => lit "coordinator_count"
  | .completedTxs => lit "shard_completed_txs_cache_size"
  | .seedFrom => lit "seed_from"
  | .seedTo => lit "seed_to"
  | .seedKey => lit "seed_privkey"
  | .seedValue => lit "seed_value"
  | .threads => lit "coordinator_max_threads"
  | .blockInterval => lit "target_block_interval"
  | .stxoDepth => lit "stxo_cache_depth"
  | .blockCache => lit "watchtower_block_cache_size"
  | .errorCache => lit "watchtower_error_cache_size"
  | .electionUpper => lit "election_timeout_upper"
  | .electionLower => lit "election_timeout_lower"
  | .heartbeat => lit "heartbeat"
  | .snapshotDistance => lit "snapshot_distance"
  | .raftBatch => lit "raft_max_batch"
  | .batchSize => lit "batch_size"
  | .inputCount => lit "loadgen_sendtx_input_count"
  | .outputCount => lit "loadgen_sendtx_output_count"
  | .invalidRate => lit "loadgen_invalid_tx_rate"
  | .fixedRate => lit "loadgen_fixed_tx_rate"
  | .windowSize => lit "window_size"
  | .mintCount => lit "initial_mint_count"
  | .mintValue => lit "initial_mint_value"
  | .loadgens => lit "loadgen_count"

/-- src/util/common/config.hpp:75, 80, 82, 88, 105, 115. -/
def Kind.name : Kind → Text
  | .sentinel => lit "sentinel"
  | .shard => lit "shard"
  | .atomizer => lit "atomizer"
  | .archiver => lit "archiver"
  | .watchtower => lit "watchtower"
  | .coordinator => lit "coordinator"

/-- src/util/common/config.hpp:70-125. -/
def Field.name : Field → Text
  | .endpoint => lit "endpoint"
  | .loglevel => lit "loglevel"
  | .raftEndpoint => lit "raft_endpoint"
  | .db => lit "db"
  | .start => lit "start"
  | .stop => lit "end"
  | .count => lit "count"
  | .readonly => lit "readonly_endpoint"
  | .clientEndpoint => lit "client_endpoint"
  | .internalEndpoint => lit "internal_endpoint"
  | .privateKey => lit "private_key"
  | .publicKey => lit "public_key"

/-- A setting: one that stands alone, one of a component, or one of a node of a
component (src/util/common/config.cpp:32-242). -/
inductive Setting
  | scalar (s : Scalar)
  | item (c : Kind) (i : Nat) (f : Field)
  | node (c : Kind) (i j : Nat) (f : Field)
  deriving DecidableEq, Repr

/-- The key of a setting (src/util/common/config.cpp:32-242). -/
def Setting.key : Setting → Text
  | .scalar s => s.name
  | .item c i f => c.name ++ dec i ++ lit "_" ++ f.name
  | .node c i j f => c.name ++ dec i ++ lit "_" ++ dec j ++ lit "_" ++ f.name

/-! ### The options -/

/-- A sentinel (src/util/common/config.hpp:156, 202, 254, 257). -/
structure Sentinel where
  endpoint : Endpoint
  level : Level
  priv : Option Bytes
  pub : Option Bytes
  deriving DecidableEq

/-- A shard; endpoint and directory are those of the atomizer architecture
(src/util/common/config.hpp:162, 185-190). -/
structure Shard where
  place : Option (Endpoint × Text)
  level : Level
  range : Range
  deriving DecidableEq

/-- A node of a locking shard (src/util/common/config.hpp:215-224). -/
structure ShardNode where
  raft : Endpoint
  endpoint : Endpoint
  readonly : Endpoint
  deriving DecidableEq

/-- An atomizer (src/util/common/config.hpp:152, 164, 171). -/
structure Atomizer where
  endpoint : Endpoint
  level : Level
  raft : Endpoint
  deriving DecidableEq

/-- An archiver (src/util/common/config.hpp:154, 204, 208). -/
structure Archiver where
  endpoint : Endpoint
  level : Level
  db : Text
  deriving DecidableEq

/-- A watchtower (src/util/common/config.hpp:158, 160, 206). -/
structure Watchtower where
  client : Endpoint
  internal : Endpoint
  level : Level
  deriving DecidableEq

/-- A coordinator with its nodes: raft endpoint and endpoint
(src/util/common/config.hpp:226-234). -/
structure Coordinator where
  level : Level
  nodes : List (Endpoint × Endpoint)
  deriving DecidableEq

/-- `options` (src/util/common/config.hpp:132-261). -/
structure FullOptions where
  twoPhase : Bool := false
  threshold : UInt64 := 1
  sentinels : List Sentinel := []
  shardNodes : List (List ShardNode) := []
  shards : List Shard := []
  completedTxs : UInt64 := 10000000
  seedFrom : UInt64 := 0
  seedTo : UInt64 := 0
  seedKey : Option Bytes := none
  seedValue : UInt64 := 0
  atomizers : List Atomizer := []
  blockInterval : UInt64 := 250
  stxoDepth : UInt64 := 1
  archivers : List Archiver := []
  watchtowers : List Watchtower := []
  blockCache : UInt64 := 100
  errorCache : UInt64 := 1000000
  coordinators : List Coordinator := []
  threads : UInt64 := 75
  electionUpper : Int := 4000
  electionLower : Int := 2000
  heartbeat : Int := 1000
  snapshotDistance : Int := 0
  raftBatch : Int := 100000
  batchSize : UInt64 := 2000
  inputCount : UInt64 := 2
  outputCount : UInt64 := 2
  invalidRate : UInt64 := 0
  fixedRate : UInt64 := 0x3ff0000000000000
  windowSize : UInt64 := 10000
  mintCount : UInt64 := 20000
  mintValue : UInt64 := 100
  loadgens : UInt64 := 0
  deriving DecidableEq

/-- `cfg.get_ulong(key).value_or(d)` (src/util/common/config.cpp:411-413 and others). -/
def numOr (src : Source) (s : Scalar) (d : UInt64) : Outcome UInt64 := do
  let n ← getNum src s.name
  .ok (n.getD d)

/-- `cfg.get_decimal(key).value_or(d)` (src/util/common/config.cpp:601-604). -/
def dblOr (src : Source) (s : Scalar) (d : UInt64) : Outcome UInt64 := do
  let n ← getDbl src s.name
  .ok (n.getD d)

/-- `static_cast<int32_t>` (src/util/common/config.cpp:577-590). -/
def toInt32 (n : UInt64) : Int := Int.bmod n.toNat (2 ^ 32)

/-- An error message if there is no value (src/util/common/config.cpp:420-423 and others). -/
def need {α : Type} (x : Outcome (Option α)) : Outcome α := do
  match ← x with
  | some a => .ok a
  | none => .refused

/-- A loop `for(size_t i{0}; i < count; i++)` that makes one element per turn
(src/util/common/config.cpp:417 and others). -/
def readFrom {α : Type} (f : Nat → Outcome α) : Nat → Nat → Outcome (List α)
  | 0, _ => .ok []
  | k + 1, i => do
    let a ← f i
    let l ← readFrom f k (i + 1)
    .ok (a :: l)

/-- A key in hex (`hash_from_hex`, src/util/common/config.cpp:354, 437, 453).  A text that is too short leaves bytes that
were never written. -/
def readKey (t : Text) : Outcome Bytes :=
  match hashFromHex t with
  | .ok l =>
    match l.mapM id with
    | some b => .ok b
    | none => .undefined
  | .overflow => .undefined

/-- The private key of a sentinel (src/util/common/config.cpp:433-440). -/
def readPriv (src : Source) (i : Nat) : Outcome (Option Bytes) := do
  match ← getStr src (Setting.item .sentinel i .privateKey).key with
  | none => .ok none
  | some t => do
    let k ← readKey t
    .ok (some k)

/-- The public key of a sentinel (src/util/common/config.cpp:442-455). -/
def readPub (src : Source) (threshold : UInt64) (i : Nat) : Outcome (Option Bytes) := do
  match ← getStr src (Setting.item .sentinel i .publicKey).key with
  | none => if threshold = 0 then .ok none else .refused
  | some t => do
    let k ← readKey t
    .ok (some k)

/-- The loop body of `read_sentinel_options` (src/util/common/config.cpp:417-455). -/
def readSentinel (src : Source) (threshold : UInt64) (i : Nat) : Outcome Sentinel := do
  let ep ← need (getEndpoint src (Setting.item .sentinel i .endpoint).key)
  let lv ← getLevel src (Setting.item .sentinel i .loglevel).key
  let priv ← readPriv src i
  let pub ← readPub src threshold i
  .ok ⟨ep, lv, priv, pub⟩

/-- The inner loop body of `read_shard_endpoints` (src/util/common/config.cpp:258-288). -/
def readShardNode (src : Source) (i j : Nat) : Outcome ShardNode := do
  let raft ← need (getEndpoint src (Setting.node .shard i j .raftEndpoint).key)
  let ep ← need (getEndpoint src (Setting.node .shard i j .endpoint).key)
  let ro ← need (getEndpoint src (Setting.node .shard i j .readonly).key)
  .ok ⟨raft, ep, ro⟩

/-- `read_shard_endpoints` (src/util/common/config.cpp:244-293). -/
def readShardNodes (src : Source) (twoPhase : Bool) : Outcome (List (List ShardNode)) := do
  let n ← numOr src .shards 0
  if twoPhase then
    readFrom (fun i => do
      let k ← need (getNum src (Setting.item .shard i .count).key)
      readFrom (readShardNode src i) k.toNat 0) n.toNat 0
  else .ok []

/-- Endpoint and directory of a shard (src/util/common/config.cpp:299-315). -/
def readPlace (src : Source) (twoPhase : Bool) (i : Nat) : Outcome (Option (Endpoint × Text)) :=
  if twoPhase then .ok none else do
    let ep ← need (getEndpoint src (Setting.item .shard i .endpoint).key)
    let db ← need (getStr src (Setting.item .shard i .db).key)
    .ok (some (ep, db))

/-- The loop body of `read_shard_options` (src/util/common/config.cpp:298-338). -/
def readShard (src : Source) (twoPhase : Bool) (i : Nat) : Outcome Shard := do
  let place ← readPlace src twoPhase i
  let lv ← getLevel src (Setting.item .shard i .loglevel).key
  let a ← need (getNum src (Setting.item .shard i .start).key)
  let b ← need (getNum src (Setting.item .shard i .stop).key)
  .ok ⟨place, lv, readRange a b⟩

/-- The seeds (src/util/common/config.cpp:344-357): the private key and the value are
read if there are any. -/
def readSeeds (src : Source) : Outcome ((UInt64 × UInt64) × Option Bytes × UInt64) := do
  let a ← numOr src .seedFrom 0
  let b ← numOr src .seedTo 0
  if a = b then .ok ((a, b), none, 0)
  else do
    let t ← need (getStr src Scalar.seedKey.name)
    if t.length ≠ 64 then .refused
    else do
      let k ← readKey t
      let v ← numOr src .seedValue 0
      .ok ((a, b), some k, v)

/-- The loop body of `read_atomizer_options` (src/util/common/config.cpp:463-486). -/
def readAtomizer (src : Source) (i : Nat) : Outcome Atomizer := do
  let ep ← need (getEndpoint src (Setting.item .atomizer i .endpoint).key)
  let lv ← getLevel src (Setting.item .atomizer i .loglevel).key
  let raft ← need (getEndpoint src (Setting.item .atomizer i .raftEndpoint).key)
  .ok ⟨ep, lv, raft⟩

/-- The loop body of `read_archiver_options` (src/util/common/config.cpp:502-524). -/
def readArchiver (src : Source) (i : Nat) : Outcome Archiver := do
  let ep ← need (getEndpoint src (Setting.item .archiver i .endpoint).key)
  let lv ← getLevel src (Setting.item .archiver i .loglevel).key
  let db ← need (getStr src (Setting.item .archiver i .db).key)
  .ok ⟨ep, lv, db⟩

/-- The loop body of `read_watchtower_options` (src/util/common/config.cpp:533-564). -/
def readWatchtower (src : Source) (i : Nat) : Outcome Watchtower := do
  let cl ← need (getEndpoint src (Setting.item .watchtower i .clientEndpoint).key)
  let it ← need (getEndpoint src (Setting.item .watchtower i .internalEndpoint).key)
  let lv ← getLevel src (Setting.item .watchtower i .loglevel).key
  .ok ⟨cl, it, lv⟩

/-- The loop body of `read_coordinator_options` (src/util/common/config.cpp:368-400). -/
def readCoordinator (src : Source) (i : Nat) : Outcome Coordinator := do
  let lv ← getLevel src (Setting.item .coordinator i .loglevel).key
  let k ← need (getNum src (Setting.item .coordinator i .count).key)
  let nodes ← readFrom (fun j => do
    let raft ← need (getEndpoint src (Setting.node .coordinator i j .raftEndpoint).key)
    let ep ← need (getEndpoint src (Setting.node .coordinator i j .endpoint).key)
    .ok (raft, ep)) k.toNat 0
  .ok ⟨lv, nodes⟩

/-- `read_options` (src/util/common/config.cpp:619-666) with the functions it
calls (244-617). -/
def readAll (src : Source) : Outcome FullOptions := do
  let tp ← numOr src .twoPhase 0
  let threshold ← numOr src .threshold 1
  let nsent ← numOr src .sentinels 0
  let sentinels ← readFrom (readSentinel src threshold) nsent.toNat 0
  let shardNodes ← readShardNodes src (decide (tp ≠ 0))
  let nshard ← numOr src .shards 0
  let shards ← readFrom (readShard src (decide (tp ≠ 0))) nshard.toNat 0
  let completedTxs ← numOr src .completedTxs 10000000
  let seeds ← readSeeds src
  let natom ← numOr src .atomizers 0
  let atomizers ← readFrom (readAtomizer src) natom.toNat 0
  let blockInterval ← numOr src .blockInterval 250
  let stxoDepth ← numOr src .stxoDepth 1
  let narch ← numOr src .archivers 0
  let archivers ← readFrom (readArchiver src) narch.toNat 0
  let nwatch ← numOr src .watchtowers 0
  let watchtowers ← readFrom (readWatchtower src) nwatch.toNat 0
  let blockCache ← numOr src .blockCache 100
  let errorCache ← numOr src .errorCache 1000000
  let ncoord ← numOr src .coordinators 0
  let coordinators ← readFrom (readCoordinator src) ncoord.toNat 0
  let threads ← numOr src .threads 75
  let electionUpper ← numOr src .electionUpper 4000
  let electionLower ← numOr src .electionLower 2000
  let heartbeat ← numOr src .heartbeat 1000
  let snapshotDistance ← numOr src .snapshotDistance 0
  let raftBatch ← numOr src .raftBatch 100000
  let batchSize ← numOr src .batchSize 2000
  let inputCount ← numOr src .inputCount 2
  let outputCount ← numOr src .outputCount 2
  let invalidRate ← dblOr src .invalidRate 0
  let fixedRate ← dblOr src .fixedRate 0x3ff0000000000000
  let windowSize ← numOr src .windowSize 10000
  let mintCount ← numOr src .mintCount 20000
  let mintValue ← numOr src .mintValue 100
  let loadgens ← numOr src .loadgens 0
  .ok {
    twoPhase := decide (tp ≠ 0), threshold, sentinels, shardNodes, shards, completedTxs,
    seedFrom := seeds.1.1, seedTo := seeds.1.2, seedKey := seeds.2.1, seedValue := seeds.2.2,
    atomizers, blockInterval, stxoDepth, archivers, watchtowers, blockCache, errorCache,
    coordinators, threads, electionUpper := toInt32 electionUpper,
    electionLower := toInt32 electionLower, heartbeat := toInt32 heartbeat,
    snapshotDistance := toInt32 snapshotDistance, raftBatch := toInt32 raftBatch,
    batchSize, inputCount, outputCount, invalidRate, fixedRate, windowSize, mintCount,
    mintValue, loadgens }

/-- `read_options` of a file (src/util/common/config.cpp:619-666). -/
def readOptions (p : Platform) (file : Text) : Outcome FullOptions := do
  let l ← parse p file
  readAll (findOrEnv p l)

/-- The elements of a list, each once: `m_sentinel_public_keys` is a set
(src/util/common/config.hpp:257). -/
def distinct : List Bytes → List Bytes
  | [] => []
  | a :: l => if a ∈ l then distinct l else a :: distinct l

/-- The part of the options that `check_options` looks at (src/util/common/config.cpp:680-734). -/
def FullOptions.summary (o : FullOptions) : Options where
  twophase := o.twoPhase
  sentinels := o.sentinels.length
  sentinelKeys := (distinct (o.sentinels.filterMap (·.pub))).length
  threshold := o.threshold.toNat
  lockingShards := o.shardNodes.length
  coordinators := o.coordinators.length
  watchtowers := o.watchtowers.length
  archivers := o.archivers.length
  shards := (o.shards.filterMap (·.place)).length
  atomizers := o.atomizers.length
  seedFrom := o.seedFrom
  seedTo := o.seedTo
  seedValue := o.seedValue
  ranges := o.shards.map (·.range)

/-- `load_options` (src/util/common/config.cpp:668-678). -/
def loadOptions (p : Platform) (file : Text) : Outcome FullOptions := do
  let o ← readOptions p file
  match checkOptions o.summary with
  | none => .ok o
  | some _ => .refused

end Verif.Config
