import Verif.Config.File
import Verif.Hex.Model
/-!
# What a configuration file says

The specification of the configuration file: which settings describe options,
and how they are written down.  Nothing here mentions how the file is read.
-/
namespace Verif.Config

open Verif.Hex (Text toHex)
open Verif.Http (lit)
open Verif.Serial (Bytes)

/-- What is said about a setting: a whole number, a text, or a rate (the 64 bits
of a `double`). -/
inductive Said
  | num (n : UInt64)
  | text (t : Text)
  | rate (d : UInt64)
  deriving DecidableEq, Repr

/-- How it is written: numbers in decimal, texts in quotes, rates as `w` says. -/
def Said.written (w : UInt64 → Text) : Said → Text
  | .num n => dec n.toNat
  | .text t => [34] ++ t ++ [34]
  | .rate d => w d

/-- `w` writes the rate `d` in a way that the platform understands, with a
decimal point and without quotes. -/
structure Writes (p : Platform) (w : UInt64 → Text) (d : UInt64) : Prop where
  value : p.stod (w d) = some d
  point : 46 ∈ w d
  line : 10 ∉ w d
  quote : 34 ∉ w d

/-- It can be written on one line. -/
def Said.Plain (p : Platform) (w : UInt64 → Text) : Said → Prop
  | .num _ => True
  | .text t => 10 ∉ t
  | .rate d => Writes p w d

/-- A line of a file: a setting, or a remark. -/
inductive Line
  | set (s : Setting) (v : Said)
  | remark (t : Text)
  deriving DecidableEq, Repr

/-- The text of a line. -/
def Line.text (w : UInt64 → Text) : Line → Text
  | .set s v => s.key ++ [61] ++ v.written w
  | .remark t => t

/-- The text of a file. -/
def fileText (w : UInt64 → Text) (l : List Line) : Text := l.flatMap fun x => x.text w ++ [10]

/-- A remark has no equals sign. -/
def Line.Plain (p : Platform) (w : UInt64 → Text) : Line → Prop
  | .set _ v => v.Plain p w
  | .remark t => 10 ∉ t ∧ 61 ∉ t

/-- The settings of a file. -/
def settings (l : List Line) : List (Setting × Said) :=
  l.filterMap fun
    | .set s v => some (s, v)
    | .remark _ => none

/-- Host and port with a colon between them. -/
def Endpoint.shown (e : Endpoint) : Text := e.1 ++ [58] ++ dec e.2.toNat

/-- The name of a level. -/
def Level.shown : Level → Text
  | .trace => lit "TRACE"
  | .debug => lit "DEBUG"
  | .info => lit "INFO"
  | .warn => lit "WARN"
  | .error => lit "ERROR"
  | .fatal => lit "FATAL"

/-- A length as a number. -/
def count {α : Type} (l : List α) : Said := .num l.length.toUInt64

/-- A signed number that is not negative. -/
def signed (x : Int) : Said := .num x.toNat.toUInt64

/-- What is to be said about a setting that stands alone.  Key and value of the
seeds are only looked for if there are seeds. -/
def FullOptions.scalar (o : FullOptions) : Scalar → Option Said
  | .twoPhase => some (.num (if o.twoPhase then 1 else 0))
  | .threshold => some (.num o.threshold)
  | .sentinels => some (count o.sentinels)
  | .shards => some (count o.shards)
  | .atomizers => some (count o.atomizers)
  | .archivers => some (count o.archivers)
  | .watchtowers => some (count o.watchtowers)
  | .coordinators => some (count o.coordinators)
  | .completedTxs => some (.num o.completedTxs)
  | .seedFrom => some (.num o.seedFrom)
  | .seedTo => some (.num o.seedTo)
  | .seedKey => o.seedKey.map fun k => .text (toHex k)
  | .seedValue => if o.seedFrom = o.seedTo then none else some (.num o.seedValue)
  | .threads => some (.num o.threads)
  | .blockInterval => some (.num o.blockInterval)
  | .stxoDepth => some (.num o.stxoDepth)
  | .blockCache => some (.num o.blockCache)
  | .errorCache => some (.num o.errorCache)
  | .electionUpper => some (signed o.electionUpper)
  | .electionLower => some (signed o.electionLower)
  | .heartbeat => some (signed o.heartbeat)
  | .snapshotDistance => some (signed o.snapshotDistance)
  | .raftBatch => some (signed o.raftBatch)
  | .batchSize => some (.num o.batchSize)
  | .inputCount => some (.num o.inputCount)
  | .outputCount => some (.num o.outputCount)
  | .invalidRate => some (.rate o.invalidRate)
  | .fixedRate => some (.rate o.fixedRate)
  | .windowSize => some (.num o.windowSize)
  | .mintCount => some (.num o.mintCount)
  | .mintValue => some (.num o.mintValue)
  | .loadgens => some (.num o.loadgens)

/-- What is to be said about a sentinel. -/
def Sentinel.says (x : Sentinel) : Field → Option Said
  | .endpoint => some (.text x.endpoint.shown)
  | .loglevel => some (.text x.level.shown)
  | .privateKey => x.priv.map fun k => .text (toHex k)
  | .publicKey => x.pub.map fun k => .text (toHex k)
  | _ => none

/-- What is to be said about a shard. -/
def Shard.says (x : Shard) : Field → Option Said
  | .endpoint => x.place.map fun y => .text (Endpoint.shown y.1)
  | .db => x.place.map fun y => .text y.2
  | .loglevel => some (.text x.level.shown)
  | .start => some (.num x.range.1.toUInt64)
  | .stop => some (.num x.range.2.toUInt64)
  | _ => none

/-- What is to be said about a node of a locking shard. -/
def ShardNode.says (x : ShardNode) : Field → Option Said
  | .raftEndpoint => some (.text x.raft.shown)
  | .endpoint => some (.text x.endpoint.shown)
  | .readonly => some (.text x.readonly.shown)
  | _ => none

/-- What is to be said about an atomizer. -/
def Atomizer.says (x : Atomizer) : Field → Option Said
  | .endpoint => some (.text x.endpoint.shown)
  | .loglevel => some (.text x.level.shown)
  | .raftEndpoint => some (.text x.raft.shown)
  | _ => none

/-- What is to be said about an archiver. -/
def Archiver.says (x : Archiver) : Field → Option Said
  | .endpoint => some (.text x.endpoint.shown)
  | .loglevel => some (.text x.level.shown)
  | .db => some (.text x.db)
  | _ => none

/-- What is to be said about a watchtower. -/
def Watchtower.says (x : Watchtower) : Field → Option Said
  | .clientEndpoint => some (.text x.client.shown)
  | .internalEndpoint => some (.text x.internal.shown)
  | .loglevel => some (.text x.level.shown)
  | _ => none

/-- What is to be said about a coordinator. -/
def Coordinator.says (x : Coordinator) : Field → Option Said
  | .loglevel => some (.text x.level.shown)
  | .count => some (count x.nodes)
  | _ => none

/-- What is to be said about a node of a coordinator. -/
def nodeSays (x : Endpoint × Endpoint) : Field → Option Said
  | .raftEndpoint => some (.text x.1.shown)
  | .endpoint => some (.text x.2.shown)
  | _ => none

/-- What is to be said about a component. -/
def FullOptions.item (o : FullOptions) (i : Nat) (f : Field) : Kind → Option Said
  | .sentinel => o.sentinels[i]?.bind (·.says f)
  | .shard => if f = .count then o.shardNodes[i]?.map count else o.shards[i]?.bind (·.says f)
  | .atomizer => o.atomizers[i]?.bind (·.says f)
  | .archiver => o.archivers[i]?.bind (·.says f)
  | .watchtower => o.watchtowers[i]?.bind (·.says f)
  | .coordinator => o.coordinators[i]?.bind (·.says f)

/-- What is to be said about a node of a component. -/
def FullOptions.node (o : FullOptions) (i j : Nat) (f : Field) : Kind → Option Said
  | .shard => (o.shardNodes[i]?.bind (·[j]?)).bind (·.says f)
  | .coordinator => ((o.coordinators[i]?.map (·.nodes)).bind (·[j]?)).bind (nodeSays · f)
  | _ => none

/-- What is to be said about a setting. -/
def FullOptions.says (o : FullOptions) : Setting → Option Said
  | .scalar s => o.scalar s
  | .item c i f => o.item i f c
  | .node c i j f => o.node i j f c

/-- What holds if nothing is said: the documented defaults.  The level is `WARN`
for all components; other settings of components have no default. -/
def Setting.default : Setting → Option Said
  | .scalar .twoPhase => some (.num 0)
  | .scalar .threshold => some (.num 1)
  | .scalar .sentinels => some (.num 0)
  | .scalar .shards => some (.num 0)
  | .scalar .atomizers => some (.num 0)
  | .scalar .archivers => some (.num 0)
  | .scalar .watchtowers => some (.num 0)
  | .scalar .coordinators => some (.num 0)
  | .scalar .completedTxs => some (.num 10000000)
  | .scalar .seedFrom => some (.num 0)
  | .scalar .seedTo => some (.num 0)
  | .scalar .seedKey => none
  | .scalar .seedValue => some (.num 0)
  | .scalar .threads => some (.num 75)
  | .scalar .blockInterval => some (.num 250)
  | .scalar .stxoDepth => some (.num 1)
  | .scalar .blockCache => some (.num 100)
  | .scalar .errorCache => some (.num 1000000)
  | .scalar .electionUpper => some (.num 4000)
  | .scalar .electionLower => some (.num 2000)
  | .scalar .heartbeat => some (.num 1000)
  | .scalar .snapshotDistance => some (.num 0)
  | .scalar .raftBatch => some (.num 100000)
  | .scalar .batchSize => some (.num 2000)
  | .scalar .inputCount => some (.num 2)
  | .scalar .outputCount => some (.num 2)
  | .scalar .invalidRate => some (.rate 0)
  | .scalar .fixedRate => some (.rate 0x3ff0000000000000)
  | .scalar .windowSize => some (.num 10000)
  | .scalar .mintCount => some (.num 20000)
  | .scalar .mintValue => some (.num 100)
  | .scalar .loadgens => some (.num 0)
  | .item _ _ .loglevel => some (.text (lit "WARN"))
  | _ => none

/-- The settings describe the options: what they say is right, what they do not
say is the default, and no key is given for a sentinel that has none.  Settings
that do not concern the options may say anything. -/
structure States (o : FullOptions) (l : List (Setting × Said)) : Prop where
  right : ∀ s v v', (s, v) ∈ l → o.says s = some v' → v = v'
  whole : ∀ s v, o.says s = some v → (s, v) ∈ l ∨ s.default = some v
  keys : ∀ i x, o.sentinels[i]? = some x →
    (x.priv = none → ∀ v, (Setting.item .sentinel i .privateKey, v) ∉ l) ∧
    (x.pub = none → ∀ v, (Setting.item .sentinel i .publicKey, v) ∉ l)

/-- Whether a setting has to be said: private keys need not, public keys only if
attestations are required. -/
def Required (o : FullOptions) : Setting → Prop
  | .item .sentinel _ .privateKey => False
  | .item .sentinel _ .publicKey => o.threshold ≠ 0
  | s => s.default = none

/-- The settings describe the options, except that settings which are required may
be missing. -/
structure Mostly (o : FullOptions) (l : List (Setting × Said)) : Prop where
  right : ∀ s v v', (s, v) ∈ l → o.says s = some v' → v = v'
  whole : ∀ s v, o.says s = some v → ¬ Required o s → (s, v) ∈ l ∨ s.default = some v
  keys : ∀ i x, o.sentinels[i]? = some x →
    (x.priv = none → ∀ v, (Setting.item .sentinel i .privateKey, v) ∉ l) ∧
    (x.pub = none → ∀ v, (Setting.item .sentinel i .publicKey, v) ∉ l)

/-- A host name has no colon and fits on a line. -/
def Endpoint.Fits (e : Endpoint) : Prop := 58 ∉ e.1

/-- A number that `int32_t` holds and that is not negative. -/
def Positive32 (x : Int) : Prop := 0 ≤ x ∧ x < 2 ^ 31

/-- Options that can be described: lists of at most 2^64 - 1 elements, keys of 32
bytes, timeouts that are not negative, shards as the architecture demands it, a
key for the seeds exactly if there are any. -/
structure FullOptions.Fits (o : FullOptions) : Prop where
  sentinels : o.sentinels.length < 2 ^ 64
  shards : o.shards.length < 2 ^ 64
  atomizers : o.atomizers.length < 2 ^ 64
  archivers : o.archivers.length < 2 ^ 64
  watchtowers : o.watchtowers.length < 2 ^ 64
  coordinators : o.coordinators.length < 2 ^ 64
  sentinel : ∀ x ∈ o.sentinels, x.endpoint.Fits ∧ (∀ k, x.priv = some k → k.length = 32) ∧
    (∀ k, x.pub = some k → k.length = 32) ∧ (x.pub = none → o.threshold = 0)
  shard : ∀ x ∈ o.shards, (x.place.isSome = !o.twoPhase) ∧ ∀ y, x.place = some y → y.1.Fits
  shardNodes : o.shardNodes.length = if o.twoPhase then o.shards.length else 0
  shardNode : ∀ l ∈ o.shardNodes, l.length < 2 ^ 64 ∧
    ∀ x ∈ l, x.raft.Fits ∧ x.endpoint.Fits ∧ x.readonly.Fits
  atomizer : ∀ x ∈ o.atomizers, x.endpoint.Fits ∧ x.raft.Fits
  archiver : ∀ x ∈ o.archivers, x.endpoint.Fits
  watchtower : ∀ x ∈ o.watchtowers, x.client.Fits ∧ x.internal.Fits
  coordinator : ∀ x ∈ o.coordinators, x.nodes.length < 2 ^ 64 ∧
    ∀ y ∈ x.nodes, Endpoint.Fits y.1 ∧ Endpoint.Fits y.2
  seeds : o.seedKey.isSome = decide (o.seedFrom ≠ o.seedTo)
  seedKey : ∀ k, o.seedKey = some k → k.length = 32
  seedValue : o.seedFrom = o.seedTo → o.seedValue = 0
  raft : Positive32 o.electionUpper ∧ Positive32 o.electionLower ∧ Positive32 o.heartbeat ∧
    Positive32 o.snapshotDistance ∧ Positive32 o.raftBatch

end Verif.Config
