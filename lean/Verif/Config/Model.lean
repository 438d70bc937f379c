/-
Configuration: shard ranges, seed ranges and the checks made on the options
(src/util/common/config.cpp), and the tool that fills the shards with seeded
coins (tools/shard-seeder/shard-seeder.cpp).
-/

namespace Verif.Config

/-- `shard_range_t`, a pair of bytes (src/util/common/config.hpp:129). -/
abbrev Range := UInt8 × UInt8

/-- `hash_in_shard_range`, src/util/common/config.cpp:736-739.  Only the first
byte of the id is looked at; the model takes that byte. -/
def inShardRange (range : Range) (first : UInt8) : Bool :=
  decide (first ≥ range.1) && decide (first ≤ range.2)

/-- The range of a shard read from the file,
src/util/common/config.cpp:322-337: both numbers are cast to a byte. -/
def readRange (start stop : UInt64) : Range := (start.toUInt8, stop.toUInt8)

/-- `loadgen_seed_range`, src/util/common/config.cpp:741-749.  All numbers are
`size_t` and wrap.  The `assert` of line 743 is a hypothesis of the theorems; a
count of zero is a division by zero in the code and 0 here. -/
def loadgenSeedRange (seedFrom seedTo count genId : UInt64) : UInt64 × UInt64 :=
  let total := seedTo - seedFrom
  let sz := total / count
  let start := seedFrom + genId * sz
  let stop := start + sz - 1
  (start, stop)

/-- The seeds a wallet spends after `seed(key, value, from, to)`
(src/uhs/transaction/wallet.cpp:260-268): the loops of lines 388-397 and 501-509
run `while(m_seed_from != m_seed_to)` and increment `m_seed_from`, so starting
at `from` they use `from`, `from + 1`, ... and stop before `to`, wrapping
around. `walletSeed from to s` says that `s` is one of them. -/
def walletSeed (range : UInt64 × UInt64) (s : UInt64) : Bool :=
  decide (s - range.1 < range.2 - range.1)

/-- The number of coins the seeder makes, tools/shard-seeder/shard-seeder.cpp:59. -/
def seederCount (seedFrom seedTo : UInt64) : UInt64 := seedTo - seedFrom

/-- The seeds for which the seeder makes a coin: the loops of
tools/shard-seeder/shard-seeder.cpp:129-149 and 162-171 run `tx_idx` from 0 up
to `num_utxos`. -/
def seeded (seedFrom seedTo s : UInt64) : Bool :=
  decide (s < seederCount seedFrom seedTo)

/-- The first byte of the ids that the seeder puts into the files of shard
`idx` of `n`, tools/shard-seeder/shard-seeder.cpp:77-90: lower and upper bound,
as `size_t`. -/
def seederRange (n idx : UInt64) : UInt64 × UInt64 :=
  let width := 256 / n
  let start := idx * width
  let stop := (idx + 1) * width - 1
  (start, if idx = n - 1 then 255 else stop)

/-- Whether the seeder puts a coin whose id starts with byte `first` into the
files of shard `idx` (tools/shard-seeder/shard-seeder.cpp:133-134, 166-167). -/
def seederPuts (n idx : UInt64) (first : UInt8) : Bool :=
  decide (first.toUInt64 ≥ (seederRange n idx).1) &&
    decide (first.toUInt64 ≤ (seederRange n idx).2)

/-- The options that `check_options` looks at, and the shard ranges, which it
does not (src/util/common/config.hpp:160-270).  Lists of endpoints and keys are
represented by their lengths. -/
structure Options where
  twophase : Bool
  sentinels : Nat
  sentinelKeys : Nat
  threshold : Nat
  lockingShards : Nat
  coordinators : Nat
  watchtowers : Nat
  archivers : Nat
  shards : Nat
  atomizers : Nat
  seedFrom : UInt64
  seedTo : UInt64
  seedValue : UInt64
  ranges : List Range
  deriving DecidableEq

/-- `check_options`, src/util/common/config.cpp:680-734; `none` means that the
options are accepted, the number names the message otherwise. -/
def checkOptions (o : Options) : Option Nat :=
  let first : Option Nat :=
    if o.twophase then
      if o.sentinels = 0 then some 0
      else if o.sentinels < o.threshold then some 1
      else if o.lockingShards = 0 then some 2
      else if o.coordinators = 0 then some 3
      else none
    else
      if o.watchtowers = 0 then some 4
      else if o.archivers = 0 then some 5
      else if o.shards = 0 ∧ o.sentinels ≠ 0 then some 6
      else if o.atomizers = 0 then some 7
      else none
  first.or
    (if o.seedFrom ≠ o.seedTo ∧ o.seedFrom > o.seedTo then some 8
    else if o.seedFrom ≠ o.seedTo ∧ o.seedValue = 0 then some 9
    else if o.sentinelKeys < o.threshold then some 10
    else none)

end Verif.Config
