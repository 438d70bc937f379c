import Verif.Tx.Model
import Verif.Util.CacheSet

/-!
Model of `src/uhs/twophase/locking_shard/locking_shard.cpp` and
`src/uhs/twophase/locking_shard/interface.cpp`.

`lock_outputs`, `apply_outputs` and `discard_dtx` hold `m_mut` exclusively for
their whole body, and the replicated state machine feeds them one at a time, so
a history is a sequence of calls. `unordered_set`s are characteristic
functions, the `unordered_map` of prepared batches is a partial function.
`logger->fatal` ends the process (`src/util/common/logging.hpp:116-120`): outcome `halt`.
`assert`s are off, as in a release build.
-/
namespace Verif.LockingShard

open Verif.Tx Verif.Util

/-- A set of hashes, `std::unordered_set<hash_t, hashing::null>`. -/
abbrev HSet := Hash → Bool

/-- `emplace`/`insert`. -/
def HSet.add (s : HSet) (x : Hash) : HSet := fun y => if y = x then true else s y
/-- `erase`/`extract`. -/
def HSet.del (s : HSet) (x : Hash) : HSet := fun y => if y = x then false else s y

/-- The first byte of a hash, `val[0]`. -/
def firstByte (h : Hash) : UInt8 := h.val.headD 0

/-- `config::hash_in_shard_range`, `src/util/common/config.cpp:736-739`. -/
def inRange (range : UInt8 × UInt8) (h : Hash) : Bool :=
  decide (firstByte h ≥ range.1) && decide (firstByte h ≤ range.2)

/-- The constructor arguments that matter, `src/uhs/twophase/locking_shard/locking_shard.cpp:24-33`. -/
structure Cfg where
  range : UInt8 × UInt8
  crypto : Crypto
  sentinelKeys : List PubKey
  threshold : Nat
  cacheSize : Nat

/-- `interface::hash_in_shard_range`, `src/uhs/twophase/locking_shard/interface.cpp:14-16`. -/
def Cfg.owns (c : Cfg) (h : Hash) : Bool := inRange c.range h

/-- `check_attestations` as called at `src/uhs/twophase/locking_shard/locking_shard.cpp:106-109`. -/
def Cfg.attested (c : Cfg) (t : CompactTx) : Bool :=
  checkAttestations c.crypto t c.sentinelKeys c.threshold

/-- `prepared_dtx`, `src/uhs/twophase/locking_shard/locking_shard.hpp:131-134`. -/
structure Prepared where
  txs : List CompactTx
  results : List Bool

/-- The members of `locking_shard`, `src/uhs/twophase/locking_shard/locking_shard.hpp:135-144`. -/
structure State where
  running : Bool
  uhs : HSet
  locked : HSet
  prepared : Hash → Option Prepared
  applied : HSet
  completed : CacheSet Hash

/-- The constructor with the preseeded ids, `src/uhs/twophase/locking_shard/locking_shard.cpp:24-76`. -/
def State.init (c : Cfg) (uhs : HSet) : State where
  running := true
  uhs := uhs
  locked := fun _ => false
  prepared := fun _ => none
  applied := fun _ => false
  completed := CacheSet.new c.cacheSize

/-- The locking loop of `check_and_lock_tx`, `src/uhs/twophase/locking_shard/locking_shard.cpp:124-130`. -/
def lockInputs (c : Cfg) (s : State) : List Hash → State
  | [] => s
  | x :: xs =>
    lockInputs c (if c.owns x then { s with uhs := s.uhs.del x, locked := s.locked.add x } else s) xs

/-- `check_and_lock_tx`, `src/uhs/twophase/locking_shard/locking_shard.cpp:104-133`. -/
def checkAndLockTx (c : Cfg) (s : State) (t : CompactTx) : State × Bool :=
  if c.attested t && t.inputs.all (fun x => !(c.owns x && !s.uhs x)) then
    (lockInputs c s t.inputs, true)
  else (s, false)

/-- The loop of `lock_outputs`, `src/uhs/twophase/locking_shard/locking_shard.cpp:91-96`. -/
def lockLoop (c : Cfg) (s : State) : List CompactTx → State × List Bool
  | [] => (s, [])
  | t :: ts =>
    let r := checkAndLockTx c s t
    let r' := lockLoop c r.1 ts
    (r'.1, r.2 :: r'.2)

/-- `lock_outputs`, `src/uhs/twophase/locking_shard/locking_shard.cpp:78-102`. -/
def lockOutputs (c : Cfg) (s : State) (txs : List CompactTx) (dtx : Hash) :
    State × Option (List Bool) :=
  if !s.running then (s, none)
  else match s.prepared dtx with
    | some p => (s, some p.results)
    | none =>
      let r := lockLoop c s txs
      ({ r.1 with prepared := fun d => if d = dtx then some ⟨txs, r.2⟩ else r.1.prepared d },
        some r.2)

/-- The output loop of `apply_outputs`, `src/uhs/twophase/locking_shard/locking_shard.cpp:164-168`. -/
def createOutputs (c : Cfg) (s : State) (complete : Bool) : List Hash → State
  | [] => s
  | x :: xs =>
    createOutputs c (if c.owns x && complete then { s with uhs := s.uhs.add x } else s) complete xs

/-- The input loop of `apply_outputs`, `src/uhs/twophase/locking_shard/locking_shard.cpp:169-176`. -/
def settleInputs (c : Cfg) (s : State) (complete : Bool) : List Hash → State
  | [] => s
  | x :: xs =>
    settleInputs c
      (if c.owns x then
        { s with
          locked := s.locked.del x
          uhs := if !complete && s.locked x then s.uhs.add x else s.uhs }
      else s) complete xs

/-- One iteration of the loop of `apply_outputs`, `src/uhs/twophase/locking_shard/locking_shard.cpp:159-176`. -/
def applyTx (c : Cfg) (s : State) (t : CompactTx) (complete : Bool) : State :=
  let s := if c.owns t.id then { s with completed := (s.completed.add t.id).1 } else s
  settleInputs c (createOutputs c s complete t.uhsOutputs) complete t.inputs

/-- The loop of `apply_outputs`, `src/uhs/twophase/locking_shard/locking_shard.cpp:158-177`; both vectors have the
same length. -/
def applyLoop (c : Cfg) (s : State) : List CompactTx → List Bool → State
  | t :: ts, f :: fs => applyLoop c (applyTx c s t f) ts fs
  | _, _ => s

/-- `apply_outputs`, `src/uhs/twophase/locking_shard/locking_shard.cpp:135-182`; `none` when the process exits. -/
def applyOutputs (c : Cfg) (s : State) (flags : List Bool) (dtx : Hash) : Option (State × Bool) :=
  if !s.running then some (s, false)
  else match s.prepared dtx with
    | none => if s.applied dtx then some (s, true) else none
    | some p =>
      if flags.length ≠ p.txs.length then none
      else
        let s' := applyLoop c s p.txs flags
        some ({ s' with
          prepared := fun d => if d = dtx then none else s'.prepared d
          applied := s'.applied.add dtx }, true)

/-- `discard_dtx`, `src/uhs/twophase/locking_shard/locking_shard.cpp:15-22`. -/
def discardDtx (s : State) (dtx : Hash) : State × Bool :=
  if s.running then ({ s with applied := s.applied.del dtx }, true) else (s, false)

/-- `check_unspent`, `src/uhs/twophase/locking_shard/locking_shard.cpp:188-193`. -/
def checkUnspent (s : State) (x : Hash) : Bool := s.uhs x || s.locked x

/-- `check_tx_id`, `src/uhs/twophase/locking_shard/locking_shard.cpp:195-198`. -/
def checkTxId (s : State) (id : Hash) : Bool := s.completed.contains id

/-- The requests a shard can receive (`src/uhs/twophase/locking_shard/messages.hpp` of the shard, and `stop`). -/
inductive Req where
  | lock (txs : List CompactTx) (dtx : Hash)
  | apply (flags : List Bool) (dtx : Hash)
  | discard (dtx : Hash)
  | stop
  deriving DecidableEq

/-- The answers. -/
inductive Resp where
  | lock (r : Option (List Bool))
  | apply (ok : Bool)
  | discard (ok : Bool)
  | stop
  deriving DecidableEq

/-- `state_machine::process_request`, `src/uhs/twophase/locking_shard/state_machine.cpp:81-118`, and `stop`,
`src/uhs/twophase/locking_shard/locking_shard.cpp:184-186`. `none`: the process exits. -/
def step (c : Cfg) (s : State) : Req → Option (State × Resp)
  | .lock txs dtx => some ((lockOutputs c s txs dtx).1, .lock (lockOutputs c s txs dtx).2)
  | .apply flags dtx => (applyOutputs c s flags dtx).map fun r => (r.1, .apply r.2)
  | .discard dtx => some ((discardDtx s dtx).1, .discard (discardDtx s dtx).2)
  | .stop => some ({ s with running := false }, .stop)

/-- A history: the answers to a list of requests. `none`: the process exited. -/
def run (c : Cfg) (s : State) : List Req → Option (State × List Resp)
  | [] => some (s, [])
  | r :: rs => do
    let (s', a) ← step c s r
    let (s'', as) ← run c s' rs
    some (s'', a :: as)

end Verif.LockingShard
