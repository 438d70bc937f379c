import Verif.Atomizer.Snapshot

/-!
Model of the watchtower, `src/uhs/atomizer/watchtower`.

The `unordered_map`s are finite partial functions. Every method of `watchtower` runs under the locks
`m_bc_mut` and `m_ec_mut` and is one step. Not modelled: the encoding of requests and responses
(see `Verif.Serial`), sleeping, logging.
-/
namespace Verif.Watchtower

open Verif.Tx Verif.Atomizer

/-- An `unordered_map` with hashes as keys. -/
abbrev Map (α : Type) := Hash → Option α

/-- `erase(key)`. -/
def Map.erase {α} (m : Map α) (k : Hash) : Map α := fun x => if x = k then none else m x

/-- `insert({key, value})`: an entry already present stays. -/
def Map.insert {α} (m : Map α) (k : Hash) (v : α) : Map α :=
  fun x => if x = k then some ((m k).getD v) else m x

/-- `block_cache_result`, `src/uhs/atomizer/watchtower/block_cache.hpp`: block height and transaction id. -/
abbrev Where := UInt64 × Hash

/-- `block_cache`, `src/uhs/atomizer/watchtower/block_cache.hpp:24-68` of the C++. -/
structure BlockCache where
  k : Nat
  blks : List Block
  unspent : Map Where
  spent : Map Where
  best : UInt64

/-- `block_cache::block_cache`, `src/uhs/atomizer/watchtower/block_cache.cpp:9-14`. -/
def BlockCache.new (k : Nat) : BlockCache := ⟨k, [], fun _ => none, fun _ => none, 0⟩

/-- Forget one transaction of the oldest block, `src/uhs/atomizer/watchtower/block_cache.cpp:19-26`. -/
def BlockCache.forgetTx (c : BlockCache) (t : CompactTx) : BlockCache :=
  { c with
    spent := t.inputs.foldl (fun m i => m.erase i) c.spent
    unspent := t.uhsOutputs.foldl (fun m o => m.erase o) c.unspent }

/-- Add one transaction of the newest block, `src/uhs/atomizer/watchtower/block_cache.cpp:33-43`. -/
def BlockCache.addTx (h : UInt64) (c : BlockCache) (t : CompactTx) : BlockCache :=
  { c with
    spent := t.inputs.foldl (fun m i => m.insert i (h, t.id)) c.spent
    unspent := t.uhsOutputs.foldl (fun m o => m.insert o (h, t.id))
      (t.inputs.foldl (fun m i => m.erase i) c.unspent) }

/-- `push_block`, `src/uhs/atomizer/watchtower/block_cache.cpp:16-45`. -/
def BlockCache.push (c : BlockCache) (b : Block) : BlockCache :=
  let c := if c.k ≠ 0 ∧ c.blks.length = c.k then
      match c.blks with
      | [] => c
      | old :: rest => { old.txs.foldl BlockCache.forgetTx c with blks := rest }
    else c
  let c := { c with blks := c.blks ++ [b] }
  let c := b.txs.foldl (BlockCache.addTx b.height) c
  { c with best := if c.best < b.height then b.height else c.best }

/-- `check_unspent`, `src/uhs/atomizer/watchtower/block_cache.cpp:47-54`. -/
def BlockCache.checkUnspent (c : BlockCache) (u : Hash) : Option Where := c.unspent u

/-- `check_spent`, `src/uhs/atomizer/watchtower/block_cache.cpp:56-63`. -/
def BlockCache.checkSpent (c : BlockCache) (u : Hash) : Option Where := c.spent u

/-- `tx_error_info`, `src/uhs/atomizer/watchtower/tx_error_messages.hpp:32-36` of the C++. -/
inductive ErrInfo where
  | sync
  | inputsDne (ids : List Hash)
  | stxoRange
  | incomplete
  | inputsSpent (ids : List Hash)
  deriving DecidableEq

/-- `tx_error`, src/uhs/atomizer/watchtower/tx_error_messages.hpp:168-225. -/
structure TxErr where
  txId : Hash
  info : ErrInfo
  deriving DecidableEq

/-- The output ids an error is about. -/
def TxErr.uhsIds (e : TxErr) : List Hash :=
  match e.info with
  | .inputsDne ids => ids
  | .inputsSpent ids => ids
  | _ => []

/-- `error_cache`, `src/uhs/atomizer/watchtower/error_cache.hpp`. -/
structure ErrCache where
  k : Nat
  errs : List TxErr
  byTx : Map TxErr
  byUhs : Map TxErr

/-- `error_cache::error_cache`, `src/uhs/atomizer/watchtower/error_cache.cpp:11-14`. -/
def ErrCache.new (k : Nat) : ErrCache := ⟨k, [], fun _ => none, fun _ => none⟩

/-- The body of the loop of `push_errors`, `src/uhs/atomizer/watchtower/error_cache.cpp:17-62`. -/
def ErrCache.push1 (c : ErrCache) (e : TxErr) : ErrCache :=
  let c := if c.k ≠ 0 ∧ c.errs.length = c.k then
      match c.errs with
      | [] => c
      | old :: rest =>
        { c with
          errs := rest
          byTx := c.byTx.erase old.txId
          byUhs := old.uhsIds.foldl (fun m u => m.erase u) c.byUhs }
    else c
  { c with
    errs := c.errs ++ [e]
    byTx := c.byTx.insert e.txId e
    byUhs := e.uhsIds.foldl (fun m u => m.insert u e) c.byUhs }

/-- `push_errors`, `src/uhs/atomizer/watchtower/error_cache.cpp:16-63`. -/
def ErrCache.push (c : ErrCache) (es : List TxErr) : ErrCache := es.foldl ErrCache.push1 c

/-- `check_tx_id`, `src/uhs/atomizer/watchtower/error_cache.cpp:65-72`. -/
def ErrCache.checkTx (c : ErrCache) (t : Hash) : Option TxErr := c.byTx t

/-- `check_uhs_id`, `src/uhs/atomizer/watchtower/error_cache.cpp:74-81`. -/
def ErrCache.checkUhs (c : ErrCache) (u : Hash) : Option TxErr := c.byUhs u

/-- `watchtower`, src/uhs/atomizer/watchtower/watchtower.hpp:174-176. -/
structure Tower where
  bc : BlockCache
  ec : ErrCache

/-- `watchtower::watchtower`, `src/uhs/atomizer/watchtower/watchtower.cpp:161-163`. -/
def Tower.new (kb ke : Nat) : Tower := ⟨.new kb, .new ke⟩

/-- `add_block`, `src/uhs/atomizer/watchtower/watchtower.cpp:15-18`. -/
def Tower.addBlock (w : Tower) (b : Block) : Tower := { w with bc := w.bc.push b }

/-- `repeated_tx_filter`, `src/uhs/atomizer/watchtower/watchtower.cpp:24-53`: the error is about an input that the same
transaction spent, or an output it created. -/
def Tower.repeated (w : Tower) (e : TxErr) : Bool :=
  e.uhsIds.any fun u =>
    (match w.bc.checkSpent u with | some (_, t) => e.txId == t | none => false) ||
    (match w.bc.checkUnspent u with | some (_, t) => e.txId == t | none => false)

/-- `add_errors`, `src/uhs/atomizer/watchtower/watchtower.cpp:20-58`. -/
def Tower.addErrors (w : Tower) (es : List TxErr) : Tower :=
  { w with ec := w.ec.push (es.filter fun e => !w.repeated e) }

/-- `search_status`, `src/uhs/atomizer/watchtower/status_update.hpp:22-43` of the C++. -/
inductive Status where
  | noHistory
  | unspent
  | spent
  | txRejected
  | invalidInput
  | internalError
  deriving DecidableEq

/-- `status_update_state`, src/uhs/atomizer/watchtower/status_update.hpp:21-47, 127-129. -/
structure Answer where
  status : Status
  height : UInt64
  uhs : Hash
  deriving DecidableEq

/-- What the block cache adds to the answers, `src/uhs/atomizer/watchtower/watchtower.cpp:90-108`. -/
def Tower.fromBlocks (w : Tower) (tx u : Hash) : List Answer :=
  match w.bc.checkSpent u with
  | some (h, t) => if t = tx then [⟨.spent, h, u⟩] else []
  | none =>
    match w.bc.checkUnspent u with
    | some (h, t) => if t = tx then [⟨.unspent, h, u⟩] else []
    | none => []

/-- The body of the loop of `check_uhs_id_statuses`, `src/uhs/atomizer/watchtower/watchtower.cpp:68-115`. -/
def Tower.status1 (w : Tower) (tx : Hash) (internalErr txErr : Bool) (best : UInt64) (u : Hash) :
    List Answer :=
  let fromErr : List Answer :=
    if internalErr then [⟨.internalError, best, u⟩]
    else if txErr then
      if (w.ec.checkUhs u).isSome then [⟨.invalidInput, best, u⟩] else [⟨.txRejected, best, u⟩]
    else []
  let found := fromErr ++ w.fromBlocks tx u
  if found = [] then [⟨.noHistory, best, u⟩] else found

/-- `check_uhs_id_statuses`, `src/uhs/atomizer/watchtower/watchtower.cpp:60-117`. -/
def Tower.statuses (w : Tower) (us : List Hash) (tx : Hash) (internalErr txErr : Bool)
    (best : UInt64) : List Answer :=
  us.flatMap (w.status1 tx internalErr txErr best)

/-- The answers for one entry of a request, `handle_status_update_request`,
`src/uhs/atomizer/watchtower/watchtower.cpp:119-151`. -/
def Tower.query (w : Tower) (tx : Hash) (us : List Hash) : List Answer :=
  let err := w.ec.checkTx tx
  let internalErr := match err with
    | some ⟨_, .sync⟩ => true
    | some ⟨_, .stxoRange⟩ => true
    | _ => false
  w.statuses us tx internalErr err.isSome w.bc.best

/-- `handle_best_block_height_request`, `src/uhs/atomizer/watchtower/watchtower.cpp:153-159`. -/
def Tower.bestHeight (w : Tower) : UInt64 := w.bc.best

/-- `watchtower::controller`, src/uhs/atomizer/watchtower/controller.hpp:46-47: the last height and the tower. -/
structure Ctl where
  last : UInt64
  tower : Tower

/-- The controller after start. -/
def Ctl.new (kb ke : Nat) : Ctl := ⟨0, .new kb ke⟩

/-- `atomizer_handler`, `src/uhs/atomizer/watchtower/controller.cpp:94-127` of the C++, given the answers of the archiver to
the requests it makes (each for the height after the last). The left side is a handler still waiting
when there are no more answers; the right side one that returned, with the answers it did not use. -/
def Ctl.handle (c : Ctl) (b : Block) : List (Option Block) → Ctl ⊕ (Ctl × List (Option Block))
  | [] =>
    if b.height ≠ c.last + 1 then .inl c
    else .inr (⟨b.height, c.tower.addBlock b⟩, [])
  | a :: as =>
    if b.height ≠ c.last + 1 then
      match a with
      | none => Ctl.handle c b as
      | some m => Ctl.handle ⟨m.height, c.tower.addBlock m⟩ b as
    else .inr (⟨b.height, c.tower.addBlock b⟩, a :: as)

end Verif.Watchtower
