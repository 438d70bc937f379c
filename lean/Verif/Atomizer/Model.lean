import Verif.LockingShard.Model

/-!
Model of the atomizer: `src/uhs/atomizer/atomizer/{atomizer,state_machine,atomizer_raft}.cpp`
and of the shards that attest to it, `src/uhs/atomizer/shard/shard.cpp`.

The replicated state machine is fed one log entry at a time. Hash maps are association lists;
sets are lists without repetitions. `none` as the result of a function
is undefined behaviour (an index out of range) or a loop that never ends.
-/
namespace Verif.Atomizer

open Verif.Tx

/-- `tx_error_info`, `src/uhs/atomizer/watchtower/tx_error_messages.hpp:32-36`. -/
inductive ErrInfo where
  | sync
  | inputsDne (ids : List Hash)
  | stxoRange
  | incomplete
  | inputsSpent (ids : List Hash)
  deriving DecidableEq

/-- `tx_error`: the transaction id and the reason. -/
structure TxErr where
  txId : Hash
  info : ErrInfo
  deriving DecidableEq

/-- `block`, `src/uhs/atomizer/atomizer/block.hpp:19-27`. -/
structure Block where
  height : UInt64
  txs : List CompactTx
  deriving DecidableEq

/-- One element of `m_txs`: an `unordered_map` from compact transactions, which compare by id
only (`src/uhs/transaction/transaction.cpp:122-124`), to sets of input indexes. -/
abbrev TxMap := List (CompactTx × List Nat)

/-- The members of `atomizer`, `src/uhs/atomizer/atomizer/atomizer.hpp:119-131`. -/
structure Atm where
  txs : List TxMap
  complete : List CompactTx
  spent : List (List Hash)
  best : UInt64
  depth : Nat
  deriving DecidableEq

/-- The constructor, `src/uhs/atomizer/atomizer/atomizer.cpp:166-172`. -/
def Atm.new (best : UInt64) (depth : Nat) : Atm where
  txs := List.replicate (depth + 1) []
  complete := []
  spent := List.replicate (depth + 1) []
  best := best
  depth := depth

/-- `unordered_map::find`; keys are equal when their ids are. -/
def TxMap.find (m : TxMap) (id : Hash) : Option (CompactTx × List Nat) :=
  List.find? (fun e => e.1.id == id) m

/-- `set.insert(first, last)`. -/
def unite {α : Type} [DecidableEq α] (s : List α) (l : List α) : List α :=
  l.foldl (fun acc n => if n ∈ acc then acc else acc ++ [n]) s

/-- The insertion or merge at `src/uhs/atomizer/atomizer/atomizer.cpp:58-70`. -/
def TxMap.note (m : TxMap) (tx : CompactTx) (atts : List Nat) : TxMap :=
  match m.find tx.id with
  | none => m ++ [(tx, unite [] atts)]
  | some _ => m.map fun e => if e.1.id = tx.id then (e.1, unite e.2 atts) else e

/-- `unordered_map::erase`/`extract`. -/
def TxMap.drop (m : TxMap) (id : Hash) : TxMap := List.filter (fun e => e.1.id != id) m

/-- `get_notification_offset`, `src/uhs/atomizer/atomizer/atomizer.cpp:201-206`: 64-bit subtraction, wraps. -/
def Atm.offset (a : Atm) (h : UInt64) : Nat := (a.best - h).toNat

/-- `check_notification_offset`, `src/uhs/atomizer/atomizer/atomizer.cpp:208-219`. -/
def Atm.checkOffset (a : Atm) (off : Nat) (tx : CompactTx) : Option TxErr :=
  if off > a.depth ∧ tx.inputs ≠ [] then some ⟨tx.id, .stxoRange⟩ else none

/-- The search of `check_stxo_cache`, `src/uhs/atomizer/atomizer/atomizer.cpp:227-234`: the inputs found in the first
`range + 1` generations. -/
def Atm.spentInputs (a : Atm) (tx : CompactTx) (range : Nat) : List Hash :=
  tx.inputs.filter fun x => (a.spent.take (range + 1)).any fun g => decide (x ∈ g)

/-- `check_stxo_cache`, `src/uhs/atomizer/atomizer/atomizer.cpp:221-243`. Outer `none`: `m_spent[offset]` is out of range
(only evaluated when there are inputs), or `offset <= 2^64 - 1` never becomes false. (`err_set` is
a set; here a list, compared by membership.) -/
def Atm.checkStxo (a : Atm) (tx : CompactTx) (range : Nat) : Option (Option TxErr) :=
  if range + 1 = 2 ^ 64 then none
  else if a.spent.length ≤ range ∧ tx.inputs ≠ [] then none
  else if a.spentInputs tx range = [] then some none
  else some (some ⟨tx.id, .inputsSpent (a.spentInputs tx range)⟩)

/-- `add_tx_to_stxo_cache`, `src/uhs/atomizer/atomizer/atomizer.cpp:245-250`. -/
def Atm.addSpent (a : Atm) (tx : CompactTx) : Atm :=
  { a with spent := match a.spent with
      | [] => []
      | g :: gs => unite g tx.inputs :: gs }

/-- The accumulation loop of `insert`, `src/uhs/atomizer/atomizer/atomizer.cpp:79-100`: all attestations for `id`, and the
last offset at which there are any. -/
def gather (id : Hash) : List TxMap → (offset : Nat) → List Nat → Nat → List Nat × Nat
  | [], _, total, oldest => (total, oldest)
  | m :: ms, k, total, oldest =>
    match m.find id with
    | some e => gather id ms (k + 1) (unite total e.2) k
    | none => gather id ms (k + 1) total oldest

/-- `insert`, `src/uhs/atomizer/atomizer/atomizer.cpp:44-132`. (`m_txs` has `depth + 1` elements, so the loop over offsets
visits all of them.) Only the unit tests call this function; the raft layer uses
`insert_complete`. -/
def Atm.insert (a : Atm) (h : UInt64) (tx : CompactTx) (atts : List Nat) :
    Option (Atm × Option TxErr) :=
  match a.checkOffset (a.offset h) tx with
  | some e => some (a, some e)
  | none =>
    match a.txs[a.offset h]? with
    | none => none
    | some m =>
      let txs := a.txs.set (a.offset h) (m.note tx atts)
      let a1 : Atm := { a with txs := txs }
      let it := (((m.note tx atts).find tx.id).map Prod.fst).getD tx
      let g := gather tx.id txs 0 [] 0
      if g.1.length = it.inputs.length then
        match a1.checkStxo it g.2 with
        | none => none
        | some (some e) => some (a1, some e)
        | some none =>
          let done := (((txs[g.2]?.getD []).find tx.id).map Prod.fst).getD it
          some ({ a1.addSpent it with
            txs := txs.map fun m => m.drop tx.id
            complete := a.complete ++ [done] }, none)
      else some (a1, none)

/-- `insert_complete`, `src/uhs/atomizer/atomizer/atomizer.cpp:134-156`. -/
def Atm.insertComplete (a : Atm) (oldest : UInt64) (tx : CompactTx) :
    Option (Atm × Option TxErr) :=
  match a.checkOffset (a.offset oldest) tx with
  | some e => some (a, some e)
  | none =>
    match a.checkStxo tx (a.offset oldest) with
    | none => none
    | some (some e) => some (a, some e)
    | some none => some ({ a.addSpent tx with complete := a.complete ++ [tx] }, none)

/-- `make_block`, `src/uhs/atomizer/atomizer/atomizer.cpp:14-42`; both vectors have `depth + 1` elements. -/
def Atm.makeBlock (a : Atm) : Atm × Block × List TxErr :=
  ({ a with
      complete := []
      best := a.best + 1
      spent := [] :: a.spent.take a.depth
      txs := [] :: a.txs.take a.depth },
    ⟨a.best + 1, a.complete⟩,
    (a.txs[a.depth]?.getD []).map fun e => ⟨e.1.id, .incomplete⟩)

/-- `aggregate_tx_notification`, `src/uhs/atomizer/atomizer/messages.hpp:43-51`. -/
structure Agg where
  tx : CompactTx
  oldest : UInt64
  deriving DecidableEq

/-! ### The replicated state machine, `src/uhs/atomizer/atomizer/state_machine.cpp` -/

/-- `m_atomizer`, `m_blocks` and `m_tx_notify_count`, `src/uhs/atomizer/atomizer/state_machine.hpp:143-148`. -/
structure SM where
  atm : Atm
  blocks : List (UInt64 × Block)
  count : Nat
  deriving DecidableEq

/-- The constructor on an empty snapshot directory, `src/uhs/atomizer/atomizer/state_machine.cpp:23-40`. -/
def SM.new (depth : Nat) : SM := ⟨Atm.new 0 depth, [], 0⟩

/-- `state_machine::request`, `src/uhs/atomizer/atomizer/state_machine.hpp:30-33`. -/
inductive Req where
  | notify (aggs : List Agg)
  | makeBlock
  | getBlock (h : UInt64)
  | prune (h : UInt64)

/-- `state_machine::response`, `src/uhs/atomizer/atomizer/state_machine.hpp:36-37`. -/
inductive Resp where
  | made (b : Block) (errs : List TxErr)
  | block (b : Block)
  | errors (errs : List TxErr)
  deriving DecidableEq

/-- The loop over a batch of notifications, `src/uhs/atomizer/atomizer/state_machine.cpp:54-63`. -/
def SM.notifyAll (s : SM) : List Agg → Option (SM × List TxErr)
  | [] => some (s, [])
  | m :: ms =>
    match s.atm.insertComplete m.oldest m.tx with
    | none => none
    | some (a, e) =>
      match SM.notifyAll { s with atm := a, count := s.count + 1 } ms with
      | none => none
      | some (s', es) => some (s', e.toList ++ es)

/-- `state_machine::commit`, `src/uhs/atomizer/atomizer/state_machine.cpp:42-101`, for a log entry that decodes. `emplace`
keeps a block already stored under the height. -/
def SM.commit (s : SM) : Req → Option (SM × Option Resp)
  | .notify aggs =>
    match s.notifyAll aggs with
    | none => none
    | some (s', errs) => some (s', if errs = [] then none else some (.errors errs))
  | .makeBlock =>
    let r := s.atm.makeBlock
    some ({ s with
        atm := r.1
        blocks := if (s.blocks.find? fun p => p.1 == r.2.1.height).isSome then s.blocks
          else s.blocks ++ [(r.2.1.height, r.2.1)] },
      some (.made r.2.1 r.2.2))
  | .getBlock h => some (s, (s.blocks.find? fun p => p.1 == h).map fun p => .block p.2)
  | .prune h => some ({ s with blocks := s.blocks.filter fun p => ¬ p.2.height < h }, none)

/-! ### The leader, `src/uhs/atomizer/atomizer/atomizer_raft.cpp` -/

/-- `tx_notify_request`, `src/uhs/atomizer/atomizer/messages.hpp:21-31`. -/
structure Notif where
  tx : CompactTx
  atts : List Nat
  height : UInt64
  deriving DecidableEq

/-- `m_txs` and `m_complete_txs`, `src/uhs/atomizer/atomizer/atomizer_raft.hpp:86-94`. An attestation is a pair of input
index and height; the set compares the index only (`src/uhs/atomizer/atomizer/atomizer_raft.cpp:135-144`). -/
structure Pool where
  txs : List (CompactTx × List (Nat × UInt64))
  complete : List Agg
  deriving DecidableEq

/-- A freshly started leader. -/
def Pool.new : Pool := ⟨[], []⟩

/-- `set.insert`, which keeps an element with the same index. -/
def addAtt (s : List (Nat × UInt64)) (p : Nat × UInt64) : List (Nat × UInt64) :=
  if s.any (fun q => q.1 == p.1) then s else s ++ [p]

/-- The oldest height among the attestations, `src/uhs/atomizer/atomizer/atomizer_raft.cpp:108-113`; 0 means none yet. -/
def oldestOf (atts : List (Nat × UInt64)) : UInt64 :=
  atts.foldl (fun o p => if o = 0 ∨ p.2 < o then p.2 else o) 0

/-- The entry of `m_txs` for this notification after `src/uhs/atomizer/atomizer/atomizer_raft.cpp:67-89`. The loop at
`69-77` inserts an index whether it is absent or present with a lower height, and inserting a
present index changes nothing. -/
def Pool.entry (p : Pool) (n : Notif) : CompactTx × List (Nat × UInt64) :=
  match p.txs.find? fun e => e.1.id == n.tx.id with
  | some e => (e.1, n.atts.foldl (fun s i => addAtt s (i, n.height)) e.2)
  | none => (n.tx, n.atts.foldl (fun s i => addAtt s (i, n.height)) [])

/-- `tx_notify`, `src/uhs/atomizer/atomizer/atomizer_raft.cpp:55-120`; `attested` is the outcome of `check_attestations`. -/
def Pool.notify (attested : CompactTx → Bool) (p : Pool) (n : Notif) : Pool :=
  if !attested n.tx then p
  else
    let e := p.entry n
    let rest := p.txs.filter fun e' => e'.1.id != n.tx.id
    if e.2.length ≠ e.1.inputs.length then { p with txs := rest ++ [e] }
    else ⟨rest, p.complete ++ [⟨e.1, oldestOf e.2⟩]⟩

/-! ### Shards, `src/uhs/atomizer/shard/shard.cpp` -/

/-- What the database holds: the ids stored as keys and the value of `bestBlockHeight`. -/
structure Disk where
  coins : Hash → Bool
  height : Option UInt64

/-- The members of `shard`, `src/uhs/atomizer/shard/shard.hpp:74-86`: the database, the height in memory and the
snapshot handed to readers with its height. -/
structure Shard where
  range : UInt8 × UInt8
  disk : Disk
  best : UInt64
  snap : Hash → Bool
  snapHeight : UInt64

/-- `is_output_on_shard`, `src/uhs/atomizer/shard/shard.cpp:173-175`. -/
def owns (range : UInt8 × UInt8) (x : Hash) : Bool := LockingShard.inRange range x

/-- `update_snapshot`, `src/uhs/atomizer/shard/shard.cpp:177-185`. -/
def Shard.updateSnapshot (s : Shard) : Shard :=
  { s with snap := s.disk.coins, snapHeight := s.best }

/-- `open_db`, `src/uhs/atomizer/shard/shard.cpp:14-55`. -/
def Shard.openDb (range : UInt8 × UInt8) (d : Disk) : Shard :=
  (match d.height with
    | none => ⟨range, { d with height := some 0 }, 0, d.coins, 0⟩
    | some h => ⟨range, d, h, d.coins, h⟩ : Shard).updateSnapshot

/-- The output loop of `digest_block`, `src/uhs/atomizer/shard/shard.cpp:67-74`. -/
def putOutputs (range : UInt8 × UInt8) (coins : Hash → Bool) : List Hash → Hash → Bool
  | [] => coins
  | x :: xs =>
    putOutputs range (if owns range x then fun y => if y = x then true else coins y else coins) xs

/-- The input loop of `digest_block`, `src/uhs/atomizer/shard/shard.cpp:77-84`. -/
def deleteInputs (range : UInt8 × UInt8) (coins : Hash → Bool) : List Hash → Hash → Bool
  | [] => coins
  | x :: xs =>
    deleteInputs range (if owns range x then fun y => if y = x then false else coins y else coins) xs

/-- The write batch of `digest_block`, `src/uhs/atomizer/shard/shard.cpp:65-85`. -/
def applyTxs (range : UInt8 × UInt8) (coins : Hash → Bool) : List CompactTx → Hash → Bool
  | [] => coins
  | t :: ts => applyTxs range (deleteInputs range (putOutputs range coins t.uhsOutputs) t.inputs) ts

/-- `digest_block`, `src/uhs/atomizer/shard/shard.cpp:57-103`. The status of `m_db->Write` is ignored by the code; here
the write succeeds. -/
def Shard.digestBlock (s : Shard) (b : Block) : Shard × Bool :=
  if b.height ≠ s.best + 1 then (s, false)
  else
    (({ s with
        disk := ⟨applyTxs s.range s.disk.coins b.txs, some (s.best + 1)⟩
        best := s.best + 1 } : Shard).updateSnapshot, true)

/-- The loop of `digest_transaction`, `src/uhs/atomizer/shard/shard.cpp:135-153`: attested indexes and missing ids. -/
def scanInputs (range : UInt8 × UInt8) (snap : Hash → Bool) : List Hash → Nat → List Nat × List Hash
  | [], _ => ([], [])
  | x :: xs, i =>
    let r := scanInputs range snap xs (i + 1)
    if !owns range x then r
    else if snap x then (i :: r.1, r.2) else (r.1, x :: r.2)

/-- `digest_transaction`, `src/uhs/atomizer/shard/shard.cpp:105-167`, reading the snapshot taken at its start. -/
def Shard.digestTx (s : Shard) (tx : CompactTx) : TxErr ⊕ Notif :=
  if s.snapHeight = 0 then .inl ⟨tx.id, .sync⟩
  else if tx.inputs = [] then .inl ⟨tx.id, .inputsDne []⟩
  else
    let r := scanInputs s.range s.snap tx.inputs 0
    if r.2 ≠ [] then .inl ⟨tx.id, .inputsDne r.2⟩
    else .inr ⟨tx, r.1, s.snapHeight⟩

/-! ### The whole system -/

/-- The settings: spent-output cache depth, shard ranges, the outcome of `check_attestations`, the
ids that exist before the first block, the transactions that may be handed to shards, and those
that somebody may hand to `atomizer::insert` directly (none in the deployed system). -/
structure Params where
  depth : Nat
  range : Nat → UInt8 × UInt8
  attested : CompactTx → Bool
  genesis : Hash → Bool
  submitted : CompactTx → Prop
  direct : CompactTx → Prop

/-- The atomizer cluster's state machine, the shards, the leaders' memory (one pool per node),
every notification a shard has sent, every log entry proposed, and the blocks cut so far, oldest
first. -/
structure World where
  sm : SM
  shards : Nat → Shard
  pools : Nat → Pool
  notifs : List Notif
  aggs : List Agg
  chain : List Block

/-- Replace one component of an indexed family. -/
def upd {α : Type} (f : Nat → α) (i : Nat) (a : α) : Nat → α := fun j => if j = i then a else f j

/-- What a freshly seeded shard database holds (`tools/shard-seeder/shard-seeder.cpp:105-152`). -/
def Params.seed (P : Params) (i : Nat) : Disk :=
  ⟨fun x => owns (P.range i) x && P.genesis x, none⟩

/-- The initial state. -/
def World.init (P : Params) : World where
  sm := SM.new P.depth
  shards := fun i => Shard.openDb (P.range i) (P.seed i)
  pools := fun _ => Pool.new
  notifs := []
  aggs := []
  chain := []

/-- One step. Messages between components may be delayed, reordered, repeated or lost: a component
may act on anything that was ever sent to it. -/
inductive Step (P : Params) : World → World → Prop where
  /-- a block reaches a shard from the atomizer or the archiver -/
  | digest (w : World) (i : Nat) (b : Block) : b ∈ w.chain →
    Step P w { w with shards := upd w.shards i ((w.shards i).digestBlock b).1 }
  /-- a shard process restarts from its database; writes are not synced, so an earlier version of
  the database (the one after `h` blocks) may be found -/
  | restart (w : World) (i : Nat) (d : Disk) :
    (d = (w.shards i).disk ∨ ∃ (h : Nat), h ≤ w.chain.length ∧
      (d = (((w.chain.take h).foldl (fun s b => (Shard.digestBlock s b).1)
        (Shard.openDb (P.range i) (P.seed i)))).disk)) →
    Step P w { w with shards := upd w.shards i (Shard.openDb (P.range i) d) }
  /-- a shard attests a transaction -/
  | attest (w : World) (i : Nat) (tx : CompactTx) (n : Notif) : P.submitted tx →
    (w.shards i).digestTx tx = .inr n → Step P w { w with notifs := w.notifs ++ [n] }
  /-- a minting transaction is sent to the atomizer directly -/
  | mint (w : World) (n : Notif) : P.submitted n.tx → n.tx.inputs = [] →
    Step P w { w with notifs := w.notifs ++ [n] }
  /-- a leader handles a notification -/
  | notify (w : World) (j : Nat) (n : Notif) : n ∈ w.notifs →
    Step P w { w with pools := upd w.pools j ((w.pools j).notify P.attested n) }
  /-- `send_complete_txs`, `src/uhs/atomizer/atomizer/atomizer_raft.cpp:122-133`: a leader proposes a log entry -/
  | propose (w : World) (j : Nat) :
    Step P w { w with
      aggs := w.aggs ++ (w.pools j).complete
      pools := upd w.pools j { w.pools j with complete := [] } }
  /-- a node restarts and forgets -/
  | forget (w : World) (j : Nat) : Step P w { w with pools := upd w.pools j Pool.new }
  /-- a log entry with proposed notifications is executed -/
  | commit (w : World) (ms : List Agg) (sm : SM) (r : Option Resp) : (∀ m ∈ ms, m ∈ w.aggs) →
    w.sm.commit (.notify ms) = some (sm, r) → Step P w { w with sm := sm }
  /-- a notification is handed to `atomizer::insert` directly -/
  | insert (w : World) (n : Notif) (a : Atm) (e : Option TxErr) : n ∈ w.notifs → P.direct n.tx →
    w.sm.atm.insert n.height n.tx n.atts = some (a, e) →
    Step P w { w with sm := { w.sm with atm := a } }
  /-- a block is cut; heights do not reach `2^64` -/
  | block (w : World) (sm : SM) (b : Block) (errs : List TxErr) : w.chain.length + 1 < 2 ^ 64 →
    w.sm.commit .makeBlock = some (sm, some (.made b errs)) →
    Step P w { w with sm := sm, chain := w.chain ++ [b] }
  /-- old blocks are pruned -/
  | prune (w : World) (h : UInt64) (sm : SM) (r : Option Resp) :
    w.sm.commit (.prune h) = some (sm, r) → Step P w { w with sm := sm }

/-- The states the system can reach. -/
inductive Reach (P : Params) : World → Prop where
  | init : Reach P (World.init P)
  | step (w w' : World) : Reach P w → Step P w w' → Reach P w'

end Verif.Atomizer
