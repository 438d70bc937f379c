/-!
# The PArSEC runtime locking shard

Model of `src/parsec/runtime_locking_shard/impl.cpp`: a key/value store with
per-key readers-writer locks, ordered wait queues, wounding of younger
transactions and a prepare/commit/finish protocol.

Representation.  `m_state` and `m_tickets` are hash maps; they are modelled as
functions (`m_state[key]` creates an empty element, so a missing key and an
empty element are the same thing).  A transaction's `m_locks_held` is a
function of the key, its `m_queued_locks` a list.  A loop over such a set treats each key independently of the others, so it is modelled pointwise:
the result for a key is what the loop body does for that key.  Callbacks are
identified by a number; the calls made by an operation are collected per key,
because the order in which the code visits keys is the unspecified iteration
order of a hash set.  Ticket numbers are only compared, so they are natural
numbers.  The mutex makes each operation atomic; log output is left out.
-/
namespace Verif.Parsec

/-- `key_type`, `value_type` (src/parsec/runtime_locking_shard/interface.hpp:20-22), both byte buffers. -/
abbrev Key := List UInt8
/-- `value_type` (src/parsec/runtime_locking_shard/interface.hpp:22). -/
abbrev Value := List UInt8
/-- `ticket_number_type`. -/
scoped notation "Tn" => Nat

/-- `lock_type` (src/parsec/runtime_locking_shard/interface.hpp:31-36).  The code's enumeration is a byte read
from the network; the two named values are modelled. -/
inductive LockType
  | read
  | write
  deriving DecidableEq, Repr

/-- `ticket_state` (src/parsec/runtime_locking_shard/interface.hpp:85-94). -/
inductive TState
  | begun
  | wounded
  | prepared
  | committed
  deriving DecidableEq, Repr

/-- `error_code` (src/parsec/runtime_locking_shard/interface.hpp:39-64). -/
inductive Code
  | prepared
  | wounded
  | lockHeld
  | lockQueued
  | unknownTicket
  | lockNotHeld
  | stateUpdateWithReadLock
  | notPrepared
  | committed
  | notCommitted
  | internalError
  deriving DecidableEq, Repr

/-- `shard_error` with `wounded_details` (src/parsec/runtime_locking_shard/interface.hpp:67-82). -/
structure ShardError where
  code : Code
  details : Option (Tn × Key) := none
  deriving DecidableEq, Repr

/-- What a lock callback is given: `try_lock_return_type` (src/parsec/runtime_locking_shard/interface.hpp:121). -/
inductive Answer
  | value (v : Value)
  | error (e : ShardError)
  deriving DecidableEq, Repr

/-- An entry of a wait queue: `lock_queue_element_type` with its ticket
(src/parsec/runtime_locking_shard/impl.hpp:96-99, 104). -/
structure Waiter where
  ticket : Tn
  type : LockType
  cb : Nat
  deriving DecidableEq, Repr

/-- `rw_lock_type` (src/parsec/runtime_locking_shard/impl.hpp:101-105).  `m_queue` is a `std::map` ordered by
ticket number: a list kept sorted by `enqueue`. -/
structure Lock where
  writer : Option Tn := none
  readers : List Tn := []
  queue : List Waiter := []
  deriving DecidableEq, Repr

/-- `ticket_state_type` (src/parsec/runtime_locking_shard/impl.hpp:115-125). -/
structure Ticket where
  state : TState := .begun
  held : Key → Option LockType := fun _ => none
  queued : List Key := []
  update : List (Key × Value) := []
  broker : Nat := 0
  details : Option (Tn × Key) := none

/-- `m_state` and `m_tickets` (src/parsec/runtime_locking_shard/impl.hpp:139-143). -/
structure State where
  value : Key → Value := fun _ => []
  lock : Key → Lock := fun _ => {}
  ticket : Tn → Option Ticket := fun _ => none

/-- The lock callbacks called by an operation, per key. -/
abbrev Calls := Key → List (Nat × Answer)

/-- No callback is called. -/
def noCalls : Calls := fun _ => []

/-- Both sets of calls. -/
def Calls.append (a b : Calls) : Calls := fun k => a k ++ b k

/-- `m_tickets[t] = tk`. -/
def State.setTicket (s : State) (t : Tn) (tk : Option Ticket) : State :=
  { s with ticket := fun x => if x = t then tk else s.ticket x }

/-- `m_queue.emplace` (src/parsec/runtime_locking_shard/impl.cpp:91-93): insertion in a map ordered by ticket
number; an existing entry is kept. -/
def enqueue (w : Waiter) : List Waiter → List Waiter
  | [] => [w]
  | x :: q =>
    if w.ticket < x.ticket then w :: x :: q
    else if w.ticket = x.ticket then x :: q
    else x :: enqueue w q

/-- `m_readers.insert`. -/
def addReader (rs : List Tn) (t : Tn) : List Tn :=
  if t ∈ rs then rs else t :: rs

/-- `get_waiting_on` (src/parsec/runtime_locking_shard/impl.cpp:156-178): the younger holders in the way. -/
def waitingOn (t : Tn) (ty : LockType) (lk : Lock) : List Tn :=
  (if ty = .write then lk.readers.filter (fun r => t < r) else []) ++
  (match lk.writer with
   | some w => if t < w then [w] else []
   | none => [])

/-- `while(acquire_lock(key, callbacks)) {}` for one key (src/parsec/runtime_locking_shard/impl.cpp:352 and
482-540): grants the lock to the front of the queue as long as that is
possible.  Returns the lock and the waiters that were granted, in order. -/
def grant (writer : Option Tn) (readers : List Tn) :
    List Waiter → Lock × List Waiter
  | [] => ({ writer, readers, queue := [] }, [])
  | w :: q =>
    match w.type with
    | .read =>
      if writer.isSome then ({ writer, readers, queue := w :: q }, [])
      else
        let r := grant writer (addReader readers w.ticket) q
        (r.1, w :: r.2)
    | .write =>
      if 1 < readers.length ∨ writer.isSome then
        ({ writer, readers, queue := w :: q }, [])
      else if readers.length = 1 ∧ readers.head? ≠ some w.ticket then
        ({ writer, readers, queue := w :: q }, [])
      else ({ writer := some w.ticket, readers := [], queue := q }, [w])

/-- `grant` for a lock. -/
def Lock.grant (lk : Lock) : Lock × List Waiter :=
  Parsec.grant lk.writer lk.readers lk.queue

/-- The lock a transaction holds after some waiters were granted
(`queued_ticket.m_locks_held[key] = ...`, src/parsec/runtime_locking_shard/impl.cpp:532). -/
def heldAfter (gs : List Waiter) (t : Tn) (h : Option LockType) :
    Option LockType :=
  match gs.find? (fun w => w.ticket = t) with
  | some w => some w.type
  | none => h

/-- `acquire_locks` (src/parsec/runtime_locking_shard/impl.cpp:347-355) for a set of keys.
`m_tickets[queued_ticket_number]` always finds its ticket, see `C40_agree`. -/
def acquire (s : State) (keys : Key → Bool) : State × Calls :=
  ({ value := s.value
     lock := fun k => if keys k then (s.lock k).grant.1 else s.lock k
     ticket := fun t => (s.ticket t).map fun tk =>
       { tk with
         held := fun k =>
           if keys k then heldAfter (s.lock k).grant.2 t (tk.held k)
           else tk.held k
         queued := tk.queued.filter fun k =>
           !(keys k && (s.lock k).grant.2.any fun w => w.ticket = t) } },
   fun k =>
     if keys k then
       (s.lock k).grant.2.map fun w => (w.cb, .value (s.value k))
     else [])

/-- What `release_locks` does to one lock (src/parsec/runtime_locking_shard/impl.cpp:306-316 and 320-341). -/
def unlock (t : Tn) (h : Option LockType) (q : Bool) (lk : Lock) : Lock :=
  { writer := if h = some .write then none else lk.writer
    readers := if h = some .read then lk.readers.filter (fun r => r ≠ t)
      else lk.readers
    queue := if q then lk.queue.filter (fun w => w.ticket ≠ t) else lk.queue }

/-- `release_locks` (src/parsec/runtime_locking_shard/impl.cpp:301-345) for transaction `t` with record `tk`.
Returns the state, the calls and the affected keys. -/
def release (s : State) (t : Tn) (tk : Ticket) :
    State × Calls × (Key → Bool) :=
  ({ value := s.value
     lock := fun k => unlock t (tk.held k) (k ∈ tk.queued) (s.lock k)
     ticket := fun x =>
       if x = t then
         some { tk with held := fun _ => none, queued := [] }
       else s.ticket x },
   fun k =>
     if k ∈ tk.queued then
       ((s.lock k).queue.filter (fun w => w.ticket = t)).map fun w =>
         (w.cb, .error ⟨.wounded, tk.details⟩)
     else [],
   fun k => k ∈ tk.queued || (tk.held k).isSome)

/-- The loop state of `wound_tickets`. -/
structure Wounding where
  st : State
  calls : Calls
  keys : Key → Bool

/-- One round of the loop of `wound_tickets` (src/parsec/runtime_locking_shard/impl.cpp:125-144). -/
def woundOne (blocked : Tn) (key : Key) (a : Wounding) (b : Tn) : Wounding :=
  let tk := (a.st.ticket b).getD {}
  if tk.state = .prepared then a
  else
    let r := release a.st b
      { tk with state := .wounded, details := some (blocked, key) }
    { st := r.1
      calls := a.calls.append r.2.1
      keys := fun k => a.keys k || r.2.2 k }

/-- `wound_tickets` (src/parsec/runtime_locking_shard/impl.cpp:119-154). -/
def woundTickets (s : State) (key : Key) (bs : List Tn) (blocked : Tn) :
    State × Calls :=
  let a := bs.foldl (woundOne blocked key)
    { st := s, calls := noCalls, keys := fun _ => false }
  let r := acquire a.st (fun k => a.keys k || k = key)
  (r.1, a.calls.append r.2)

/-- What an operation reports: the callbacks of lock requests it called, and
for the other operations its own result (`none` is success). -/
structure Out where
  calls : Calls := noCalls
  result : Option ShardError := none

/-- A refused lock request: its callback is called with the error. -/
def refuse (s : State) (cb : Nat) (k : Key) (e : ShardError) : State × Out :=
  (s, { calls := fun x => if x = k then [(cb, .error e)] else [] })

/-- Why a lock request is refused (src/parsec/runtime_locking_shard/impl.cpp:47-82). -/
def lockError (tk : Ticket) (k : Key) (ty : LockType) : Option ShardError :=
  if tk.state = .prepared then some ⟨.prepared, none⟩
  else if tk.state = .committed then some ⟨.committed, none⟩
  else if tk.state = .wounded then some ⟨.wounded, tk.details⟩
  else if tk.held k = some .write ∨ (tk.held k = some .read ∧ ty = .read) then
    some ⟨.lockHeld, none⟩
  else if k ∈ tk.queued then some ⟨.lockQueued, none⟩
  else none

/-- The request is put in the queue (src/parsec/runtime_locking_shard/impl.cpp:84-94). -/
def addWaiter (s : State) (t : Tn) (tk : Ticket) (broker : Nat) (k : Key)
    (ty : LockType) (cb : Nat) : State :=
  { s with
    lock := fun x =>
      if x = k then { s.lock k with
        queue := enqueue ⟨t, ty, cb⟩ (s.lock k).queue }
      else s.lock x
    ticket := fun x =>
      if x = t then
        some { tk with
          broker := broker
          queued := k :: tk.queued }
      else s.ticket x }

/-- `try_lock` (src/parsec/runtime_locking_shard/impl.cpp:14-117).  `none`: the shard process exits
(`m_log->fatal`, src/parsec/runtime_locking_shard/impl.cpp:31-35). -/
def tryLock (s : State) (t : Tn) (broker : Nat) (k : Key) (ty : LockType)
    (first : Bool) (cb : Nat) : Option (State × Out) :=
  if first ∧ (s.ticket t).isSome then none
  else if (s.ticket t).isNone ∧ first = false then
    some (refuse s cb k ⟨.unknownTicket, none⟩)
  else
    let tk := (s.ticket t).getD {}
    match lockError tk k ty with
    | some e => some (refuse s cb k e)
    | none =>
      let r := woundTickets (addWaiter s t tk broker k ty cb) k
        (waitingOn t ty (s.lock k)) t
      some (r.1, { calls := r.2 })

/-- The check of the update of a `prepare` (src/parsec/runtime_locking_shard/impl.cpp:222-236). -/
def updateError (tk : Ticket) : List (Key × Value) → Option ShardError
  | [] => none
  | (k, _) :: u =>
    match tk.held k with
    | none => some ⟨.lockNotHeld, none⟩
    | some .read => some ⟨.stateUpdateWithReadLock, none⟩
    | some .write => updateError tk u

/-- Why a `prepare` is refused (src/parsec/runtime_locking_shard/impl.cpp:196-236). -/
def prepareError (tk : Ticket) (u : List (Key × Value)) :
    Option ShardError :=
  if tk.state = .prepared then some ⟨.prepared, none⟩
  else if tk.state = .committed then some ⟨.committed, none⟩
  else if tk.state = .wounded then some ⟨.wounded, tk.details⟩
  else if tk.queued ≠ [] then some ⟨.lockQueued, none⟩
  else updateError tk u

/-- `prepare` (src/parsec/runtime_locking_shard/impl.cpp:180-245). -/
def prepare (s : State) (t : Tn) (u : List (Key × Value)) : State × Out :=
  match s.ticket t with
  | none => (s, { result := some ⟨.unknownTicket, none⟩ })
  | some tk =>
    match prepareError tk u with
    | some e => (s, { result := some e })
    | none =>
      (s.setTicket t (some { tk with state := .prepared, update := u }), {})

/-- The values after a commit (src/parsec/runtime_locking_shard/impl.cpp:268-270). -/
def applyUpdate (value : Key → Value) (u : List (Key × Value)) :
    Key → Value :=
  fun k => (u.lookup k).getD (value k)

/-- `commit` (src/parsec/runtime_locking_shard/impl.cpp:247-299).  The state `committed` is assigned before the
locks are handed on (the code does so at line 281, nothing in between reads
it). -/
def commit (s : State) (t : Tn) : State × Out :=
  match s.ticket t with
  | none => (s, { result := some ⟨.unknownTicket, none⟩ })
  | some tk =>
    if tk.state ≠ .prepared then (s, { result := some ⟨.notPrepared, none⟩ })
    else
      let s1 := { s with value := applyUpdate s.value tk.update }
      let r := release s1 t { tk with state := .committed }
      let a := acquire r.1 r.2.2
      (a.1, { calls := a.2.append r.2.1 })

/-- `rollback` (src/parsec/runtime_locking_shard/impl.cpp:357-396).  The ticket is erased before the locks are
handed on (the code does so at line 383; the released ticket is in no queue
then). -/
def rollback (s : State) (t : Tn) : State × Out :=
  match s.ticket t with
  | none => (s, { result := some ⟨.unknownTicket, none⟩ })
  | some tk =>
    let r := release s t tk
    let a := acquire (r.1.setTicket t none) r.2.2
    (a.1, { calls := a.2.append r.2.1 })

/-- `finish` (src/parsec/runtime_locking_shard/impl.cpp:398-429). -/
def finish (s : State) (t : Tn) : State × Out :=
  match s.ticket t with
  | none => (s, { result := some ⟨.unknownTicket, none⟩ })
  | some tk =>
    if tk.state ≠ .committed then
      (s, { result := some ⟨.notCommitted, none⟩ })
    else (s.setTicket t none, {})

/-- `get_tickets` (src/parsec/runtime_locking_shard/impl.cpp:431-447): the state of `t` in the answer for a
broker. -/
def getTickets (s : State) (broker : Nat) (t : Tn) : Option TState :=
  match s.ticket t with
  | some tk => if tk.broker = broker then some tk.state else none
  | none => none

/-- The requests a shard serves. -/
inductive Op
  | tryLock (t : Tn) (broker : Nat) (k : Key) (ty : LockType) (first : Bool)
      (cb : Nat)
  | prepare (t : Tn) (u : List (Key × Value))
  | commit (t : Tn)
  | rollback (t : Tn)
  | finish (t : Tn)

/-- The transaction of a request. -/
def Op.ticket : Op → Tn
  | .tryLock t .. => t
  | .prepare t _ => t
  | .commit t => t
  | .rollback t => t
  | .finish t => t

/-- One request. `none`: the process exits. -/
def exec (s : State) : Op → Option (State × Out)
  | .tryLock t b k ty f cb => tryLock s t b k ty f cb
  | .prepare t u => some (prepare s t u)
  | .commit t => some (commit s t)
  | .rollback t => some (rollback s t)
  | .finish t => some (finish s t)

/-- `replicated_shard_interface::ticket_type`
(src/parsec/runtime_locking_shard/replicated_shard_interface.hpp:33-40); `committed` is its state. -/
structure RTicket where
  broker : Nat
  update : List (Key × Value)
  committed : Bool
  deriving DecidableEq, Repr

/-- The holder of the write lock of `k` after `recover`: some prepared
ticket whose update names `k` (src/parsec/runtime_locking_shard/impl.cpp:470-473; the last one visited wins). -/
def recoveredWriter (ts : List (Tn × RTicket)) (k : Key) : Option Tn :=
  (ts.reverse.find? fun p =>
    !p.2.committed && p.2.update.any fun q => q.1 = k).map (·.1)

/-- A ticket record after `recover` (src/parsec/runtime_locking_shard/impl.cpp:462-476). -/
def recoverTicket (r : RTicket) : Ticket :=
  { state := if r.committed then .committed else .prepared
    held := fun k =>
      if !r.committed && r.update.any fun q => q.1 = k then some .write
      else none
    update := r.update
    broker := r.broker }

/-- `recover` (src/parsec/runtime_locking_shard/impl.cpp:449-480) on a new shard object, as in
src/parsec/runtime_locking_shard/controller.cpp:92-97. -/
def recover (value : Key → Value) (ts : List (Tn × RTicket)) : State :=
  { value := value
    lock := fun k => { writer := recoveredWriter ts k }
    ticket := fun t => (ts.lookup t).map recoverTicket }

end Verif.Parsec
