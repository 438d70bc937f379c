import Verif.Parsec.Shard

/-!
# The PArSEC broker

Model of `src/parsec/broker/impl.cpp`: the client side of the commit protocol,
run by an agent against any number of shards.

Every function holds the recursive mutex while it looks at or changes the
broker's state, and requests to shards, to the directory and to the ticket
machine are answered later, from another thread, so the model is a state
machine whose events are calls by the user and answers.  Answers are arbitrary:
nothing is assumed about the shards.  (`directory::impl` and local shards answer
while the request is made; the directory's answer is then the next event, local
shards, which are used only in tests, are not covered.)

`m_shard_states`, `m_key_states` and `m_tickets` are hash maps.  Where a loop
over the shards can stop because a request cannot be sent, the event says at
which shard it stops and which shards come before it (`Stop`), so nothing
depends on the iteration order.  Callbacks of the user are numbers.  After a
callback of the recovery procedure the broker calls itself without the mutex;
the model does this within the same event.
-/
namespace Verif.Parsec.Broker

/-- `error_code` (src/parsec/broker/interface.hpp:41-84). -/
inductive Code
  | ticketAssignment
  | unknownTicket
  | prepared
  | shardUnreachable
  | ticketMachineUnreachable
  | committed
  | notPrepared
  | begun
  | aborted
  | directoryUnreachable
  | invalidShardState
  | waitingForLocks
  | commitError
  | rollbackError
  | finishError
  | getTicketsError
  | commitHazard
  deriving DecidableEq, Repr

/-- The error alternatives of a result (src/parsec/broker/interface.hpp). -/
inductive Fail
  | broker (c : Code)
  | shard (e : ShardError)
  deriving DecidableEq, Repr

/-- `ticket_state` (src/parsec/broker/impl.hpp:91-96). -/
inductive TState
  | begun
  | prepared
  | committed
  | aborted
  deriving DecidableEq, Repr

/-- `shard_state_type` (src/parsec/broker/impl.hpp:108-119). -/
inductive SState
  | begun
  | preparing
  | prepared
  | wounded
  | committing
  | committed
  | rollingBack
  | rolledBack
  | finishing
  | finished
  deriving DecidableEq, Repr

/-- `key_state_type` (src/parsec/broker/impl.hpp:126-130). -/
structure KeySt where
  locked : Bool
  type : LockType
  value : Option Value := none
  deriving DecidableEq, Repr

/-- `shard_state` (src/parsec/broker/impl.hpp:132-138). -/
structure Sh where
  state : SState := .begun
  keys : List (Key × KeySt) := []
  deriving DecidableEq, Repr

/-- `state` (src/parsec/broker/impl.hpp:142-145). -/
structure Ticket where
  state : TState := .begun
  shards : List (Nat × Sh) := []
  deriving DecidableEq, Repr

/-- The fields of `impl` (src/parsec/broker/impl.hpp:98-154).  `shards` is the number of
shards. -/
structure State where
  shards : Nat
  tickets : List (Tn × Ticket) := []
  highest : Nat := 0
  recovery : List (Nat × List (Tn × Parsec.TState)) := []

/-- Whom the result of a commit, rollback or finish goes to: a callback of the
user, or, in recovery, one of the `handle_recovery_…` functions, with the
callback given to `recover`. -/
structure Cont where
  cb : Nat
  recovery : Bool := false
  deriving DecidableEq, Repr

/-- Requests to shards, with what their answer will need. -/
inductive Call
  | tryLock (i : Nat) (t : Tn) (k : Key) (ty : LockType) (first : Bool)
      (cb : Nat)
  | prepare (i : Nat) (t : Tn) (u : List (Key × Value)) (c : Cont)
  | commit (i : Nat) (t : Tn) (c : Cont)
  | rollback (i : Nat) (t : Tn) (c : Cont)
  | finish (i : Nat) (t : Tn) (c : Cont)
  | getTickets (i : Nat) (cb : Nat)
  deriving DecidableEq, Repr

/-- Callbacks of the user being called. -/
inductive Said
  | begin (cb : Nat) (r : Except Code Nat)
  | lock (cb : Nat) (t : Tn) (r : Except Fail Value)
  | commit (cb : Nat) (t : Tn) (r : Option Fail)
  | rollback (cb : Nat) (t : Tn) (r : Option Fail)
  | finish (cb : Nat) (t : Tn) (r : Option Fail)
  | recover (cb : Nat) (r : Option Code)

/-- What an event causes. -/
structure Out where
  calls : List Call := []
  said : List Said := []

/-- Where a loop over shards stops: the request to shard `at` cannot be sent,
and the loop has visited the shards in `before`. -/
structure Stop where
  «at» : Nat
  before : Nat → Bool

/-! ### Maps -/

/-- `m_tickets[t] = tk`. -/
def State.set (s : State) (t : Tn) (tk : Ticket) : State :=
  { s with tickets := (t, tk) :: s.tickets.filter fun p => p.1 ≠ t }

/-- `m_tickets.erase(t)`. -/
def State.erase (s : State) (t : Tn) : State :=
  { s with tickets := s.tickets.filter fun p => p.1 ≠ t }

/-- `m_shard_states[i]` inserts an element if there is none. -/
def touch (l : List (Nat × Sh)) (i : Nat) : List (Nat × Sh) :=
  if (l.lookup i).isSome then l else l ++ [(i, { state := .begun })]

/-- The element for shard `i` is changed. -/
def update (l : List (Nat × Sh)) (i : Nat) (f : Sh → Sh) : List (Nat × Sh) :=
  l.map fun e => if e.1 = i then (e.1, f e.2) else e

/-- `m_shard_states[i].m_state`. -/
def stateOf (l : List (Nat × Sh)) (i : Nat) : SState :=
  ((l.lookup i).getD {}).state

/-- `m_shard_states[i].m_state = x`. -/
def setState (l : List (Nat × Sh)) (i : Nat) (x : SState) : List (Nat × Sh) :=
  update l i fun sh => { sh with state := x }

/-! ### Loops that send a request to shards -/

/-- The loop stops at the shard of `p` only if it makes a request to it. -/
def stops (l : List (Nat × Sh)) (skip : SState → Bool) :
    Option Stop → Option Stop
  | none => none
  | some p =>
    if l.any fun e => e.1 = p.at && !skip e.2.state then some p else none

/-- Whether the loop gets to shard `i`. -/
def visited : Option Stop → Nat → Bool
  | none, _ => true
  | some p, i => i = p.at || p.before i

/-- Whether the loop gets beyond shard `i`. -/
def passed : Option Stop → Nat → Bool
  | none, _ => true
  | some p, i => i ≠ p.at && p.before i

/-- The shard states after a loop that sets the shards it does not skip to
`x`. -/
def mark (l : List (Nat × Sh)) (skip : SState → Bool) (x : SState)
    (p : Option Stop) : List (Nat × Sh) :=
  l.map fun e =>
    if !skip e.2.state && visited p e.1 then
      (e.1, { e.2 with state := x })
    else e

/-- The shards the loop makes its request to. -/
def targets (l : List (Nat × Sh)) (skip : SState → Bool) (p : Option Stop) :
    List (Nat × Sh) :=
  l.filter fun e => !skip e.2.state && passed p e.1

/-- The result of a loop: an error if it stopped (src/parsec/broker/impl.cpp:303, 486, 555,
628). -/
def stopError : Option Stop → Option Fail
  | none => none
  | some _ => some (.broker .shardUnreachable)

/-! ### Finish -/

/-- The result of a finish: the user's callback, or `handle_recovery_finish`
(src/parsec/broker/impl.cpp:1051-1065). -/
def finishDone (s : State) (c : Cont) (t : Tn) (r : Option Fail) : List Said :=
  if c.recovery then
    if r.isSome then [.recover c.cb (some .finishError)]
    else if s.tickets.isEmpty then [.recover c.cb none]
    else []
  else [.finish c.cb t r]

/-- The loop of `finish` (src/parsec/broker/impl.cpp:527-557). -/
def Ticket.finish (tk : Ticket) (t : Tn) (c : Cont) (p : Option Stop) :
    Ticket × List Call × Option Fail :=
  let p := stops tk.shards (· = .finished) p
  ({ tk with shards := mark tk.shards (· = .finished) .finishing p },
   (targets tk.shards (· = .finished) p).map fun e => .finish e.1 t c,
   stopError p)

/-- `finish` (src/parsec/broker/impl.cpp:492-569). -/
def finish (s : State) (t : Tn) (c : Cont) (p : Option Stop) : State × Out :=
  match s.tickets.lookup t with
  | none => (s, { said := finishDone s c t (some (.broker .unknownTicket)) })
  | some tk =>
    match tk.state with
    | .begun => (s, { said := finishDone s c t (some (.broker .begun)) })
    | .prepared => (s, { said := finishDone s c t (some (.broker .prepared)) })
    | .aborted => (s.erase t, { said := finishDone (s.erase t) c t none })
    | .committed =>
      let r := tk.finish t c p
      let s' := s.set t r.1
      (s', { calls := r.2.1
             said := if r.2.2.isSome then finishDone s' c t r.2.2 else [] })

/-- `handle_finish` (src/parsec/broker/impl.cpp:804-880). -/
def handleFinish (s : State) (c : Cont) (t : Tn) (i : Nat)
    (res : Option ShardError) : State × Out :=
  match s.tickets.lookup t with
  | none => (s, { said := finishDone s c t (some (.broker .unknownTicket)) })
  | some tk =>
    match tk.state with
    | .begun => (s, { said := finishDone s c t (some (.broker .begun)) })
    | .prepared => (s, { said := finishDone s c t (some (.broker .prepared)) })
    | .aborted => (s, { said := finishDone s c t (some (.broker .aborted)) })
    | .committed =>
      let l := touch tk.shards i
      if stateOf l i ≠ .finishing then
        let s' := s.set t { tk with shards := l }
        (s', { said := finishDone s' c t (some (.broker .invalidShardState)) })
      else if res.isSome then
        (s, { said := finishDone s c t (some (.broker .finishError)) })
      else
        let l := setState l i .finished
        if l.all fun e => e.2.state = .finished then
          (s.erase t, { said := finishDone (s.erase t) c t none })
        else (s.set t { tk with shards := l }, {})

/-! ### Commit -/

/-- The result of a commit: the user's callback, or `handle_recovery_commit`
(src/parsec/broker/impl.cpp:1032-1049). -/
def commitDone (s : State) (c : Cont) (t : Tn) (r : Option Fail)
    (p : Option Stop) : State × Out :=
  if c.recovery then
    if r.isSome then (s, { said := [.recover c.cb (some .commitError)] })
    else finish s t c p
  else (s, { said := [.commit c.cb t r] })

/-- `do_commit` (src/parsec/broker/impl.cpp:281-307).  The check for an aborted ticket concerns
shards that answer while the request is made. -/
def Ticket.doCommit (tk : Ticket) (t : Tn) (c : Cont) (p : Option Stop) :
    Ticket × List Call × Option Fail :=
  let p := stops tk.shards (· = .committed) p
  ({ tk with shards := mark tk.shards (· = .committed) .committing p },
   (targets tk.shards (· = .committed) p).map fun e => .commit e.1 t c,
   stopError p)

/-- The updates of the keys of one shard (src/parsec/broker/impl.cpp:463-469). -/
def shardUpdates (sh : Sh) (u : List (Key × Value)) : List (Key × Value) :=
  u.filter fun q => (sh.keys.lookup q.1).isSome

/-- `do_prepare` (src/parsec/broker/impl.cpp:445-490). -/
def Ticket.doPrepare (tk : Ticket) (t : Tn) (u : List (Key × Value)) (c : Cont)
    (p : Option Stop) : Ticket × List Call × Option Fail :=
  let p := stops tk.shards (· = .prepared) p
  ({ tk with shards := mark tk.shards (· = .prepared) .preparing p },
   (targets tk.shards (· = .prepared) p).map fun e =>
     .prepare e.1 t (shardUpdates e.2 u) c,
   stopError p)

/-- The checks of `commit` (src/parsec/broker/impl.cpp:387-423). -/
def Ticket.commitError (tk : Ticket) (u : List (Key × Value)) : Option Code :=
  if tk.state = .committed then some .committed
  else if tk.state = .aborted then some .aborted
  else if tk.shards.any fun e => e.2.keys.any fun q => !q.2.locked then
    some .waitingForLocks
  else if u.any fun q =>
      !tk.shards.any fun e => (e.2.keys.lookup q.1).isSome then
    some .commitHazard
  else none

/-- `commit` (src/parsec/broker/impl.cpp:376-443), after the ticket was found. -/
def Ticket.commit (tk : Ticket) (t : Tn) (u : List (Key × Value)) (c : Cont)
    (p : Option Stop) : Ticket × List Call × Option Fail :=
  match tk.commitError u with
  | some e => (tk, [], some (.broker e))
  | none =>
    if tk.state = .prepared then tk.doCommit t c p else tk.doPrepare t u c p

/-- `commit` (src/parsec/broker/impl.cpp:376-443). -/
def commit (s : State) (t : Tn) (u : List (Key × Value)) (c : Cont)
    (p : Option Stop) : State × Out :=
  match s.tickets.lookup t with
  | none => commitDone s c t (some (.broker .unknownTicket)) p
  | some tk =>
    let r := tk.commit t u c p
    let s' := s.set t r.1
    if r.2.2.isSome then
      let d := commitDone s' c t r.2.2 p
      (d.1, { calls := r.2.1 ++ d.2.calls, said := d.2.said })
    else (s', { calls := r.2.1 })

/-- `do_handle_prepare` (src/parsec/broker/impl.cpp:223-279). -/
def Ticket.handlePrepare (tk : Ticket) (c : Cont) (t : Tn) (i : Nat)
    (res : Option ShardError) (p : Option Stop) :
    Ticket × List Call × Option Fail :=
  let l := touch tk.shards i
  if stateOf l i ≠ .preparing then ({ tk with shards := l }, [], none)
  else
    match res with
    | some e =>
      if e.code = .wounded then
        if l.any fun e => e.2.state = .wounded then
          ({ tk with shards := l }, [], none)
        else ({ tk with shards := setState l i .wounded }, [], some (.shard e))
      else ({ tk with shards := l }, [], some (.shard e))
    | none =>
      let l := setState l i .prepared
      if l.all fun e => e.2.state = .prepared then
        Ticket.doCommit { state := .prepared, shards := l } t c p
      else ({ tk with shards := l }, [], none)

/-- `handle_prepare` (src/parsec/broker/impl.cpp:182-221). -/
def handlePrepare (s : State) (c : Cont) (t : Tn) (i : Nat)
    (res : Option ShardError) (p : Option Stop) : State × Out :=
  match s.tickets.lookup t with
  | none => commitDone s c t (some (.broker .unknownTicket)) p
  | some tk =>
    match tk.state with
    | .prepared => commitDone s c t (some (.broker .prepared)) p
    | .committed => commitDone s c t (some (.broker .committed)) p
    | .aborted => commitDone s c t (some (.broker .aborted)) p
    | .begun =>
      let r := tk.handlePrepare c t i res p
      let s' := s.set t r.1
      if r.2.2.isSome then
        let d := commitDone s' c t r.2.2 p
        (d.1, { calls := r.2.1 ++ d.2.calls, said := d.2.said })
      else (s', { calls := r.2.1 })

/-- `handle_commit` (src/parsec/broker/impl.cpp:309-374). -/
def handleCommit (s : State) (c : Cont) (t : Tn) (i : Nat)
    (res : Option ShardError) (p : Option Stop) : State × Out :=
  match s.tickets.lookup t with
  | none => commitDone s c t (some (.broker .unknownTicket)) p
  | some tk =>
    match tk.state with
    | .begun => commitDone s c t (some (.broker .notPrepared)) p
    | .committed => commitDone s c t (some (.broker .committed)) p
    | .aborted => commitDone s c t (some (.broker .aborted)) p
    | .prepared =>
      let l := touch tk.shards i
      if stateOf l i ≠ .committing then
        commitDone (s.set t { tk with shards := l }) c t
          (some (.broker .invalidShardState)) p
      else if res.isSome then
        commitDone s c t (some (.broker .commitError)) p
      else
        let l := setState l i .committed
        if l.all fun e => e.2.state = .committed then
          commitDone (s.set t { state := .committed, shards := l }) c t none p
        else (s.set t { tk with shards := l }, {})

/-! ### Rollback -/

/-- The result of a rollback: the user's callback, or
`handle_recovery_rollback` (src/parsec/broker/impl.cpp:1067-1083). -/
def rollbackDone (s : State) (c : Cont) (t : Tn) (r : Option Fail)
    (p : Option Stop) : State × Out :=
  if c.recovery then
    if r.isSome then (s, { said := [.recover c.cb (some .rollbackError)] })
    else finish s t c p
  else (s, { said := [.rollback c.cb t r] })

/-- The loop of `rollback` (src/parsec/broker/impl.cpp:600-630). -/
def Ticket.rollback (tk : Ticket) (t : Tn) (c : Cont) (p : Option Stop) :
    Ticket × List Call × Option Fail :=
  let p := stops tk.shards (· = .rolledBack) p
  ({ tk with shards := mark tk.shards (· = .rolledBack) .rollingBack p },
   (targets tk.shards (· = .rolledBack) p).map fun e => .rollback e.1 t c,
   stopError p)

/-- `rollback` (src/parsec/broker/impl.cpp:571-650). -/
def rollback (s : State) (t : Tn) (c : Cont) (p : Option Stop) : State × Out :=
  match s.tickets.lookup t with
  | none => rollbackDone s c t (some (.broker .unknownTicket)) p
  | some tk =>
    match tk.state with
    | .prepared => rollbackDone s c t (some (.broker .prepared)) p
    | .committed => rollbackDone s c t (some (.broker .committed)) p
    | .aborted => rollbackDone s c t (some (.broker .aborted)) p
    | .begun =>
      if tk.shards.isEmpty then
        rollbackDone (s.set t { tk with state := .aborted }) c t none p
      else
        let r := tk.rollback t c p
        let s' := s.set t r.1
        if r.2.2.isSome then
          let d := rollbackDone s' c t r.2.2 p
          (d.1, { calls := r.2.1 ++ d.2.calls, said := d.2.said })
        else (s', { calls := r.2.1 })

/-- `handle_rollback` (src/parsec/broker/impl.cpp:652-729). -/
def handleRollback (s : State) (c : Cont) (t : Tn) (i : Nat)
    (res : Option ShardError) (p : Option Stop) : State × Out :=
  match s.tickets.lookup t with
  | none => rollbackDone s c t (some (.broker .unknownTicket)) p
  | some tk =>
    match tk.state with
    | .prepared => rollbackDone s c t (some (.broker .prepared)) p
    | .committed => rollbackDone s c t (some (.broker .committed)) p
    | .aborted => rollbackDone s c t (some (.broker .aborted)) p
    | .begun =>
      let l := touch tk.shards i
      if stateOf l i ≠ .rollingBack then
        rollbackDone (s.set t { tk with shards := l }) c t
          (some (.broker .invalidShardState)) p
      else if res.isSome then
        rollbackDone s c t (some (.broker .rollbackError)) p
      else
        let l := update l i fun _ => { state := .rolledBack, keys := [] }
        if l.all fun e => e.2.state = .rolledBack then
          rollbackDone (s.set t { state := .aborted, shards := l }) c t none p
        else (s.set t { tk with shards := l }, {})

/-! ### Begin and lock -/

/-- `handle_ticket_number` (src/parsec/broker/impl.cpp:39-68); `emplace` keeps an existing
element.  `none`: any of the failures. -/
def handleTicketNumber (s : State) (cb : Nat) : Option (Nat × Nat) → State × Out
  | none => (s, { said := [.begin cb (.error .ticketAssignment)] })
  | some (n, m) =>
    let s := if s.highest < m then { s with highest := m } else s
    let s := match s.tickets.lookup n with
      | some _ => s
      | none => s.set n {}
    (s, { said := [.begin cb (.ok n)] })

/-- `try_lock` (src/parsec/broker/impl.cpp:132-180); `ok` says whether the directory could be
asked. -/
def tryLock (s : State) (cb : Nat) (t : Tn) (ok : Bool) : State × Out :=
  match s.tickets.lookup t with
  | none => (s, { said := [.lock cb t (.error (.broker .unknownTicket))] })
  | some tk =>
    let said : List Said := if ok then [] else
      [.lock cb t (.error (.broker .directoryUnreachable))]
    match tk.state with
    | .prepared => (s, { said := [.lock cb t (.error (.broker .prepared))] })
    | .committed => (s, { said := [.lock cb t (.error (.broker .committed))] })
    | .aborted => (s.set t {}, { said })
    | .begun => (s, { said })

/-- `LockType` as the code compares it (`>=`, src/parsec/broker/impl.cpp:769). -/
def covers : LockType → LockType → Bool
  | .write, _ => true
  | .read, ty => ty = .read

/-- `m_key_states[k]` is set to locking (src/parsec/broker/impl.cpp:774-777).  A value from
before is kept. -/
def locking (ks : List (Key × KeySt)) (k : Key) (ty : LockType) :
    List (Key × KeySt) :=
  match ks.lookup k with
  | none => ks ++ [(k, ⟨false, ty, none⟩)]
  | some _ => ks.map fun q =>
      if q.1 = k then (k, { q.2 with locked := false, type := ty }) else q

/-- The shard already gave a sufficient lock (src/parsec/broker/impl.cpp:766-772). -/
def cached (sh : Sh) (k : Key) (ty : LockType) : Option Value :=
  match sh.keys.lookup k with
  | none => none
  | some q => if q.locked && covers q.type ty then some (q.value.getD []) else none

/-- `handle_find_key` (src/parsec/broker/impl.cpp:731-802); `ok` says whether the request to the
shard could be sent.  The directory returns indexes of shards only
(src/parsec/directory/impl.cpp:17), which the code asserts. -/
def handleFindKey (s : State) (cb : Nat) (t : Tn) (k : Key) (ty : LockType)
    (res : Option Nat) (ok : Bool) : State × Out :=
  match s.tickets.lookup t with
  | none => (s, { said := [.lock cb t (.error (.broker .unknownTicket))] })
  | some tk =>
    match tk.state with
    | .prepared => (s, { said := [.lock cb t (.error (.broker .prepared))] })
    | .committed => (s, { said := [.lock cb t (.error (.broker .committed))] })
    | .aborted => (s, { said := [.lock cb t (.error (.broker .aborted))] })
    | .begun =>
      match res with
      | none =>
        (s, { said := [.lock cb t (.error (.broker .directoryUnreachable))] })
      | some i =>
        let l := touch tk.shards i
        let sh := (l.lookup i).getD {}
        match cached sh k ty with
        | some v =>
          (s.set t { tk with shards := l }, { said := [.lock cb t (.ok v)] })
        | none =>
          let l' := update l i fun sh =>
            { sh with keys := locking sh.keys k ty }
          let s' := s.set t { tk with shards := l' }
          if ok then
            (s', { calls := [.tryLock i t k ty sh.keys.isEmpty cb] })
          else
            (s', { said :=
              [.lock cb t (.error (.broker .shardUnreachable))] })

/-- `handle_lock` (src/parsec/broker/impl.cpp:74-130). -/
def handleLock (s : State) (cb : Nat) (t : Tn) (k : Key) (i : Nat) :
    Answer → State × Out
  | .error e => (s, { said := [.lock cb t (.error (.shard e))] })
  | .value v =>
    match s.tickets.lookup t with
    | none => (s, { said := [.lock cb t (.error (.broker .unknownTicket))] })
    | some tk =>
      let l := touch tk.shards i
      let sh := (l.lookup i).getD {}
      let bad : State × Out := (s.set t { tk with shards := l },
        { said := [.lock cb t (.error (.broker .invalidShardState))] })
      match sh.keys.lookup k with
      | none => bad
      | some q =>
        if q.locked then bad
        else
          let l' := update l i fun sh => { sh with keys := sh.keys.map fun q =>
            if q.1 = k then (k, { q.2 with locked := true, value := some v })
            else q }
          (s.set t { tk with shards := l' }, { said := [.lock cb t (.ok v)] })

/-! ### Recovery -/

/-- `recover` (src/parsec/broker/impl.cpp:882-905) if no request fails to be sent; the result is
what it returns. -/
def recover (s : State) (cb : Nat) : State × Out × Bool :=
  if s.tickets.isEmpty then
    (s, { calls := (List.range s.shards).map fun i => .getTickets i cb }, true)
  else (s, {}, false)

/-- The state of a shard as it is recorded (src/parsec/broker/impl.cpp:928-949). -/
def reported : Parsec.TState → SState
  | .begun => .begun
  | .committed => .committed
  | .prepared => .prepared
  | .wounded => .wounded

/-- One report of a shard (src/parsec/broker/impl.cpp:924-949). -/
def addReport (i : Nat) (s : State) (r : Tn × Parsec.TState) : State :=
  let tk := (s.tickets.lookup r.1).getD {}
  s.set r.1 { tk with shards := setState (touch tk.shards i) i (reported r.2) }

/-- All reports (src/parsec/broker/impl.cpp:922-951). -/
def addReports (s : State) (rs : List (Nat × List (Tn × Parsec.TState))) :
    State :=
  rs.foldl (fun s r => r.2.foldl (addReport r.1) s) s

/-- The number of shards that committed (src/parsec/broker/impl.cpp:976-991). -/
def Ticket.committedCount (tk : Ticket) : Nat :=
  (tk.shards.filter fun e => e.2.state = .committed).length

/-- The states recovery expects; otherwise the process exits
(src/parsec/broker/impl.cpp:986-989). -/
def recoverable : SState → Bool
  | .begun => true
  | .prepared => true
  | .wounded => true
  | .committed => true
  | _ => false

/-- What recovery does with one ticket (src/parsec/broker/impl.cpp:976-1027): new ticket,
requests, and the call of the user's callback if a request failed. -/
def Ticket.recover (tk : Ticket) (t : Tn) (cb : Nat) (p : Option Stop) :
    Ticket × Out :=
  let c : Cont := ⟨cb, true⟩
  let err (r : Option Fail) (e : Code) : List Said :=
    if r.isSome then [.recover cb (some e)] else []
  if tk.committedCount = tk.shards.length then
    let r := Ticket.finish { tk with state := .committed } t c p
    (r.1, { calls := r.2.1, said := err r.2.2 .finishError })
  else if 0 < tk.committedCount then
    let r := Ticket.commit { tk with state := .prepared } t [] c p
    (r.1, { calls := r.2.1, said := err r.2.2 .commitError })
  else
    let r := Ticket.rollback { tk with state := .begun } t c p
    (r.1, { calls := r.2.1, said := err r.2.2 .rollbackError })

/-- `do_recovery` (src/parsec/broker/impl.cpp:973-1030), ticket by ticket: no callback removes a
ticket from the map.  `p` says for every ticket where its loop stops. -/
def doRecovery (s : State) (cb : Nat) (p : Tn → Option Stop) :
    State × Out :=
  let r := s.tickets.map fun e => (e.1, e.2.recover e.1 cb (p e.1))
  ({ s with tickets := r.map fun e => (e.1, e.2.1) },
   { calls := r.flatMap fun e => e.2.2.calls
     said := r.flatMap fun e => e.2.2.said })

/-- `handle_get_tickets` (src/parsec/broker/impl.cpp:907-971).  `none` as answer: the shard's
error.  `none` as result: the process exits (the requests it made for other
tickets before that are left out). -/
def handleGetTickets (s : State) (cb : Nat) (i : Nat)
    (res : Option (List (Tn × Parsec.TState))) (p : Tn → Option Stop) :
    Option (State × Out) :=
  match res with
  | none => some (s, { said := [.recover cb (some .getTicketsError)] })
  | some ts =>
    let rs := if (s.recovery.lookup i).isSome then s.recovery
      else s.recovery ++ [(i, ts)]
    if rs.length ≠ s.shards then some ({ s with recovery := rs }, {})
    else
      let s' := addReports { s with recovery := rs } rs
      if s'.tickets.isEmpty then some (s', { said := [.recover cb none] })
      else if s'.tickets.all fun e => e.2.shards.all fun q =>
          recoverable q.2.state then
        some (doRecovery { s' with recovery := [] } cb p)
      else none

/-! ### Events -/

/-- Calls by the user and answers. -/
inductive Event
  | ticketNumber (cb : Nat) (r : Option (Nat × Nat))
  | tryLock (cb : Nat) (t : Tn) (ok : Bool)
  | foundKey (cb : Nat) (t : Tn) (k : Key) (ty : LockType) (r : Option Nat)
      (ok : Bool)
  | locked (cb : Nat) (t : Tn) (k : Key) (i : Nat) (r : Answer)
  | commit (cb : Nat) (t : Tn) (u : List (Key × Value)) (p : Option Stop)
  | prepared (c : Cont) (t : Tn) (i : Nat) (r : Option ShardError)
      (p : Option Stop)
  | committed (c : Cont) (t : Tn) (i : Nat) (r : Option ShardError)
      (p : Option Stop)
  | rollback (cb : Nat) (t : Tn) (p : Option Stop)
  | rolledBack (c : Cont) (t : Tn) (i : Nat) (r : Option ShardError)
      (p : Option Stop)
  | finish (cb : Nat) (t : Tn) (p : Option Stop)
  | finished (c : Cont) (t : Tn) (i : Nat) (r : Option ShardError)
  | recover (cb : Nat)
  | gotTickets (cb : Nat) (i : Nat) (r : Option (List (Tn × Parsec.TState)))
      (p : Tn → Option Stop)

/-- One event; `none`: the process exits. -/
def step (s : State) : Event → Option (State × Out)
  | .ticketNumber cb r => some (handleTicketNumber s cb r)
  | .tryLock cb t ok => some (tryLock s cb t ok)
  | .foundKey cb t k ty r ok => some (handleFindKey s cb t k ty r ok)
  | .locked cb t k i r => some (handleLock s cb t k i r)
  | .commit cb t u p => some (commit s t u ⟨cb, false⟩ p)
  | .prepared c t i r p => some (handlePrepare s c t i r p)
  | .committed c t i r p => some (handleCommit s c t i r p)
  | .rollback cb t p => some (rollback s t ⟨cb, false⟩ p)
  | .rolledBack c t i r p => some (handleRollback s c t i r p)
  | .finish cb t p => some (finish s t ⟨cb, false⟩ p)
  | .finished c t i r => some (handleFinish s c t i r)
  | .recover cb => some ((recover s cb).1, (recover s cb).2.1)
  | .gotTickets cb i r p => handleGetTickets s cb i r p

end Verif.Parsec.Broker
