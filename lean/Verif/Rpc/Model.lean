/-!
# The RPC client (C35)

Model of `src/util/rpc/client.hpp` and `src/util/rpc/tcp_client.hpp`.  The calling
threads, the response handler thread and the timeouts are interleaved freely; the
unit of interleaving is a critical section or an operation on a promise.

Simplified: messages that cannot be deserialized are left out, the handler drops
them (src/util/rpc/tcp_client.hpp:156).  What a server sends is unrestricted: any reply can
arrive at any moment.
-/
namespace Verif.Rpc

/-- The two forms of `call`, src/util/rpc/client.hpp:53-65 and 74-88. -/
inductive Kind where
  /-- waits for the answer; the flag says whether a timeout was given -/
  | sync (timed : Bool)
  /-- registers a callback -/
  | async
  deriving DecidableEq, Repr

/-- What `call` returns, src/util/rpc/client.hpp:52-66, 75-88. -/
inductive Ret (P : Type) where
  | value (p : Option P)
  | sent (ok : Bool)
  deriving DecidableEq, Repr

/-- Where the thread that made a call is. -/
inductive Phase (P : Type) where
  /-- `make_request` has given the id, src/util/rpc/client.hpp:57-58, 76-77 -/
  | made
  /-- the action is in `m_responses`, src/util/rpc/tcp_client.hpp:107-111 -/
  | registered
  /-- `send_to_one` returned false, src/util/rpc/tcp_client.hpp:113 -/
  | sendFailed
  /-- waits for the future, src/util/rpc/tcp_client.hpp:141-149 -/
  | waiting
  /-- `wait_for` returned `timeout`, src/util/rpc/tcp_client.hpp:143 -/
  | timedOut
  | returned (r : Ret P)
  deriving DecidableEq, Repr

/-- A call.  `promise` is the state of its promise: not set, set to `nullopt`, or
set to a response, whose payload may itself be absent. -/
structure Call (Q P : Type) where
  kind : Kind
  req : Q
  id : Nat
  phase : Phase P
  promise : Option (Option (Option P))
  deriving DecidableEq, Repr

/-- A client, src/util/rpc/client.hpp:104 and src/util/rpc/tcp_client.hpp:90-102.  The actions in `pending` and `held` are named by the call that they
belong to. -/
structure Client (Q P : Type) where
  /-- `m_current_request_id` -/
  cur : Nat
  /-- all calls made so far, in the order of `make_request` -/
  calls : List (Call Q P)
  /-- `m_responses` -/
  pending : List (Nat × Nat)
  /-- actions taken out of the map by `set_response`, with the value that they are
  about to be given -/
  held : List (Nat × Option (Option P))
  /-- user callbacks run so far, with their argument -/
  runs : List (Nat × Option P)
  deriving DecidableEq, Repr

/-- A new client, src/util/rpc/client.hpp:104. -/
def Client.init {Q P : Type} : Client Q P := ⟨0, [], [], [], []⟩

/-- What can happen. -/
inductive Event (Q P : Type) where
  /-- a thread enters `call` and takes an id -/
  | start (kind : Kind) (req : Q)
  | register (n : Nat)
  /-- `send_to_one` returns -/
  | send (n : Nat) (ok : Bool)
  /-- cleaning up after a send that failed -/
  | failed (n : Nat)
  /-- the handler thread receives a response -/
  | reply (id : Nat) (payload : Option P)
  /-- an action taken out of the map is carried out -/
  | run (k : Nat)
  | timeout (n : Nat)
  | expire (n : Nat)
  /-- the future is ready and its value returned -/
  | get (n : Nat)
  deriving DecidableEq, Repr

variable {Q P : Type}

/-- The thread of call `n` gets on; bookkeeping of the model. -/
def Client.setPhase (s : Client Q P) (n : Nat) (p : Phase P) : Client Q P :=
  { s with calls := s.calls.modify n fun c => { c with phase := p } }

/-- `m_responses[request_id] = ...`, src/util/rpc/tcp_client.hpp:110. -/
def insert (m : List (Nat × Nat)) (id n : Nat) : List (Nat × Nat) :=
  (id, n) :: m.filter fun p => p.1 != id

/-- `set_response`, src/util/rpc/tcp_client.hpp:163-173, up to carrying out the action. -/
def Client.extract (s : Client Q P) (id : Nat) (v : Option (Option P)) : Client Q P :=
  match s.pending.find? fun p => p.1 == id with
  | none => s
  | some (_, n) =>
    { s with
      pending := s.pending.filter fun p => p.1 != id
      held := s.held ++ [(n, v)] }

/-- `set_response_value`, src/util/rpc/tcp_client.hpp:116-125, and the callback made in
src/util/rpc/client.hpp:80-86.  `none`: a promise set twice throws. -/
def Client.perform (s : Client Q P) (n : Nat) (v : Option (Option P)) :
    Option (Client Q P) :=
  match s.calls[n]? with
  | none => none
  | some c =>
    match c.kind with
    | .async =>
      match v with
      | none => some s
      | some p => some { s with runs := s.runs ++ [(n, p)] }
    | .sync _ =>
      match c.promise with
      | some _ => none
      | none =>
        some { s with calls := s.calls.modify n fun c => { c with promise := some v } }

/-- One event; `none` if it cannot happen now, or ends the process. -/
def step (s : Client Q P) : Event Q P → Option (Client Q P)
  -- `make_request`, src/util/rpc/client.hpp:125-130
  | .start kind req =>
    some { s with
      cur := (s.cur + 1) % 2 ^ 64
      calls := s.calls ++ [⟨kind, req, s.cur, .made, none⟩] }
  -- src/util/rpc/tcp_client.hpp:107-111
  | .register n =>
    match s.calls[n]? with
    | some c =>
      match c.phase with
      | .made =>
        some { s.setPhase n .registered with pending := insert s.pending c.id n }
      | _ => none
    | none => none
  -- src/util/rpc/tcp_client.hpp:112-113
  | .send n ok =>
    match s.calls[n]? with
    | some c =>
      match c.phase with
      | .registered =>
        if ok then
          match c.kind with
          | .sync _ => some (s.setPhase n .waiting)
          | .async => some (s.setPhase n (.returned (.sent true)))
        else some (s.setPhase n .sendFailed)
      | _ => none
    | none => none
  -- src/util/rpc/tcp_client.hpp:137-138 and 181-185
  | .failed n =>
    match s.calls[n]? with
    | some c =>
      match c.phase with
      | .sendFailed =>
        match c.kind with
        | .sync _ => some ((s.extract c.id none).setPhase n (.returned (.value none)))
        | .async =>
          some { s.setPhase n (.returned (.sent false)) with
            pending := s.pending.filter fun p => p.1 != c.id }
      | _ => none
    | none => none
  -- src/util/rpc/tcp_client.hpp:152-161
  | .reply id p => some (s.extract id (some p))
  | .run k =>
    match s.held[k]? with
    | some (n, v) => { s with held := s.held.eraseIdx k }.perform n v
    | none => none
  -- src/util/rpc/tcp_client.hpp:141-143
  | .timeout n =>
    match s.calls[n]? with
    | some c =>
      match c.phase, c.kind, c.promise with
      | .waiting, .sync true, none => some (s.setPhase n .timedOut)
      | _, _, _ => none
    | none => none
  -- src/util/rpc/tcp_client.hpp:144-145
  | .expire n =>
    match s.calls[n]? with
    | some c =>
      match c.phase with
      | .timedOut => some ((s.extract c.id none).setPhase n (.returned (.value none)))
      | _ => none
    | none => none
  -- src/util/rpc/tcp_client.hpp:149, src/util/rpc/client.hpp:60-64
  | .get n =>
    match s.calls[n]? with
    | some c =>
      match c.phase, c.promise with
      | .waiting, some v => some (s.setPhase n (.returned (.value v.join)))
      | _, _ => none
    | none => none

/-- Executions, with the events so far, the latest last. -/
inductive Reach : List (Event Q P) → Client Q P → Prop where
  | init : Reach [] Client.init
  | step {tr : List (Event Q P)} {s s' : Client Q P} (e : Event Q P)
      (h : Reach tr s) (hs : step s e = some s') : Reach (tr ++ [e]) s'

/-- The destructor, src/util/rpc/tcp_client.hpp:40-52, once the handler thread has ended and
every action taken out of the map has been carried out. -/
def Client.destroy (s : Client Q P) : Option (Client Q P) :=
  if s.held = [] then
    s.pending.foldlM (fun s p => s.perform p.2 none) { s with pending := [] }
  else none

end Verif.Rpc
