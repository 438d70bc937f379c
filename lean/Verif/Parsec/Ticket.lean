/-!
# The PArSEC ticket machine and its clients

Model of `src/parsec/ticket_machine/impl.cpp`, `src/parsec/ticket_machine/state_machine.cpp` and
`src/parsec/ticket_machine/client.cpp`.  The machine is a replicated counter; raft is trusted to execute
every command once and in the same order everywhere (snapshots are switched off,
src/parsec/ticket_machine/controller.cpp:38, and the state machine refuses them, src/parsec/ticket_machine/state_machine.cpp:36-54).
Every client hands out numbers from a batch and fetches the next batch when few
are left.  Requests and answers may be lost, delayed and reordered.  Callbacks
are numbers.
-/
namespace Verif.Parsec.Tickets

/-- The largest value of `ticket_number_type` plus one. -/
def limit : Nat := 2 ^ 64

/-- `impl` (src/parsec/ticket_machine/impl.hpp:34-35). -/
structure Machine where
  next : Nat := 0
  range : Nat

/-- `get_ticket_number` (src/parsec/ticket_machine/impl.cpp:13-20), with 64-bit arithmetic. -/
def Machine.get (m : Machine) : Machine × (Nat × Nat) :=
  ({ m with next := (m.next + m.range) % limit },
   (m.next, (m.next + m.range) % limit))

/-- The fields of `client` (src/parsec/ticket_machine/client.hpp:45-50). -/
structure Client where
  tickets : List Nat := []
  fetching : Bool := false
  callbacks : List Nat := []

/-- What a call or an answer causes: whether a batch is requested, and the
callbacks called, with a number or an error. -/
structure Out where
  fetch : Bool := false
  calls : List (Nat × Option Nat) := []
  deriving DecidableEq

/-- `fetch_threshold` (src/parsec/ticket_machine/client.cpp:25). -/
def threshold : Nat := 500

/-- `get_ticket_number` (src/parsec/ticket_machine/client.cpp:19-46).  `ok` says whether a request can be
sent (the result of `fetch_tickets`).  The last result is what it returns. -/
def Client.get (c : Client) (cb : Nat) (ok : Bool) : Client × Out × Bool :=
  let fetch := c.tickets.length < threshold && !c.fetching
  if fetch && c.tickets.isEmpty && !ok then (c, {}, false)
  else
    let fetching := if fetch && ok then true else c.fetching
    match c.tickets with
    | [] => ({ c with fetching, callbacks := c.callbacks ++ [cb] },
        { fetch := fetch && ok }, true)
    | n :: l => ({ c with fetching, tickets := l },
        { fetch := fetch && ok, calls := [(cb, some n)] }, true)

/-- The numbers of a batch (src/parsec/ticket_machine/client.cpp:78-80). -/
def batch (r : Nat × Nat) : List Nat := List.range' r.1 (r.2 - r.1)

/-- `handle_ticket_numbers` (src/parsec/ticket_machine/client.cpp:73-103).  `ok` says whether a request
can be sent. -/
def Client.batch (c : Client) (r : Nat × Nat) (ok : Bool) : Client × Out :=
  let l := c.tickets ++ Tickets.batch r
  let k := min l.length c.callbacks.length
  let more := k < c.callbacks.length
  ({ tickets := l.drop k
     fetching := more && ok && c.fetching
     callbacks := c.callbacks.drop k },
   { fetch := more && ok
     calls := (c.callbacks.take k).zip ((l.take k).map some) })

/-- An error is answered (src/parsec/ticket_machine/client.cpp:56-68). -/
def Client.fail (c : Client) : Client × Out :=
  ({ c with fetching := false, callbacks := [] },
   { calls := c.callbacks.map fun cb => (cb, none) })

/-! ### The system -/

/-- A machine, any number of clients, requests and answers on their way, and the
requests accepted and answered so far, oldest first. -/
structure Sys where
  machine : Machine
  clients : Nat → Client := fun _ => {}
  requests : List Nat := []
  answers : List (Nat × (Nat × Nat)) := []
  /-- The client and the callback of every request that was accepted. -/
  asked : List (Nat × Nat) := []
  /-- The client, the callback and the answer of every call of a callback. -/
  said : List (Nat × Nat × Option Nat) := []
  /-- How many batches the machine gave out; only for stating properties. -/
  served : Nat := 0

/-- What can happen to the machine, its clients and the messages between them. -/
inductive Event
  /-- A user of client `c` asks for a number. -/
  | get (c : Nat) (cb : Nat) (ok : Bool)
  /-- The machine executes a request that was sent (src/parsec/ticket_machine/state_machine.cpp:21-34,
  56-65). -/
  | serve (i : Nat)
  /-- An answer arrives. -/
  | deliver (i : Nat) (ok : Bool)
  /-- The request is answered with an error. -/
  | fail (i : Nat)
  | loseRequest (i : Nat)
  | loseAnswer (i : Nat)

/-- Client `c` is replaced, and what it caused is recorded. -/
def Sys.update (s : Sys) (c : Nat) (x : Client) (o : Out) : Sys :=
  { s with
    clients := fun y => if y = c then x else s.clients y
    requests := if o.fetch then s.requests ++ [c] else s.requests
    said := s.said ++ o.calls.map fun q => (c, q.1, q.2) }

/-- One event.  A request is executed at most once, an answer arrives at most
once (the RPC client neither repeats requests nor accepts an answer twice,
src/util/rpc/tcp_client.hpp:152-189). -/
def step (s : Sys) : Event → Sys
  | .get c cb ok =>
    let r := (s.clients c).get cb ok
    let s := if r.2.2 then { s with asked := s.asked ++ [(c, cb)] } else s
    s.update c r.1 r.2.1
  | .serve i =>
    match s.requests[i]? with
    | none => s
    | some c =>
      let r := s.machine.get
      { s with
        machine := r.1
        requests := s.requests.eraseIdx i
        answers := s.answers ++ [(c, r.2)]
        served := s.served + 1 }
  | .deliver i ok =>
    match s.answers[i]? with
    | none => s
    | some a =>
      let r := (s.clients a.1).batch a.2 ok
      { s with answers := s.answers.eraseIdx i }.update a.1 r.1 r.2
  | .fail i =>
    match s.requests[i]? with
    | none => s
    | some c =>
      let r := (s.clients c).fail
      { s with requests := s.requests.eraseIdx i }.update c r.1 r.2
  | .loseRequest i => { s with requests := s.requests.eraseIdx i }
  | .loseAnswer i => { s with answers := s.answers.eraseIdx i }

/-- All runs of a machine with this batch size. -/
inductive Reach (range : Nat) : Sys → Prop
  | start : Reach range { machine := { range } }
  | step {s : Sys} (h : Reach range s) (e : Event) : Reach range (step s e)

end Verif.Parsec.Tickets
