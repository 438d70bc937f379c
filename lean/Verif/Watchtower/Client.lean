/-!
# The clients of the watchtower (C112)

Model of `src/uhs/atomizer/watchtower/client.cpp`, with the part of the watchtower that answers
(`src/uhs/atomizer/watchtower/controller.cpp:141-163`).  What a status request asks and what is
answered are left open (`Q` and `A`); the answer may depend on the moment at which the watchtower
handles the request.  The network brings requests and answers whole, in order and at most once
(C90), but may lose them.
-/
namespace Verif.Watchtower.Client

/-- What is asked, src/uhs/atomizer/watchtower/watchtower.hpp:66-93. -/
inductive Req (Q : Type) where
  | height
  | status (q : Q)
  deriving DecidableEq

/-- What is answered, src/uhs/atomizer/watchtower/watchtower.hpp:96-125. -/
inductive Resp (A : Type) where
  | height (n : Nat)
  | status (a : A)
  deriving DecidableEq

/-- The watchtower: the height it knows at a moment, and what it says about transactions. -/
structure Tower (Q A : Type) where
  height : Nat → Nat
  status : Nat → Q → A

variable {Q A : Type}

/-- `external_server_handler`, src/uhs/atomizer/watchtower/controller.cpp:141-163. -/
def Tower.answer (w : Tower Q A) (now : Nat) : Req Q → Resp A
  | .height => .height (w.height now)
  | .status q => .status (w.status now q)

/-! ### The blocking client -/

/-- A call of `request_best_block_height` or `request_status_update` that has not returned. -/
structure Call (Q : Type) where
  thread : Nat
  req : Req Q
  /-- when it was made -/
  since : Nat

/-- How a call ends. -/
inductive Outcome (A : Type) where
  | got (r : Resp A)
  /-- `std::bad_variant_access` -/
  | throws
  deriving DecidableEq

/-- A call that has ended: what it was, when it ended and how. -/
structure Ended (Q A : Type) where
  call : Call Q
  at_ : Nat
  out : Outcome A

/-- `blocking_client`, src/uhs/atomizer/watchtower/client.hpp:53-57, and the network between it and
the watchtower. -/
structure State (Q A : Type) where
  /-- `init` returned true: there is a connection, and a thread that handles answers -/
  connected : Bool
  /-- calls that have not returned -/
  calls : List (Call Q)
  /-- requests that have not been handled -/
  wire : List (Req Q)
  /-- answers that have not arrived -/
  back : List (Resp A)
  /-- `m_res_q` -/
  queue : List (Resp A)
  /-- calls that have ended, the latest first -/
  ended : List (Ended Q A)
  /-- the time -/
  now : Nat
  /-- the client was destroyed -/
  gone : Bool
  /-- the process was ended by `std::terminate` -/
  dead : Bool

/-- A client after `init`, src/uhs/atomizer/watchtower/client.cpp:22-42, which returns true if the
connection was made (src/util/network/connection_manager.cpp:128-136).  `atomizer_client` goes on
if it was not (src/uhs/client/atomizer_client.cpp:32-34). -/
def start (Q A : Type) (connected : Bool) : State Q A :=
  ⟨connected, [], [], [], [], [], 0, false, false⟩

/-- What may happen next. -/
inductive Event (Q : Type) where
  /-- a thread makes a request -/
  | call (t : Nat) (r : Req Q)
  /-- the watchtower answers the next request -/
  | serve
  /-- the next answer arrives -/
  | deliver
  /-- a thread takes an answer -/
  | take (t : Nat)
  /-- the connection is lost, with everything that is on its way; it is made again later -/
  | lose
  /-- time goes by -/
  | tick
  /-- the client is destroyed -/
  | destroy

/-- Lines 50-55 and 65-70: `std::get` throws if the answer is of the other kind. -/
def accept (r : Req Q) (a : Resp A) : Outcome A :=
  match r, a with
  | .height, .height n => .got (.height n)
  | .status _, .status x => .got (.status x)
  | _, _ => .throws

/-- One step of src/uhs/atomizer/watchtower/client.cpp:17-71.  Requests go to nobody if there is no
connection.  The destructor joins the thread that handles answers, which throws, and thereby ends
the process, if there is none (line 19).  (Calls during the destruction, which are undefined, are
not modelled.) -/
def step (w : Tower Q A) (s : State Q A) (e : Event Q) : Option (State Q A) :=
  if s.gone || s.dead then none
  else
    match e with
    | .call t r =>
      if s.calls.any (·.thread == t) then none
      else some { s with
        calls := s.calls ++ [⟨t, r, s.now⟩]
        wire := if s.connected then s.wire ++ [r] else s.wire }
    | .serve =>
      match s.wire with
      | [] => none
      | r :: rest => some { s with wire := rest, back := s.back ++ [w.answer s.now r] }
    | .deliver =>
      match s.back with
      | [] => none
      | a :: rest => some { s with back := rest, queue := s.queue ++ [a] }
    | .take t =>
      match s.calls.find? (·.thread == t), s.queue with
      | some c, a :: rest =>
        some { s with
          calls := s.calls.filter (·.thread != t)
          queue := rest
          ended := ⟨c, s.now, accept c.req a⟩ :: s.ended }
      | _, _ => none
    | .lose => some { s with wire := [], back := [] }
    | .tick => some { s with now := s.now + 1 }
    | .destroy =>
      if s.calls.isEmpty then
        if s.connected then some { s with gone := true } else some { s with dead := true }
      else none

/-- Several steps. -/
def run (w : Tower Q A) (s : State Q A) : List (Event Q) → Option (State Q A)
  | [] => some s
  | e :: es => (step w s e).bind (run w · es)

/-! ### The asynchronous client -/

/-- Where the thread of the handlers is, src/uhs/atomizer/watchtower/client.cpp:105-126. -/
inductive Place (A : Type) where
  /-- line 106: looks at `m_handler_running` -/
  | checking
  /-- line 108: in `m_res_q.pop` -/
  | popping
  /-- lines 112-124: has an answer in its hands -/
  | handling (r : Resp A)
  /-- the thread has ended -/
  | ended
  deriving DecidableEq

/-- How far the destructor is, src/uhs/atomizer/watchtower/client.cpp:75-83. -/
inductive Phase where
  | alive
  /-- line 76 is done -/
  | flagged
  /-- line 77 is done: no answer arrives any more -/
  | closed
  /-- lines 79-82 are done -/
  | gone
  deriving DecidableEq

/-- `async_client`, src/uhs/atomizer/watchtower/client.hpp:103-111. -/
structure AState (A : Type) where
  /-- `m_handler_running` -/
  running : Bool
  place : Place A
  /-- `m_res_q` -/
  queue : List (Resp A)
  phase : Phase
  /-- answers that arrived, in order -/
  arrived : List (Resp A)
  /-- answers the handlers were called with, in order -/
  told : List (Resp A)

/-- After `init`, src/uhs/atomizer/watchtower/client.cpp:85-128, which also has the handlers set. -/
def AState.start (A : Type) : AState A := ⟨true, .checking, [], .alive, [], []⟩

/-- What may happen next. -/
inductive AEvent (A : Type) where
  /-- an answer arrives, lines 89-96 -/
  | arrive (r : Resp A)
  /-- the thread of the handlers does what it does next -/
  | loop
  /-- the destructor does what it does next -/
  | destroy

/-- One step of src/uhs/atomizer/watchtower/client.cpp:75-128.  The queue is not cleared by the
destructor before the thread is joined, so `pop` waits for an answer.  (That the flag is read and
written without synchronisation, which is undefined, is left out; so are handlers that are not
set, which end the process.) -/
def astep (s : AState A) : AEvent A → Option (AState A)
  | .arrive r =>
    if s.phase = .alive ∨ s.phase = .flagged then
      some { s with queue := s.queue ++ [r], arrived := s.arrived ++ [r] }
    else none
  | .loop =>
    match s.place with
    | .checking => some { s with place := if s.running then .popping else .ended }
    | .popping =>
      match s.queue with
      | r :: rest => some { s with place := .handling r, queue := rest }
      | [] => none
    | .handling r => some { s with place := .checking, told := s.told ++ [r] }
    | .ended => none
  | .destroy =>
    match s.phase with
    | .alive => some { s with running := false, phase := .flagged }
    | .flagged => some { s with phase := .closed }
    | .closed =>
      match s.place with
      | .ended => some { s with phase := .gone }
      | _ => none
    | .gone => none

/-- Several steps. -/
def arun (s : AState A) : List (AEvent A) → Option (AState A)
  | [] => some s
  | e :: es => (astep s e).bind (arun · es)

end Verif.Watchtower.Client
