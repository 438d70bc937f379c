import Verif.Parsec.Agent

/-!
# The agents of an agent server (C124)

Model of `src/parsec/agent/server_interface.cpp`, of the request handler of
`src/parsec/agent/runners/lua/server.cpp` and of `exec_tx` of
`src/parsec/agent/runners/evm/http_server.cpp`: which agents are kept, run again and destroyed, and what
clients are told.  The agents are those of `Agent.lean`.
-/
namespace Verif.Parsec.Serving

open Agent

/-- The two servers. -/
inductive Flavor where
  /-- src/parsec/agent/runners/lua/server.cpp -/
  | lua
  /-- src/parsec/agent/runners/evm/http_server.cpp -/
  | evm
  deriving DecidableEq

/-- Why the process ended. -/
inductive Cause where
  /-- The agent to run again is not there, src/parsec/agent/server_interface.cpp:31. -/
  | missing
  /-- An assertion or a fatal error of an agent. -/
  | agent
  /-- The destructor of an agent, src/parsec/agent/impl.cpp:657-665. -/
  | destructor
  deriving DecidableEq

/-- `server_interface`, src/parsec/agent/server_interface.hpp:55-63. -/
structure Server where
  /-- `m_next_id` -/
  next : Nat := 0
  /-- `m_agents`: the numbers of the agents that are kept -/
  kept : List Nat := []
  /-- the agents, and what happened to each -/
  ag : Nat → Agent := fun _ => {}
  tr : Nat → Trace := fun _ => []
  /-- `m_retry_queue` -/
  retry : List Nat := []
  /-- the agent which `m_retry_thread` is about to run -/
  retrying : Option Nat := none
  /-- `m_cleanup_queue` -/
  cleanup : List Nat := []
  /-- what clients were told, newest first -/
  told : List (Nat × Result) := []
  ended : Option Cause := none

/-- Is the agent destroyed after this result, which is not `retry`?
src/parsec/agent/runners/lua/server.cpp:65-66; src/parsec/agent/runners/evm/http_server.cpp:1404-1420. -/
def disposes : Flavor → Result → Bool
  | .lua, _ => true
  | .evm, .ok _ => true
  | .evm, .error _ => false

/-- The result callback, src/parsec/agent/runners/lua/server.cpp:56-67;
`res_cb_for_agent`, src/parsec/agent/runners/evm/http_server.cpp:1399-1422.  What the client is told is the result, which the EVM
server has still to put into JSON (C96-C99). -/
def heard (fl : Flavor) (id : Nat) (s : Server) (r : Result) : Server :=
  if r = .error .retry then { s with retry := s.retry ++ [id] }
  else { s with
    told := (id, r) :: s.told
    cleanup := if disposes fl r then s.cleanup ++ [id] else s.cleanup }

/-- The results among what an event causes. -/
def resultsOf (o : List Out) : List Result :=
  o.filterMap fun x => match x with
    | .result r => some r
    | _ => none

/-- Something happens to an agent, which holds its mutex until it is done; the destructor waits for that,
src/parsec/agent/impl.cpp:658. -/
def react (fl : Flavor) (cfg : Nat → Config) (id : Nat) (p : Can) (e : Agent.Event) (s : Server) : Server :=
  let m := Agent.step (cfg id) p (s.ag id) e
  (resultsOf m.2).foldl (heard fl id) { s with
    ag := fun j => if j = id then m.1 else s.ag j
    tr := fun j => if j = id then (e, m.2) :: s.tr id else s.tr j
    ended := if Out.crash ∈ m.2 then some .agent else s.ended }

/-- The smallest number: the top of `blocking_priority_queue<size_t, std::greater<>>`,
src/util/common/blocking_queue.hpp:106-111, 122-125. -/
def smallest : List Nat → Option Nat
  | [] => none
  | x :: l => match smallest l with
    | none => some x
    | some y => some (min x y)

/-- What may happen. -/
inductive Event where
  /-- a request comes: src/parsec/agent/runners/lua/server.cpp:40-79; src/parsec/agent/runners/evm/http_server.cpp:1388-1442 -/
  | request (p : Can)
  /-- a callback of an agent is called -/
  | agent (id : Nat) (p : Can) (e : Agent.Event)
  /-- `m_retry_thread` takes an agent from the queue -/
  | pop
  /-- and runs it -/
  | rerun (p : Can)
  /-- `m_cleanup_thread` destroys an agent -/
  | clean

/-- The threads of `server_interface`, src/parsec/agent/server_interface.cpp:18-38, and the handlers.  `exec` never returns false,
src/parsec/agent/impl.cpp:38-109. -/
def step (fl : Flavor) (cfg : Nat → Config) (s : Server) : Event → Server
  | .request p => react fl cfg s.next p .exec { s with next := s.next + 1, kept := s.kept ++ [s.next] }
  | .agent id p e => react fl cfg id p e s
  | .pop => match s.retrying, smallest s.retry with
    | none, some id =>
      if id ∈ s.kept then { s with retry := s.retry.erase id, retrying := some id }
      else { s with ended := some .missing }
    | _, _ => s
  | .rerun p => match s.retrying with
    | some id => react fl cfg id p .exec { s with retrying := none }
    | none => s
  | .clean => match s.cleanup with
    | id :: rest => { s with
        cleanup := rest
        kept := s.kept.erase id
        ended := if destroyFatal (s.ag id) then some .destructor else s.ended }
    | [] => s

end Verif.Parsec.Serving
