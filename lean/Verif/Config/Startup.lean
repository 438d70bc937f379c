import Verif.Config.Daemons
/-!
# How a system comes up

The programs of `Daemons.lean` side by side: each does one action of its plan after the other,
while others start, end, become leader or stop being leader.

Simplifications: only the programs of the system listen at its endpoints; whether a data base opens, a
port can be used, a cluster gets together and a connection gets through is up to the
environment; connections that break later are not modelled.
-/
namespace Verif.Config.Daemon

open Verif.Evm (Outcome)
open Verif.Hex (Text)

/-- A program that has been started: what it still has to do, where it listens, and the
endpoints to which it has a socket that is connected or will be connected again
(`m_peers`, src/util/network/connection_manager.cpp:80-111). -/
structure Proc where
  role : Role
  todo : List Act
  serving : List Endpoint := []
  links : List Endpoint := []
  leading : Bool := false
  alive : Bool := true
  deriving DecidableEq

/-- The program has ended: its sockets are closed. -/
def Proc.ended (q : Proc) : Proc := { q with
  todo := []
  serving := []
  links := []
  leading := false
  alive := false }

/-- Whether a connection can be made: somebody listens, and the network lets it through. -/
def reach (served : List Endpoint) (up : Endpoint → Bool) (e : Endpoint) : Bool :=
  decide (e ∈ served) && up e

/-- One action.  `served` are the endpoints where somebody listens, `fine` says whether the
data base opens, the port can be used, or the cluster gets together in time.
(`connection_manager::cluster_connect`, src/util/network/connection_manager.cpp:113-126: a socket
is kept after a failure unless failures are fatal; src/uhs/atomizer/sentinel/controller.cpp:59-62;
src/uhs/atomizer/watchtower/controller.cpp:69-84; src/util/raft/node.cpp:47-73;
src/uhs/atomizer/archiver/controller.cpp:126-142.) -/
def Proc.act (served : List Endpoint) (fine : Bool) (up : Endpoint → Bool) (q : Proc) : Proc :=
  match q.todo with
  | [] => q
  | .store _ :: l => if fine then { q with todo := l } else q.ended
  | .contact es :: l => { q with
      todo := l
      links := q.links ++ es }
  | .row es :: l => { q with
      todo := l
      links := q.links ++ es.takeWhile (reach served up) }
  | .demand e :: l =>
    if reach served up e then { q with
      todo := l
      links := q.links ++ [e] }
    else q.ended
  | .await es :: l =>
    if es.any (reach served up) then { q with
      todo := l
      links := q.links ++ es }
    else q
  | .join _ _ :: l => if fine then { q with todo := l } else q.ended
  | .serve e :: l =>
    if fine then { q with
      todo := l
      serving := q.serving ++ [e] }
    else q.ended

/-- What can happen. -/
inductive Event
  /-- Somebody starts a program. -/
  | launch (r : Role)
  /-- A program does its next action. -/
  | act (k : Nat) (fine : Bool) (up : Endpoint → Bool)
  /-- A program that has done its plan becomes the leader of its cluster
  (src/uhs/twophase/coordinator/controller.cpp:112-144, 585-652,
  src/uhs/atomizer/atomizer/controller.cpp:248-283,
  src/uhs/twophase/locking_shard/controller.cpp:115-134). -/
  | lead (k : Nat)
  /-- It stops being the leader. -/
  | follow (k : Nat)
  /-- A program ends. -/
  | stop (k : Nat)

/-- The endpoints where somebody listens. -/
def served (s : List Proc) : List Endpoint := s.flatMap (·.serving)

/-- The start of what a leader does. -/
def Proc.lead (q : Proc) : Proc :=
  if q.alive && q.todo.isEmpty && !q.leading then { q with
    todo := q.role.leads
    leading := true }
  else q

/-- A follower closes the endpoint of the leader. -/
def Proc.follow (q : Proc) : Proc :=
  if q.leading then { q with
    todo := []
    leading := false
    serving := q.serving.filter fun e => decide (Act.serve e ∈ q.role.plan) }
  else q

/-- What happens. -/
def step (s : List Proc) : Event → List Proc
  | .launch r => s ++ [{
      role := r
      todo := r.plan }]
  | .act k fine up => s.modify k (Proc.act (served s) fine up)
  | .lead k => s.modify k Proc.lead
  | .follow k => s.modify k Proc.follow
  | .stop k => s.modify k Proc.ended

/-- What happens from a state on. -/
def run (s : List Proc) (l : List Event) : List Proc := l.foldl step s

/-- The role of a program that is given this configuration file. -/
def RoleOf (p : Platform) (file : Text) (r : Role) : Prop :=
  ∃ args, start p (fun _ => file) r.program args = .reads (.ok r)

/-- Only programs that are given this configuration file are started. -/
def From (p : Platform) (file : Text) (l : List Event) : Prop :=
  ∀ r, Event.launch r ∈ l → RoleOf p file r

end Verif.Config.Daemon
