import Verif.Archiver.Props
import Verif.Atomizer.Blocks

/-!
Model of the blocks on their way between the atomizer and an archiver: the leader's controller,
`src/uhs/atomizer/atomizer/controller.cpp:102-156,172-229`, over the state machine of C60, and the archiver of C25.

Simplified: one leader, which stays (a request that reaches no leader is lost, see `C62_never_repeated_violated`), and one
archiver (several are `C62_pruned_violated`). Broadcasts may be lost; requests of the archiver and the answers to them
arrive in any order, unless the archiver restarts.
-/
namespace Verif.Catchup

open Verif.Tx Verif.Serial Verif.Atomizer
open Verif.Archiver (Out)

/-- The atomizer, the archiver, its requests under way and the blocks on their way to it. `made` and `told` are history:
the blocks made so far, and those that reached the archiver since it was started. -/
structure Net where
  sm : SM
  arch : Archiver.State
  flight : List Out
  coming : List Block
  made : List Block
  told : List Block

/-- What happens: notifications are committed; a block is made and its broadcast reaches the archiver or not; a request
of the archiver is served; a block arrives; the archiver restarts. -/
inductive NetEv where
  | notify (aggs : List Agg)
  | make (reaches : Bool)
  | serve (i : Nat)
  | deliver (i : Nat)
  | restart

/-- `server_handler`, `src/uhs/atomizer/atomizer/controller.cpp:123-152`: a prune request is committed, a block request is
answered when the block is found. -/
def Net.serveOne (s : Net) (o : Out) : Option Net :=
  match o with
  | .prune h => (s.sm.commit (.prune h)).map fun r => { s with sm := r.1 }
  | .request h =>
    match s.sm.commit (.getBlock h) with
    | none => none
    | some (sm, some (.block b)) => some { s with sm := sm, coming := s.coming ++ [b] }
    | some (sm, _) => some { s with sm := sm }

/-- One event. Making a block is `main_handler` and `raft_result_handler`,
`src/uhs/atomizer/atomizer/controller.cpp:182-189,198-214`; a position that is not there changes nothing. -/
def Net.step (s : Net) : NetEv → Option Net
  | .notify aggs => (s.sm.commit (.notify aggs)).map fun r => { s with sm := r.1 }
  | .make reaches =>
    match s.sm.commit .makeBlock with
    | some (sm, some (.made b _)) =>
      some { s with sm := sm, made := s.made ++ [b], coming := if reaches then s.coming ++ [b] else s.coming }
    | _ => none
  | .serve i =>
    match s.flight[i]? with
    | none => some s
    | some o => ({ s with flight := s.flight.eraseIdx i } : Net).serveOne o
  | .deliver i =>
    match s.coming[i]? with
    | none => some s
    | some b => (s.arch.step (.block b)).map fun r =>
        { s with
          coming := s.coming.eraseIdx i
          arch := r.1
          flight := s.flight ++ r.2
          told := s.told ++ [b] }
  | .restart => (s.arch.step .restart).map fun r =>
      { s with
        arch := r.1
        coming := []
        flight := s.flight.filter fun o => match o with | .prune _ => true | .request _ => false
        told := [] }

/-- Events in order. -/
def Net.run (s : Net) : List NetEv → Option Net
  | [] => some s
  | e :: es => (s.step e).bind fun s' => s'.run es

/-- A new atomizer and a new archiver. -/
def Net.new (depth : Nat) : Net := ⟨SM.new depth, Archiver.fresh, [], [], [], []⟩

end Verif.Catchup
