import Verif.Parsec.Serving
import Verif.Parsec.AgentServed

/-! What may happen to an agent server, and what its clients and its memory should show (C124). -/
namespace Verif.Parsec.Serving

open Agent

/-- Callbacks are called on agents that are there; `exec` is called by the server only; the broker answers a request of
an agent once. -/
def Allowed (s : Server) : Event → Prop
  | .agent id _ e => id ∈ s.kept ∧ e ≠ .exec ∧ ∀ k, answers e = some k → pending (s.tr id) = some k
  | _ => True

/-- Every state of a server that runs. -/
inductive Reach (fl : Flavor) (cfg : Nat → Config) : Server → Prop
  | start : Reach fl cfg {}
  | step {s : Server} (r : Reach fl cfg s) (alive : s.ended = none) (e : Event) (ok : Allowed s e) :
    Reach fl cfg (step fl cfg s e)

/-- What the client of a request was told. -/
def toldTo (s : Server) (id : Nat) : List Result := (s.told.filter fun q => q.1 = id).map (·.2)

/-- Nobody has to do anything about the request but the broker or the runner, which were asked. -/
def Elsewhere (s : Server) (id : Nat) : Prop :=
  (pending (s.tr id)).isSome = true ∨ (s.ag id).state = .functionStarted

end Verif.Parsec.Serving
