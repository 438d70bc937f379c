import Verif.Config.Startup
import Verif.Config.DaemonsSpec
/-!
# When a system comes up

The specification of the start of a system: whom a component may have to wait for, and
what it is when it is up.
-/
namespace Verif.Config.Daemon

open Verif.Hex (Text)

/-- Whom a component needs when it starts.  A sentinel of the atomizer architecture needs
all other sentinels, a watchtower an atomizer and the first archiver, a coordinator that becomes
the leader all shards that have only one node.  Nobody else needs anybody. -/
def Needs (o : FullOptions) (i : Nat) (there : Endpoint → Prop) : Program → Prop
  | .sentinel => ∀ s ∈ o.sentinels, (∃ t, o.sentinels[i]? = some t ∧ s.endpoint = t.endpoint) ∨
      there s.endpoint
  | .watchtower => (∃ a ∈ o.atomizers, there a.endpoint) ∧
      ∀ a, o.archivers.head? = some a → there a.endpoint
  | .coordinator => ∀ n, [n] ∈ o.shardNodes → there n.endpoint
  | _ => True

/-- A component is up: its program runs, has done all it has to do, and listens at the endpoints of the
component and nowhere else. -/
structure Up (w : Own) (q : Proc) : Prop where
  alive : q.alive = true
  done : q.todo = []
  takes : ∀ e, e ∈ q.serving ↔ e ∈ w.takes

/-- The endpoints of sentinels are used by no other component. -/
def Apart (o : FullOptions) : Prop :=
  ∀ d i j w, d ≠ Program.sentinel → d ≠ .sentinelTwo → own o i j d = some w →
    ∀ e ∈ w.takes, ∀ s ∈ o.sentinels, e ≠ s.endpoint

end Verif.Config.Daemon
