import Verif.Config.Daemons
/-!
# What a program is to be

The specification of the programs of the two architectures: what belongs to the
component with a number in a configuration, and with whom it is to talk.  Nothing
here mentions arguments or controllers.
-/
namespace Verif.Config.Daemon

open Verif.Hex (Text)

/-- What belongs to a component: its log level, the endpoints where it takes requests,
its data base, the endpoints of the replicas of its cluster, and its place among them. -/
structure Own where
  level : Level
  takes : List Endpoint
  store : Option Text := none
  cluster : List Endpoint := []
  place : Nat := 0

/-- What belongs to the component `i` of a configuration, for replicated components to its
node `j`. -/
def own (o : FullOptions) (i j : Nat) : Program → Option Own
  | .sentinel | .sentinelTwo => o.sentinels[i]?.map fun s => { level := s.level, takes := [s.endpoint] }
  | .shard => o.shards[i]?.bind fun s => s.place.map fun q =>
      { level := s.level, takes := [q.1], store := some q.2 }
  | .archiver => o.archivers[i]?.map fun a =>
      { level := a.level, takes := [a.endpoint], store := some a.db }
  | .watchtower => o.watchtowers[i]?.map fun w =>
      { level := w.level, takes := [w.client, w.internal] }
  | .atomizer => o.atomizers[i]?.map fun a =>
      { level := a.level, takes := [a.endpoint], cluster := o.atomizers.map (·.raft), place := i }
  | .lockingShard => o.shards[i]?.bind fun s => o.shardNodes[i]?.bind fun v => v[j]?.map fun n =>
      { level := s.level, takes := [n.endpoint, n.readonly], cluster := v.map (·.raft), place := j }
  | .coordinator => o.coordinators[i]?.bind fun c => c.nodes[j]?.map fun n =>
      { level := c.level, takes := [n.2], cluster := c.nodes.map (·.1), place := j }

/-- With whom the component `i` is to talk: sentinels with the shards and the other
sentinels; shards with the first archiver, the watchtowers and the atomizers; archivers with
the atomizers; watchtowers with the atomizers and the first archiver; atomizers with the
watchtowers; sentinels of the two-phase architecture with one of the coordinators and the other
sentinels; coordinators with all shards. -/
def Partner (o : FullOptions) (i : Nat) (e : Endpoint) : Program → Prop
  | .sentinel => (∃ s ∈ o.shards, ∃ q, s.place = some q ∧ e = q.1) ∨
      (∃ s ∈ o.sentinels, e = s.endpoint) ∧ ∀ s, o.sentinels[i]? = some s → e ≠ s.endpoint
  | .shard => (∃ a, o.archivers.head? = some a ∧ e = a.endpoint) ∨
      (∃ w ∈ o.watchtowers, e = w.internal) ∨ (∃ a ∈ o.atomizers, e = a.endpoint)
  | .archiver => ∃ a ∈ o.atomizers, e = a.endpoint
  | .watchtower => (∃ a ∈ o.atomizers, e = a.endpoint) ∨
      (∃ a, o.archivers.head? = some a ∧ e = a.endpoint)
  | .atomizer => ∃ w ∈ o.watchtowers, e = w.internal
  | .sentinelTwo => (∃ c, o.coordinators[i % o.coordinators.length]? = some c ∧
        ∃ n ∈ c.nodes, e = n.2) ∨
      (∃ s ∈ o.sentinels, e = s.endpoint) ∧ ∀ s, o.sentinels[i]? = some s → e ≠ s.endpoint
  | .lockingShard => False
  | .coordinator => ∃ v ∈ o.shardNodes, ∃ n ∈ v, e = n.endpoint

/-- The endpoints to which an action makes a connection. -/
def Act.called : Act → List Endpoint
  | .contact es | .row es | .await es => es
  | .demand e => [e]
  | .store _ | .join _ _ | .serve _ => []

/-- A program does what the component is to do: it listens at the endpoints of the
component and nowhere else, makes connections to its partners and to nobody else, opens
its data base, and is the replica it is said to be. -/
structure Right (o : FullOptions) (d : Program) (w : Own) (r : Role) : Prop where
  program : r.program = d
  level : r.level = w.level
  takes : ∀ e, Act.serve e ∈ r.plan ++ r.leads ↔ e ∈ w.takes
  calls : ∀ e, (∃ a ∈ r.plan ++ r.leads, e ∈ a.called) ↔ Partner o r.id e d
  store : ∀ t, Act.store t ∈ r.plan ++ r.leads ↔ w.store = some t
  cluster : ∀ m es, Act.join m es ∈ r.plan ++ r.leads ↔
    d ∈ [.atomizer, .lockingShard, .coordinator] ∧ m = w.place ∧ es = w.cluster

/-- The programs that are told the number of a node. -/
def clustered (d : Program) : Bool := d = .lockingShard || d = .coordinator

/-- The command line for the node `j` of the component `i`. -/
def line (name path : Text) (i j : Nat) (d : Program) : List Text :=
  if clustered d then [name, path, dec i, dec j] else [name, path, dec i]

/-- Lists that can be counted with 32 bits. -/
structure Small (o : FullOptions) : Prop where
  sentinels : o.sentinels.length < 2 ^ 32
  shards : o.shards.length < 2 ^ 32
  archivers : o.archivers.length < 2 ^ 32
  watchtowers : o.watchtowers.length < 2 ^ 32
  atomizers : o.atomizers.length < 2 ^ 32
  coordinators : o.coordinators.length < 2 ^ 32
  nodes : ∀ v ∈ o.shardNodes, v.length < 2 ^ 32
  members : ∀ c ∈ o.coordinators, c.nodes.length < 2 ^ 32

/-- What a component needs besides its own entry: sentinels need a key, in the
two-phase architecture only if attestations are wanted; a node of a cluster needs that all
clusters of its kind are as large, or empty. -/
def Ready (o : FullOptions) (i j : Nat) : Program → Prop
  | .sentinel => ∀ s, o.sentinels[i]? = some s → s.priv ≠ none
  | .sentinelTwo => o.coordinators ≠ [] ∧
      (o.threshold ≠ 0 → ∀ s, o.sentinels[i]? = some s → s.priv ≠ none)
  | .watchtower => o.archivers ≠ []
  | .lockingShard => ∀ v ∈ o.shardNodes, v = [] ∨ j < v.length
  | .coordinator => ∀ c ∈ o.coordinators, c.nodes = [] ∨ j < c.nodes.length
  | .shard | .archiver | .atomizer => True

end Verif.Config.Daemon
