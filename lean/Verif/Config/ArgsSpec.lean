import Verif.Config.Args
import Verif.Config.FileSpec
/-!
# What a command line says

The specification of the command line of the programmable system: which
arguments describe a configuration, and how they are written.  Nothing here
mentions how they are read.
-/
namespace Verif.Config.Args

open Verif.Hex (Text)
open Verif.Http (lit)

/-- What can be said on a command line. -/
inductive Name
  | component | level | node | tickets | ticket (i : Nat) | shards | shardNodes (i : Nat)
  | shard (i j : Nat) | agents | agent (i : Nat) | load | contention | accounts | runner
  deriving DecidableEq, Repr

/-- How it is called there. -/
def Name.key : Name → Text
  | .component => lit "component_id"
  | .level => lit "loglevel"
  | .node => lit "node_id"
  | .tickets => lit "ticket_machine_count"
  | .ticket i => lit "ticket_machine" ++ dec i ++ lit "_endpoint"
  | .shards => lit "shard_count"
  | .shardNodes i => lit "shard" ++ dec i ++ lit "_count"
  | .shard i j => lit "shard" ++ dec i ++ dec j ++ lit "_endpoint"
  | .agents => lit "agent_count"
  | .agent i => lit "agent" ++ dec i ++ lit "_endpoint"
  | .load => lit "loadgen_txtype"
  | .contention => lit "contention_rate"
  | .accounts => lit "loadgen_accounts"
  | .runner => lit "runner_type"

/-- The name of a load. -/
def Load.shown : Load → Text
  | .transfer => lit "transfer"
  | .erc20 => lit "erc20"

/-- The name of a runner. -/
def Runner.shown : Runner → Text
  | .lua => lit "lua"
  | .evm => lit "evm"

/-- A number in decimal. -/
def shown (n : UInt64) : Text := dec n.toNat

/-- What is to be said about a configuration; `w` writes rates. -/
def Cfg.says (w : UInt64 → Text) (c : Cfg) : Name → Option Text
  | .component => some (shown c.component)
  | .level => some c.level.shown
  | .node => c.node.map shown
  | .tickets => some (dec c.tickets.length)
  | .ticket i => c.tickets[i]?.map Endpoint.shown
  | .shards => some (dec c.shards.length)
  | .shardNodes i => c.shards[i]?.map fun l => dec l.length
  | .shard i j => (c.shards[i]?.bind (·[j]?)).map Endpoint.shown
  | .agents => some (dec c.agents.length)
  | .agent i => c.agents[i]?.map Endpoint.shown
  | .load => some c.load.shown
  | .contention => some (w c.contention)
  | .accounts => some (shown c.accounts)
  | .runner => some c.runner.shown

/-- Whether the configuration is the one that is meant when nothing is said. -/
def Cfg.silent (c : Cfg) : Name → Prop
  | .level => c.level = .trace
  | .load => c.load = .transfer
  | .contention => c.contention = 0
  | .accounts => c.accounts = 1000
  | .runner => c.runner = .evm
  | _ => False

/-- An argument: two dashes, the name, an equals sign, the value. -/
def written (x : Text × Text) : Text := lit "--" ++ x.1 ++ lit "=" ++ x.2

/-- Two dashes in a row. -/
def Dashes (t : Text) : Prop := ∃ a b, t = a ++ lit "--" ++ b

/-- An argument that can be taken apart: the only equals sign is the one in the
middle, and the only two dashes in a row are those at the start. -/
structure Plain (x : Text × Text) : Prop where
  name : 61 ∉ x.1
  value : 61 ∉ x.2
  dashes : ¬ Dashes (x.1 ++ lit "=" ++ x.2)

/-- The arguments describe the configuration: what they say is right, what they do
not say is what is meant then.  Arguments that do not concern the configuration
may say anything. -/
structure States (w : UInt64 → Text) (c : Cfg) (l : List (Text × Text)) : Prop where
  right : ∀ s v v', (s.key, v) ∈ l → c.says w s = some v' → v = v'
  whole : ∀ s v, c.says w s = some v → (s.key, v) ∈ l ∨ c.silent s
  node : c.node = none → ∀ v, (Name.key .node, v) ∉ l

/-- What has to be said on every command line. -/
def Name.Required : Name → Prop
  | .level | .node | .load | .contention | .accounts | .runner => False
  | _ => True

/-- The arguments describe the configuration, except that arguments which are
required may be missing. -/
structure Mostly (w : UInt64 → Text) (c : Cfg) (l : List (Text × Text)) : Prop where
  right : ∀ s v v', (s.key, v) ∈ l → c.says w s = some v' → v = v'
  whole : ∀ s v, c.says w s = some v → ¬ s.Required → (s.key, v) ∈ l ∨ c.silent s
  node : c.node = none → ∀ v, (Name.key .node, v) ∉ l

/-- Configurations that can be written: lists of at most 2^64 - 1 elements, hosts
without colons, a rate that the platform understands. -/
structure Cfg.Fits (p : Platform) (w : UInt64 → Text) (c : Cfg) : Prop where
  tickets : c.tickets.length < 2 ^ 64 ∧ ∀ e ∈ c.tickets, e.Fits
  shards : c.shards.length < 2 ^ 64
  shard : ∀ l ∈ c.shards, l.length < 2 ^ 64 ∧ ∀ e ∈ l, e.Fits
  agents : c.agents.length < 2 ^ 64 ∧ ∀ e ∈ c.agents, e.Fits
  contention : p.stod (w c.contention) = some c.contention

/-- Hosts and rates are written without equals signs and without two dashes in a row. -/
structure Cfg.Plain (w : UInt64 → Text) (c : Cfg) : Prop where
  tickets : ∀ e ∈ c.tickets, 61 ∉ e.1 ∧ ¬ Dashes e.1
  shards : ∀ l ∈ c.shards, ∀ e ∈ l, 61 ∉ e.1 ∧ ¬ Dashes e.1
  agents : ∀ e ∈ c.agents, 61 ∉ e.1 ∧ ¬ Dashes e.1
  contention : 61 ∉ w c.contention ∧ ¬ Dashes (w c.contention)

/-- At most ten shards, or at most ten nodes in each of them. -/
def Cfg.Small (c : Cfg) : Prop := c.shards.length ≤ 10 ∨ ∀ l ∈ c.shards, l.length ≤ 10

/-- All that can be said about a configuration, to make a command line of it. -/
def Cfg.names (c : Cfg) : List Name :=
  [.component, .level, .node, .tickets, .shards, .agents, .load, .contention, .accounts, .runner]
    ++ (List.range c.tickets.length).map .ticket
    ++ (List.range c.shards.length).map .shardNodes
    ++ (List.range c.shards.length).flatMap (fun i =>
        (List.range (c.shards[i]?.getD []).length).map (.shard i))
    ++ (List.range c.agents.length).map .agent

/-- A command line that says everything. -/
def Cfg.line (w : UInt64 → Text) (c : Cfg) : List (Text × Text) :=
  c.names.filterMap fun s => (c.says w s).map fun v => (s.key, v)

end Verif.Config.Args
