import Verif.Parsec.Replicated
import Verif.Serial.Catalogue

/-! The log of a runtime locking shard in bytes: what `replicated_shard_client` writes, what
`state_machine::commit` reads and answers, and what the client's callbacks are told. The replicated
shard itself is `RState.apply`. -/
namespace Verif.Parsec.Wire

open Verif.Serial Verif.Serial.Cat

/-- The number of an error code, `src/parsec/runtime_locking_shard/interface.hpp:39-64`. -/
def codeNumber : Code → Nat
  | .prepared => 0
  | .wounded => 1
  | .lockHeld => 2
  | .lockQueued => 3
  | .unknownTicket => 4
  | .lockNotHeld => 5
  | .stateUpdateWithReadLock => 6
  | .notPrepared => 7
  | .committed => 8
  | .notCommitted => 9
  | .internalError => 10

/-- A ticket as it travels: the states are `prepared` and `committed`,
`src/parsec/runtime_locking_shard/replicated_shard_interface.hpp:25-40`. -/
def toWire (r : RTicket) : RepTicket where
  state := if r.committed then 1 else 0
  broker := r.broker
  updates := r.update

/-- `process_request`, `src/parsec/runtime_locking_shard/state_machine.cpp:55-93`. The functions of the
replicated shard call back before they return. -/
def process (s : RState) : RepRequest → RState × RepResponse
  | .prepare m =>
    let r := s.apply (.prepare m.ticket m.broker m.updates)
    (r.1, .result (r.2.map codeNumber))
  | .commit m =>
    let r := s.apply (.commit m.ticket)
    (r.1, .result (r.2.map codeNumber))
  | .finish m =>
    let r := s.apply (.finish m.ticket)
    (r.1, .result (r.2.map codeNumber))
  | .getTickets _ => (s, .tickets (.tickets (s.tickets.map fun p => (p.1, toWire p.2))))

/-- `state_machine`: the replicated shard and `m_last_committed_idx`,
`src/parsec/runtime_locking_shard/state_machine.hpp:18-61`. -/
structure Machine where
  shard : RState := {}
  last : Nat := 0

/-- `state_machine::commit`, `src/parsec/runtime_locking_shard/state_machine.cpp:15-34`: the answer is
`none` for the null pointer. The outer `none` is the exception of an unknown variant. -/
def Machine.commit (m : Machine) (idx : Nat) (data : Bytes) : Option (Machine × Option Bytes) :=
  match repRequest.read data with
  | .ok req _ =>
    let r := process m.shard req
    some (⟨r.1, idx⟩, some (repResponse.write r.2))
  | .fail _ => some (m, none)
  | .bad => none

/-- A call of the client, `src/parsec/runtime_locking_shard/replicated_shard_client.cpp:18-108`. -/
inductive Call where
  | prepare (t broker : Nat) (u : List (Key × Value))
  | commit (t : Nat)
  | finish (t : Nat)
  | tickets
  deriving DecidableEq

/-- The request of a call, `src/parsec/runtime_locking_shard/replicated_shard_client.cpp:23-25`,
`:47`, `:69`, `:90`. -/
def Call.request : Call → RepRequest
  | .prepare t b u => .prepare ⟨t, b, u⟩
  | .commit t => .commit ⟨t⟩
  | .finish t => .finish ⟨t⟩
  | .tickets => .getTickets ()

/-- The log entry of a call, `src/parsec/runtime_locking_shard/replicated_shard_client.cpp:117-118`. -/
def Call.entry (c : Call) : Bytes := repRequest.write c.request

/-- What a callback is told: an error or none, or the tickets. -/
inductive Told where
  | result (e : Option Nat)
  | tickets (v : RepTickets)

/-- The callback of `replicate_request` and those of the calls,
`src/parsec/runtime_locking_shard/replicated_shard_client.cpp:26-40`, `:91-107`, `:119-137`. The
argument is what Raft brought: `none` for an exception or a null pointer. The result `none` is an
assertion that fails (or, without assertions, an exception). -/
def Call.told (c : Call) (answer : Option Bytes) : Option Told :=
  match answer with
  | none =>
    match c with
    | .tickets => some (.tickets (.error (codeNumber .internalError)))
    | _ => some (.result (some (codeNumber .internalError)))
  | some b =>
    match repResponse.read b with
    | .ok (.result e) _ =>
      match c with
      | .tickets => none
      | _ => some (.result e)
    | .ok (.tickets v) _ =>
      match c with
      | .tickets => some (.tickets v)
      | _ => none
    | _ => none

/-- The entries of a log, from index `idx` on, executed by one replica; what it answers. -/
def Machine.exec (m : Machine) (idx : Nat) : List Bytes → Option (Machine × List (Option Bytes))
  | [] => some (m, [])
  | d :: ds =>
    match m.commit idx d with
    | none => none
    | some (m', a) =>
      match m'.exec (idx + 1) ds with
      | none => none
      | some (m'', as) => some (m'', a :: as)

end Verif.Parsec.Wire
