import Verif.Coordinator.Wire

/-! What the log says about a batch, without the state machine. -/
namespace Verif.Coordinator.Wire

open Verif.Serial

/-- The batch an entry is about. -/
def Entry.about : Entry → Option Bytes
  | .prepare d _ | .commit d _ | .discard d | .done d => some d
  | .get => none

/-- `e` is the last entry of the log about its batch. -/
def Last (log : List Entry) (e : Entry) : Prop :=
  ∃ pre post, log = pre ++ e :: post ∧ ∀ e' ∈ post, e'.about ≠ e.about

/-- The log has nothing to say about the batch, or says last that it is done. -/
def Closed (log : List Entry) (d : Bytes) : Prop :=
  ∀ e, e.about = some d → Last log e → e = .done d

/-- Values that the C++ types can hold. -/
def Entry.Valid : Entry → Prop
  | .prepare d txs => d.length = 32 ∧ WF tPrepare txs
  | .commit d p => d.length = 32 ∧ WF tCommit p
  | .discard d | .done d => d.length = 32
  | .get => True

/-- Identifiers of batches are chosen at random: no batch is begun under the identifier of one that is
not done. -/
def Fresh (log : List Entry) : Prop :=
  ∀ pre d txs post, log = pre ++ .prepare d txs :: post → Closed pre d

/-- The entry is the next step of its batch. -/
def Next (log : List Entry) : Entry → Prop
  | .prepare d _ => Closed log d
  | .commit d _ => ∃ txs, Last log (.prepare d txs)
  | .discard d => ∃ p, Last log (.commit d p)
  | .done d => Last log (.discard d)
  | .get => True

/-- What a new leader has to find: every batch that is not done, in the phase and with the payload that
were recorded last, and nothing else, nothing twice. -/
structure Recovered (log : List Entry) (prepare : List (Bytes × tPrepare.val))
    (commit : List (Bytes × tCommit.val)) (discard : List Bytes) : Prop where
  prepare_iff : ∀ d txs, (d, txs) ∈ prepare ↔ Last log (.prepare d txs)
  commit_iff : ∀ d p, (d, p) ∈ commit ↔ Last log (.commit d p)
  discard_iff : ∀ d, d ∈ discard ↔ Last log (.discard d)
  once : (prepare.map Prod.fst ++ (commit.map Prod.fst ++ discard)).Nodup

end Verif.Coordinator.Wire
