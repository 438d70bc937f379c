import Verif.Coordinator.WireLemmas

/-! Property C116: what a new leader of the coordinators reads from the replicated log. -/
namespace Verif.Coordinator.Wire

open Verif.Serial

/-- **C116.** After any log that the state machine executed, whatever the order of iteration of its
containers, the answer to `get` is read completely by the new leader, and what it reads is every batch
that is not done, once, in the phase and with the payload recorded last. -/
theorem C116_recovered {log : List Entry} {s s' : Raw} (h : Reach log s)
    (hv : ∀ e ∈ log, e.Valid) (hf : Fresh log) (hlen : log.length < 2 ^ 64) (hs : s.Same s')
    {g : Bytes} (hg : Entry.get.command.write = some g) :
    ∃ reply P C D, s'.exec g = .goes s' (some reply) ∧ readState reply = .ok (P, C, D) [] ∧
      Recovered log P C D := by
  have hI := (reach_inv h hv hf).same hs
  obtain ⟨P, C, D, hr, hR⟩ := hI.read hv hlen []
  rw [List.append_nil] at hr
  refine ⟨s'.write, P, C, D, ?_, hr, hR⟩
  rw [exec_entry s' .get trivial g hg]
  rfl

/-- C116: every command that a controller builds can be written. -/
theorem C116_written (e : Entry) : ∃ b, e.command.write = some b := by
  cases e <;> exact ⟨_, rfl⟩

/-- C116: a state machine executes the entries that are the next step of their batch, and ends its process on
every other one; it never throws and never does anything undefined. -/
theorem C116_checked {log : List Entry} {s s' : Raw} (h : Reach log s) (hs : s.Same s') {e : Entry}
    (hv : ∀ e' ∈ log ++ [e], e'.Valid) (hf : Fresh (log ++ [e])) {b : Bytes}
    (hb : e.command.write = some b) :
    (Next log e → ∃ t r, s'.exec b = .goes t r) ∧ (¬ Next log e → s'.exec b = .exits) := by
  have hI := (reach_inv h (fun e' he => hv e' (by simp [he])) (fresh_init hf)).same hs
  have he := hv e (by simp)
  constructor
  · intro hn
    obtain ⟨t, r, hg, _⟩ := hI.next he hn hb
    exact ⟨t, r, hg⟩
  · intro hn
    rw [exec_entry s' e he b hb]
    cases e with
    | prepare d txs => exact absurd (fresh_last hf d txs rfl) hn
    | commit d p => exact if_neg fun hd => hn ((hI.prepare_key d).mp hd)
    | discard d => exact if_neg fun hd => hn ((hI.commit_key d).mp hd)
    | done d => exact if_neg fun hd => hn ((hI.discard_iff d).mp hd)
    | get => exact absurd trivial hn

/-- C116: a log in which every entry is the next step of its batch is executed to its end, so that the
theorems above speak about it. -/
theorem C116_executed (log : List Entry) (hv : ∀ e ∈ log, e.Valid)
    (hn : ∀ pre e post, log = pre ++ e :: post → Next pre e) : ∃ s, Reach log s := by
  suffices ∃ s, Reach log s ∧ Inv log s by
    obtain ⟨s, hs, _⟩ := this
    exact ⟨s, hs⟩
  induction log using List.reverseRecOn with
  | nil => exact ⟨_, .start, .nil⟩
  | append_singleton log e ih =>
    obtain ⟨s, hs, hI⟩ := ih (fun e' he => hv e' (by simp [he]))
      (fun pre e' post hl => hn pre e' (post ++ [e]) (by rw [hl]; simp))
    obtain ⟨b, hb⟩ := C116_written e
    obtain ⟨t, r, hg, hI'⟩ := hI.next (hv e (by simp)) (hn log e [] rfl) hb
    exact ⟨t, .step hs ⟨.refl _, .refl _, .refl _⟩ hb hg, hI'⟩

section Example

/-- Two identifiers and payloads. -/
def exA : Bytes := List.replicate 32 1
def exB : Bytes := List.replicate 32 2
def exTx : tCompactTx.val := (List.replicate 32 7, [List.replicate 32 8], [List.replicate 32 9],
  [(List.replicate 32 3, List.replicate 64 4)])
def exP : tCommit.val := ([true, false], [[(0 : Nat), (1 : Nat)], []])

/-- A log with a batch in the commit phase and one in the prepare phase. -/
def exLog : List Entry := [.prepare exA [exTx], .prepare exB [exTx, exTx], .get, .commit exA exP]

theorem exLog_valid : ∀ e ∈ exLog, e.Valid := by
  have h1 : WF tPrepare [exTx] := wf_of_decide _ _ (by decide)
  have h2 : WF tPrepare [exTx, exTx] := wf_of_decide _ _ (by decide)
  have h3 : WF tCommit exP := wf_of_decide _ _ (by decide)
  intro e he
  simp only [exLog, List.mem_cons, List.not_mem_nil, or_false] at he
  rcases he with rfl | rfl | rfl | rfl
  · exact ⟨by decide, h1⟩
  · exact ⟨by decide, h2⟩
  · exact trivial
  · exact ⟨by decide, h3⟩

/-- The bytes of an entry. -/
def bytesOf (e : Entry) : Bytes := (e.command.write).getD []

/-- A state machine that executes a list of entries, in the order of insertion. -/
def runLog : Raw → List Entry → Outcome
  | s, [] => .goes s none
  | s, e :: es =>
    match s.exec (bytesOf e) with
    | .goes t _ => runLog t es
    | o => o

/-- What a new leader reads after the log. -/
def recoverAfter (log : List Entry) : Option tState.val :=
  match runLog .empty log with
  | .goes s _ =>
    match s.exec (bytesOf .get) with
    | .goes _ (some reply) =>
      match readState reply with
      | .ok v _ => some v
      | _ => none
    | _ => none
  | _ => none

/-- A state as a new leader has it in memory. -/
def mkState (P : List (Bytes × tPrepare.val)) (C : List (Bytes × tCommit.val)) (D : List Bytes) :
    Option tState.val := some (P, C, D)

instance (a b : Option tState.val) : Decidable (a = b) :=
  have := tState.decEq
  inferInstanceAs (Decidable (a = b))

/-- The example is executed, and a new leader finds both batches. -/
example : recoverAfter exLog = mkState [(exB, [exTx, exTx])] [(exA, exP)] [] := by decide +kernel

/-- The example meets the hypotheses of the theorems: no identifier is reused. -/
example : Fresh exLog := by
  intro pre d txs post h
  rintro e he ⟨p, q, hpq, _⟩
  rcases pre with _ | ⟨x, pre⟩
  · simp at hpq
  rcases pre with _ | ⟨y, pre⟩
  · simp only [exLog, List.cons_append, List.nil_append, List.cons.injEq] at h
    obtain ⟨rfl, ⟨rfl, _⟩, _⟩ := h
    have : e = .prepare exA [exTx] := by
      have hm : e ∈ [Entry.prepare exA [exTx]] := by
        rw [hpq]
        simp
      simpa using hm
    subst this
    exact absurd he (by simp only [Entry.about, Option.some.injEq]; decide)
  · simp only [exLog, List.cons_append, List.cons.injEq] at h
    obtain ⟨_, _, h⟩ := h
    rcases pre with _ | ⟨z, pre⟩
    · simp at h
    rcases pre with _ | ⟨w, pre⟩
    · simp at h
    · simp at h

/-- C116, why identifiers must not be reused: the state machine looks for a duplicate only among the
prepared batches. A batch begun under the identifier of one that is being committed is accepted, is
recovered in two phases at once, and when it is committed in turn the old outcome is the one that stays. -/
theorem C116_reused :
    recoverAfter [.prepare exA [exTx], .commit exA exP, .prepare exA [exTx, exTx]]
      = mkState [(exA, [exTx, exTx])] [(exA, exP)] [] ∧
    recoverAfter [.prepare exA [exTx], .commit exA exP, .prepare exA [exTx, exTx],
      .commit exA ([false, true], [[]])] = mkState [] [(exA, exP)] [] := by
  constructor <;> decide +kernel

end Example

end Verif.Coordinator.Wire
