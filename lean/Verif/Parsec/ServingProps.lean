import Verif.Parsec.ServingLemmas

/-! Property C124: an agent server answers each request once, leaves none lying, and keeps nothing of what is done. -/
namespace Verif.Parsec.Serving

open Agent

/-! ### C124 -/

/-- **C124.** A client is told at most one result, which is not `retry`, and nobody is told anything who did not ask. -/
theorem C124_once {fl : Flavor} {cfg : Nat → Config} {s : Server} (r : Reach fl cfg s) (id : Nat) :
    (toldTo s id).length ≤ 1 ∧ Result.error .retry ∉ toldTo s id ∧ (s.next ≤ id → toldTo s id = []) := by
  have h := (fine r).all id
  rw [h.ans]
  refine ⟨(h.run.served h.served).1.once, ?_, fun hn => by rw [h.born.mpr hn]; rfl⟩
  unfold finals
  simp

/-- **C124.** What a client is told is what its own agent reported. -/
theorem C124_own {fl : Flavor} {cfg : Nat → Config} {s : Server} (r : Reach fl cfg s) (id : Nat) (x : Result) :
    x ∈ toldTo s id ↔ x ∈ results (s.tr id) ∧ x ≠ .error .retry := by
  rw [((fine r).all id).ans]
  unfold finals
  simp

/-- **C124.** No request is left lying: until its client is told something it is with the broker or the runner, or it is
to be run again and its agent is there. -/
theorem C124_never_lost {fl : Flavor} {cfg : Nat → Config} {s : Server} (r : Reach fl cfg s) (id : Nat) (hn : id < s.next)
    (hu : toldTo s id = []) : id ∈ s.kept ∧ (Elsewhere s id ∨ id ∈ s.retry ∨ s.retrying = some id) := by
  have h := (fine r).all id
  rw [h.ans] at hu
  have inv := (h.run.served h.served).1
  have said := h.run.said h.served
  have htr : s.tr id ≠ [] := fun he => by have := h.born.mp he; omega
  have hkeep := h.keep
  rw [if_pos ⟨hn, by unfold disposed; rw [hu]; rfl⟩] at hkeep
  refine ⟨List.count_pos_iff.mp (by omega), ?_⟩
  by_cases ho : owed (s.tr id) = true
  · have ha := h.again
    right
    by_cases hr : s.retrying = some id
    · exact .inr hr
    · rw [if_neg hr, if_pos ⟨htr, ho⟩] at ha
      exact .inl (List.count_pos_iff.mp (by omega))
  · left
    unfold Elsewhere
    rw [inv.pend]
    have h1 := fun hs => ho (said.owes hs)
    have h2 : final (s.ag id).state = false := by
      cases hq : final (s.ag id).state with
      | false => rfl
      | true => exact absurd hu (said.final hq)
    have h3 := (h.run.rest (h.run.served h.served).2).notFailing
    cases hst : (s.ag id).state <;> simp_all [expect, final, failing]

/-- **C124.** Agents are run again in the order of their requests, one at a time, each once for every `retry`. -/
theorem C124_order {fl : Flavor} {cfg : Nat → Config} {s : Server} (r : Reach fl cfg s) (id : Nat)
    (h0 : s.retrying = none) (h1 : (step fl cfg s .pop).retrying = some id) :
    id ∈ s.retry ∧ (∀ j ∈ s.retry, id ≤ j) ∧ id ∉ (step fl cfg s .pop).retry := by
  have hf := fine r
  simp only [step, h0] at h1 ⊢
  cases hs : smallest s.retry with
  | none => simp [hs, h0] at h1
  | some x =>
    rw [hs] at h1
    dsimp only at h1 ⊢
    obtain ⟨hm, hle⟩ := smallest_mem hs
    have hpos : 0 < s.retry.count x := List.count_pos_iff.mpr hm
    have hth := (hf.all x).there (by omega)
    rw [if_pos hth.2.2.2.1] at h1 ⊢
    have : x = id := by simpa using h1
    subst this
    refine ⟨hm, hle, ?_⟩
    have ha := (hf.all x).again
    have hle1 : s.retry.count x ≤ 1 := by
      have : (if s.tr x ≠ [] ∧ owed (s.tr x) = true then 1 else 0) ≤ 1 := by split <;> omega
      omega
    rw [← List.count_eq_zero, List.count_erase_self]
    omega

/-- **C124.** The agent which the retry thread looks for is always there, and no agent fails an assertion: if the process ends, then in
the destructor of an agent of the Lua server. -/
theorem C124_lives {fl : Flavor} {cfg : Nat → Config} {s : Server} (r : Reach fl cfg s) :
    s.ended = none ∨ (fl = .lua ∧ s.ended = some .destructor) := (fine r).ended

/-- **C124 (partial).** The Lua server forgets what is done: when the cleanup thread has nothing to do the agents that are kept are
those of the requests which are not answered.  The EVM server forgets the successes only. -/
theorem C124_forgets_partial {fl : Flavor} {cfg : Nat → Config} {s : Server} (r : Reach fl cfg s) (hc : s.cleanup = [])
    (id : Nat) :
    id ∈ s.kept ↔ id < s.next ∧ ∀ x ∈ toldTo s id, fl = .evm ∧ ∃ e, x = .error e := by
  have h := (fine r).all id
  rw [h.ans]
  have hk := h.keep
  rw [hc, List.count_nil] at hk
  rw [← List.count_pos_iff, hk]
  have hd : disposed fl (s.tr id) = false ↔ ∀ x ∈ finals (s.tr id), fl = .evm ∧ ∃ e, x = .error e := by
    unfold disposed
    rw [List.any_eq_false]
    constructor
    · intro h x hx
      have := h x hx
      cases fl with
      | lua => simp [disposes] at this
      | evm => cases x with
        | ok u => simp [disposes] at this
        | error e => exact ⟨rfl, e, rfl⟩
    · intro h x hx
      obtain ⟨rfl, e, rfl⟩ := h x hx
      simp [disposes]
  rw [← hd]
  split
  · rename_i hyes; simp only [Nat.zero_lt_one, true_iff]; exact hyes
  · rename_i hno; simp only [Nat.lt_irrefl, false_iff]; exact hno

/-- **C124 (violated).** The EVM server keeps the agent of every request that failed, whatever comes after. -/
theorem C124_leak_violated {cfg : Nat → Config} {s : Server} (r : Reach .evm cfg s) (id : Nat) (e : Err)
    (h : Result.error e ∈ toldTo s id) : id ∈ s.kept := by
  have hx := (fine r).all id
  rw [hx.ans] at h
  have hone := (hx.run.served hx.served).1.once
  have hfin : finals (s.tr id) = [.error e] := by
    match hq : finals (s.tr id), h, hone with
    | [a], h, _ => rw [List.mem_singleton] at h; rw [h]
    | a :: b :: l, _, hl => simp at hl
  have hn : id < s.next := by
    rcases Nat.lt_or_ge id s.next with hlt | hge
    · exact hlt
    · rw [hx.born.mpr hge] at hfin; cases hfin
  have hk := hx.keep
  rw [if_pos ⟨hn, by unfold disposed; rw [hfin]; rfl⟩] at hk
  exact List.count_pos_iff.mp (by omega)

/-- **C124 (violated).** So its memory has no bound: after any number of requests that fail, all of them answered and nothing left to do,
an agent is kept for each. -/
theorem C124_memory_violated (cfg : Nat → Config) (n : Nat) :
    ∃ s, Reach .evm cfg s ∧ s.ended = none ∧ s.next = n ∧ s.retry = [] ∧ s.retrying = none ∧ s.cleanup = [] ∧
      (∀ id < n, toldTo s id = [.error .brokerUnreachable]) ∧ s.kept.length = n := by
  induction n with
  | zero => exact ⟨{}, .start, rfl, rfl, rfl, rfl, rfl, fun _ h => absurd h (Nat.not_lt_zero _), rfl⟩
  | succ n ih =>
    obtain ⟨s, hr, h1, h2, h3, h4, h5, h6, h7⟩ := ih
    have hag : s.ag n = {} := by
      have h := (fine hr).all n
      have htr := h.born.mpr (by omega)
      have hrun := h.run
      rw [htr] at hrun
      generalize s.ag n = a at hrun ⊢
      cases hrun
      rfl
    have hst : Agent.step (cfg n) { begin := false } {} .exec =
        ({ state := .beginFailed, result := some (.error .brokerUnreachable) }, [.result (.error .brokerUnreachable)]) := rfl
    have hs : step .evm cfg s (.request { begin := false }) =
        { s with
          next := s.next + 1
          kept := s.kept ++ [s.next]
          ag := fun j => if j = s.next then
            ({ state := .beginFailed, result := some (.error .brokerUnreachable) } : Agent) else s.ag j
          tr := fun j => if j = s.next then
            [(.exec, [.result (.error .brokerUnreachable)])] ++ s.tr s.next else s.tr j
          told := (s.next, .error .brokerUnreachable) :: s.told } := by
      subst h2
      simp only [step, react, hag, hst, resultsOf, List.filterMap_cons, List.filterMap_nil, List.foldl_cons, List.foldl_nil, heard]
      simp [disposes]
    refine ⟨_, .step hr h1 (.request { begin := false }) trivial, ?_⟩
    rw [hs]
    refine ⟨h1, by simp [h2], h3, h4, h5, fun id hid => ?_, by simp [h7]⟩
    unfold toldTo
    by_cases hin : id = n
    · subst hin
      have := ((C124_once hr id).2.2 (by omega))
      unfold toldTo at this
      simp [h2]
      simpa using this
    · have : ¬ n = id := fun h => hin h.symm
      have h8 := h6 id (by omega)
      unfold toldTo at h8
      simp only [h2]
      rw [List.filter_cons_of_neg (by simpa using this)]
      exact h8

/-- **C124 (violated).** One request to the Lua server for which there is no ticket number, and the process is gone. -/
theorem C124_lives_violated (cfg : Nat → Config) :
    ∃ s, Reach .lua cfg s ∧ toldTo s 0 = [.error .ticketNumberAssignment] ∧ s.ended = some .destructor := by
  refine ⟨step .lua cfg (step .lua cfg (step .lua cfg {} (.request {})) (.agent 0 {} (.begun none))) .clean,
    .step (.step (.step .start rfl (.request {}) trivial) rfl (.agent 0 {} (.begun none)) ⟨?_, by simp, ?_⟩) rfl .clean trivial,
    rfl, rfl⟩
  · show 0 ∈ [0]; simp
  · intro k hk
    cases hk
    rfl

/-! ### Non-vacuity -/

/-- `Allowed`, computed. -/
def allowedB (s : Server) : Event → Bool
  | .agent id _ e => decide (id ∈ s.kept) && decide (e ≠ .exec) &&
    match answers e with
    | none => true
    | some k => decide (pending (s.tr id) = some k)
  | _ => true

/-- Events one after the other, if they may happen. -/
def goes (fl : Flavor) (cfg : Nat → Config) (s : Server) : List Event → Option Server
  | [] => some s
  | e :: l => if s.ended = none ∧ allowedB s e = true then goes fl cfg (step fl cfg s e) l else none

theorem goes_reach {fl : Flavor} {cfg : Nat → Config} {s s' : Server} (r : Reach fl cfg s) (l : List Event)
    (h : goes fl cfg s l = some s') : Reach fl cfg s' := by
  induction l generalizing s with
  | nil => cases h; exact r
  | cons e l ih =>
    rw [goes] at h
    split at h
    · rename_i hc
      refine ih (.step r hc.1 e ?_) h
      cases e with
      | agent id p e =>
        have h2 := hc.2
        simp only [allowedB, Bool.and_eq_true, decide_eq_true_eq] at h2
        refine ⟨h2.1.1, h2.1.2, fun k hk => ?_⟩
        have h3 := h2.2
        rw [hk] at h3
        simpa using h3
      | _ => trivial
    · cases h

/-- Three requests: the second and then the first are to be run again, and the first is; the third fails. -/
def busy : List Event :=
  [.request {}, .request {}, .request {}, .agent 0 {} (.begun (some 5)), .agent 1 {} (.begun (some 6)),
    .agent 1 {} (.locked .function (.value 9)), .agent 1 {} (.ran .wounded), .agent 1 {} (.rolledBack true),
    .agent 0 {} (.locked .function (.value 9)), .agent 0 {} (.ran .wounded), .agent 0 {} (.rolledBack true),
    .pop, .rerun {}, .agent 0 {} (.locked .function (.value 9)), .agent 0 {} (.ran (.ok [(5, 6)])),
    .agent 0 {} (.committed .ok), .agent 2 {} (.begun (some 7)), .agent 2 {} (.locked .function (.value 9)),
    .agent 2 {} (.ran .failed), .agent 2 {} (.rolledBack true), .agent 2 {} (.finished true), .agent 0 {} (.finished true),
    .clean]

/-- The first request is answered with its result and forgotten, the third with an error and, by the EVM server, not forgotten; the second
waits to be run again. -/
example : ∃ s, goes .evm (fun _ => cfg7) {} busy = some s ∧ Reach .evm (fun _ => cfg7) s ∧ toldTo s 0 = [.ok [(5, 6)]] ∧
    toldTo s 1 = [] ∧ toldTo s 2 = [.error .functionExecution] ∧ s.kept = [1, 2] ∧ s.retry = [1] ∧ s.cleanup = [] ∧
    s.ended = none := by
  have h : (goes .evm (fun _ => cfg7) {} busy).isSome = true := by decide +kernel
  obtain ⟨s, hs⟩ := Option.isSome_iff_exists.mp h
  have h2 : (goes .evm (fun _ => cfg7) {} busy).all (fun s => decide (toldTo s 0 = [.ok [(5, 6)]] ∧
      toldTo s 1 = [] ∧ toldTo s 2 = [.error .functionExecution] ∧ s.kept = [1, 2] ∧ s.retry = [1] ∧ s.cleanup = [] ∧
      s.ended = none)) = true := by decide +kernel
  rw [hs] at h2
  exact ⟨s, hs, goes_reach .start _ hs, of_decide_eq_true h2⟩

/-- The same requests at the Lua server, which forgets the third as well. -/
example : (goes .lua (fun _ => cfg7) {} (busy ++ [.clean])).all (fun s => decide (s.kept = [1] ∧ s.ended = none ∧
    (step .lua (fun _ => cfg7) s .pop).retrying = some 1)) = true ∧
    (goes .lua (fun _ => cfg7) {} (busy ++ [.clean])).isSome = true := by
  constructor <;> decide +kernel

end Verif.Parsec.Serving
