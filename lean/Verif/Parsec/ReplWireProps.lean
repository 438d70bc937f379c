import Verif.Parsec.ReplWireLemmas

/-! Property C119: what a runtime locking shard reads from its log. -/
namespace Verif.Parsec.Wire

open Verif.Serial Verif.Serial.Cat

/-- **C119.** Every replica that executes the log of any calls answers each of them with bytes from
which the client tells its callback what the calls before it in the log say; no assertion fails, and
the index of the last entry is the one reported to Raft. -/
theorem C119_told (cs : List Call) (hc : ∀ c ∈ cs, c.Fits) (hn : cs.length < 2 ^ 64) (idx : Nat) :
    ∃ m as, ({} : Machine).exec idx (cs.map Call.entry) = some (m, as) ∧ as.length = cs.length ∧
      (∀ i (hi : i < cs.length), ∃ a r, as[i]? = some a ∧ cs[i].told a = some r ∧
        Right (cs.take i) cs[i] r) ∧
      (cs ≠ [] → m.last + 1 = idx + cs.length) := by
  obtain ⟨m, as, h1, _, h3, h4, h5, _⟩ := exec_calls cs [] {} idx Inv.empty hc (by simpa using hn)
  refine ⟨m, as, h1, h3, by simpa using h4, fun hne => ?_⟩
  rw [if_neg hne] at h5
  have := List.length_pos_iff.mpr hne
  omega

/-- C119: a new leader that asks for the tickets is told, through the log, exactly those that the calls
before say are prepared or committed and not finished, also those whose callers never heard of it;
and they are those of its own replicated shard, as `Sys.failover` (C66, C67) has it. -/
theorem C119_recovered (cs : List Call) (hc : ∀ c ∈ cs, c.Fits) (hn : cs.length + 1 < 2 ^ 64)
    (idx : Nat) :
    ∃ m as a tickets, ({} : Machine).exec idx ((cs ++ [Call.tickets]).map Call.entry) =
        some (m, as ++ [a]) ∧
      Call.told .tickets a = some (.tickets (.tickets tickets)) ∧
      (tickets.map Prod.fst).Nodup ∧ (∀ t, tickets.lookup t = record cs t) ∧
      m.shard = (cs.filterMap Call.cmd).foldl (fun s c => (s.apply c).1) {} := by
  obtain ⟨m, as, h1, _, h3, h4, _, h6⟩ := exec_calls (cs ++ [Call.tickets]) [] {} idx Inv.empty
    (fun c h => by
      rcases List.mem_append.mp h with h | h
      · exact hc c h
      · rw [List.mem_singleton.mp h]
        trivial) (by simpa using hn)
  obtain ⟨a, r, g1, g2, g3⟩ := h4 cs.length (by simp)
  simp only [List.getElem_concat_length, List.nil_append, List.take_left] at g2 g3
  obtain ⟨tickets, rfl, g4, g5⟩ := g3
  have hlen : as.length = cs.length + 1 := by simpa using h3
  have hsplit : as = as.take cs.length ++ [a] := by
    obtain ⟨hlt, hga⟩ := List.getElem?_eq_some_iff.mp g1
    have := List.take_append_drop cs.length as
    rw [List.drop_eq_getElem_cons hlt, hga, List.drop_eq_nil_of_le (by omega)] at this
    exact this.symm
  refine ⟨m, as.take cs.length, a, tickets, by rw [← hsplit]; exact h1, g2, g4, g5, ?_⟩
  rw [h6, List.filterMap_append, List.foldl_append]
  rfl

/-- C119: an entry that cannot be read changes nothing, is not counted, and its caller is told of an
internal error. -/
theorem C119_unreadable (m : Machine) (idx : Nat) (d rest : Bytes)
    (h : repRequest.read d = .fail rest) :
    m.commit idx d = some (m, none) ∧ ∀ c : Call, ∃ r, c.told none = some r ∧
      (r = .result (some 10) ∨ r = .tickets (.error 10)) := by
  refine ⟨by rw [Machine.commit, h], fun c => ?_⟩
  cases c with
  | tickets => exact ⟨_, rfl, Or.inr rfl⟩
  | prepare t b u => exact ⟨_, rfl, Or.inl rfl⟩
  | commit t => exact ⟨_, rfl, Or.inl rfl⟩
  | finish t => exact ⟨_, rfl, Or.inl rfl⟩

/-- C119: entries are told apart: two calls with the same entry are the same call. -/
theorem C119_entry (c c' : Call) (hc : c.Fits) (hc' : c'.Fits) (h : c.entry = c'.entry) : c = c' := by
  have h1 := repRequest_law c.request [] (Call.request_valid hc)
  have h2 := repRequest_law c'.request [] (Call.request_valid hc')
  rw [Call.entry, Call.entry] at h
  rw [h, h2] at h1
  injection h1 with h1 _
  cases c <;> cases c' <;> simp_all [Call.request]

section Example

/-- Two tickets, one of them committed, and one that is finished. -/
def exCalls : List Call :=
  [.prepare 5 1 [([1], [7])], .prepare 6 1 [([2], [8])], .commit 5, .prepare 7 2 [], .commit 7,
    .finish 7, .prepare 6 9 [([3], [])], .commit 8]

example : ∀ c ∈ exCalls, c.Fits := by
  intro c h
  simp only [exCalls, List.mem_cons, List.not_mem_nil, or_false] at h
  rcases h with rfl | rfl | rfl | rfl | rfl | rfl | rfl | rfl <;> simp [Call.Fits, maxBuf]

example : record exCalls 5 = some ⟨1, 1, [([1], [])]⟩ := rfl
example : record exCalls 6 = some ⟨0, 1, [([2], [8])]⟩ := rfl
example : record exCalls 7 = none := rfl

/-- A truncated entry is not read. -/
example : ∃ rest, repRequest.read ((Call.commit 5).entry.take 5) = .fail rest := ⟨_, rfl⟩

end Example

end Verif.Parsec.Wire
