import Verif.Evm.Logs
import Verif.Evm.HostFailure
import Verif.Serial.Lemmas
/-!
# Log queries: examples, and queries which are accepted but not answered as asked (C82)
-/
namespace Verif.Evm

open Verif.Serial

/-- An entry made by `a` with one topic. -/
def entry (a : UInt8) (t : UInt64) : Log := { addr := addr a, data := [t.toUInt8], topics := [num t] }

/-- Two transactions, of which the second makes three entries. -/
def sampleLogs : List Execution :=
  [{ ticket := 3, txid := num 33, logs := [entry 1 7] },
   { ticket := 5, txid := num 55, logs := [entry 1 7, entry 2 7, entry 1 8] }]

/-- `out` is what the callback of the runner is given, and nothing else. -/
def answered (q : LogQuery) (n : Nat) (order : List (Address × UInt64)) :
    Option (List (UInt64 × Bytes)) :=
  match q.run n (served (LogStore.after sampleLogs) order) with
  | [r] => (q.reply r).map fun out => out.map fun e => (e.2.1, e.1.data)
  | _ => none

/-- The hypotheses of `C82_exact_partial` are met: of four entries the two which are asked
for are found. -/
example : let q : LogQuery := ⟨[addr 1], [num 7, num 9], 2, 5⟩
    q.check = .accepted ∧ (sampleLogs.map (·.ticket)).Nodup ∧ q.addresses ≠ [] ∧ q.addresses.Nodup ∧
    q.fromBlock ≤ q.toBlock ∧ q.toBlock.toNat + 1 < 2 ^ 64 ∧
    blockLoop 9 q.fromBlock q.toBlock = some [2, 3, 4, 5] ∧
    answered q 4 [(addr 1, 5), (addr 1, 4), (addr 1, 2), (addr 1, 3)] = some [(5, [7]), (3, [7])] := by
  decide +kernel

/-- What is hashed into the key of a log index, src/parsec/agent/runners/evm/host.cpp:443-458, and into that of a
ticket number, src/parsec/agent/runners/evm/host.cpp:427-441. -/
def logPreimage (a : Address) (t : UInt64) : Bytes := a.val ++ encInt 8 t.toNat

def ticketPreimage (t : UInt64) : Bytes := encInt 8 t.toNat

/-- **C82.** What is hashed determines address and ticket number, and is never what is
hashed for a ticket number. -/
theorem C82_keys (a a' : Address) (t t' : UInt64) :
    (logPreimage a t = logPreimage a' t' → a = a' ∧ t = t') ∧
    (ticketPreimage t = ticketPreimage t' → t = t') ∧ logPreimage a t ≠ ticketPreimage t' := by
  have la : a.val.length = 20 := a.2
  have la' : a'.val.length = 20 := a'.2
  have inj : encInt 8 t.toNat = encInt 8 t'.toNat → t = t' := by
    intro h
    have h := congrArg leNat h
    rw [leNat_encInt _ _ (Nat.lt_of_lt_of_eq t.toNat_lt (by decide)),
      leNat_encInt _ _ (Nat.lt_of_lt_of_eq t'.toNat_lt (by decide))] at h
    exact UInt64.toNat_inj.mp h
  refine ⟨fun h => ?_, inj, fun h => ?_⟩
  · exact ⟨Subtype.ext (List.append_inj_left h (by rw [la, la'])),
      inj (List.append_inj_right h (by rw [la, la']))⟩
  · have := congrArg List.length h
    simp only [logPreimage, ticketPreimage, List.length_append, la, encInt_length] at this
    omega

theorem answers_short (q : LogQuery) (count : Nat) (answers : List (Option (Option LogIndex))) (g : Gathering)
    (h : g.acquired + (answers.filter Option.isSome).length < count)
    (hg : ∀ r ∈ g.results, r = .functionLoad) :
    ∀ r ∈ (answers.foldl (Gathering.answer q count) g).results, r = .functionLoad := by
  induction answers generalizing g with
  | nil => exact hg
  | cons v answers ih =>
    rw [List.foldl_cons]
    cases v with
    | none =>
      refine ih _ (by simpa [Gathering.answer] using h) fun r hr => ?_
      simp only [Gathering.answer, List.mem_append, List.mem_singleton] at hr
      exact hr.elim (hg r) id
    | some v =>
      simp only [List.filter_cons, Option.isSome_some, if_true, List.length_cons] at h
      have h1 : g.acquired + 1 ≠ count := by omega
      refine ih _ ?_ fun r hr => ?_
      · simp only [Gathering.answer, h1, if_false]
        omega
      · simp only [Gathering.answer, h1, if_false] at hr
        exact hg r hr

/-- **C82.** When a lock is refused, or while an answer is missing, there is no answer to
the query but an error: never a part of the entries. -/
theorem C82_no_part (q : LogQuery) (count : Nat) (answers : List (Option (Option LogIndex)))
    (h : answers.length < count ∨ (answers.length = count ∧ none ∈ answers)) :
    ∀ r ∈ q.run count answers, q.reply r = none := by
  have h : (answers.filter Option.isSome).length < count := by
    rcases h with h | ⟨h, hn⟩
    · exact Nat.lt_of_le_of_lt (List.length_filter_le _ _) h
    · rw [← h]
      exact List.length_filter_lt_length_iff_exists.mpr ⟨none, hn, by simp⟩
  intro r hr
  rw [answers_short q count answers ⟨[], 0, []⟩ (by simpa using h) (by simp) r hr]
  rfl

/-- One of two locks is refused: the only answer is an error. -/
example : let answers : List (Option (Option LogIndex)) := [some (some ⟨5, num 55, [entry 1 7]⟩), none]
    let q : LogQuery := ⟨[addr 1], [num 7], 5, 6⟩
    answers.length = 2 ∧ none ∈ answers ∧ (q.run 2 answers).length = 1 :=
  ⟨rfl, List.mem_cons_of_mem _ (List.mem_cons_self ..), by decide +kernel⟩

/-- **C82.** Between blocks below 2^63, and for fewer than 2^64 keys, a query is accepted
exactly if it names an address and a topic and at most a hundred pairs of address and later
block; otherwise it is refused. -/
theorem C82_accepted {q : LogQuery} (hf : q.fromBlock.toNat < 2 ^ 63) (ht : q.toBlock.toNat < 2 ^ 63)
    (hk : (q.toBlock.toNat - q.fromBlock.toNat) * q.addresses.length < 2 ^ 64) :
    (q.check = .accepted ↔ q.addresses ≠ [] ∧ q.topics ≠ [] ∧ q.fromBlock ≤ q.toBlock ∧
      (q.toBlock.toNat - q.fromBlock.toNat) * q.addresses.length ≤ 100) ∧
    (q.check = .accepted ∨ q.check = .error) := by
  have hc : ((q.toBlock.toNat : Int) - q.fromBlock.toNat).toNat = q.toBlock.toNat - q.fromBlock.toNat := by omega
  unfold LogQuery.check
  simp only [signed, hf, ht, if_true, hc, Nat.mod_eq_of_lt hk, UInt64.le_iff_toNat_le]
  repeat' split
  all_goals first
    | (rename_i h; simp_all; done)
    | omega
    | (constructor <;> simp_all <;> omega)

/-- The limit is met exactly: a hundred blocks after the first one are accepted, not one more. -/
example : (⟨[addr 1], [num 7], 5, 105⟩ : LogQuery).check = .accepted ∧
    (⟨[addr 1], [num 7], 5, 106⟩ : LogQuery).check = .error ∧
    (⟨[addr 1], [], 5, 6⟩ : LogQuery).check = .error := by decide +kernel

/-- **C82 is violated**: the server compares block numbers as signed ones, the runner as
unsigned ones.  A query which begins with the highest number is accepted, asks for no keys
and, since nothing is asked of the shards, is never answered. -/
theorem C82_unanswered_violated : ∃ q : LogQuery, q.check = .accepted ∧
    blockLoop 1 q.fromBlock q.toBlock = some [] ∧ q.run (q.keys []).length [] = [] := by
  refine ⟨⟨[addr 1], [num 7], 2 ^ 64 - 1, 5⟩, ?_, ?_, ?_⟩ <;> decide +kernel

theorem blockLoop_endless (n : Nat) (b : UInt64) : blockLoop n b (2 ^ 64 - 1) = none := by
  induction n generalizing b with
  | zero => rfl
  | succ n ih =>
    unfold blockLoop
    split
    · rw [ih]; rfl
    · rename_i h
      have := b.toNat_lt
      rw [UInt64.le_iff_toNat_le, show (2 ^ 64 - 1 : UInt64).toNat = 2 ^ 64 - 1 by decide +kernel] at h
      omega

/-- **C82 is violated**: a query which ends with the highest number is accepted, and
collecting its keys never ends: the agent's memory is used up. -/
theorem C82_endless_violated : ∃ q : LogQuery, q.check = .accepted ∧
    ∀ n, blockLoop n q.fromBlock q.toBlock = none :=
  ⟨⟨[addr 1], [num 7], 2 ^ 64 - 5, 2 ^ 64 - 1⟩, by decide +kernel, fun n => blockLoop_endless n _⟩

/-- **C82 is violated**: the product of the number of addresses and the number of blocks,
which is to be at most 100, is computed modulo 2^64.  A query for four addresses and 2^62
blocks is accepted: the agent is to store and lock more than 2^64 keys. -/
theorem C82_huge_violated : ∃ q : LogQuery, q.check = .accepted ∧ q.addresses.Nodup ∧
    (∃ n bs, blockLoop n q.fromBlock q.toBlock = some bs ∧ ∀ b : UInt64, b.toNat ≤ 2 ^ 62 → b ∈ bs) ∧
    q.addresses.length = 4 := by
  refine ⟨⟨[addr 1, addr 2, addr 3, addr 4], [num 7], 0, 2 ^ 62⟩, by decide +kernel, by decide +kernel, ?_, rfl⟩
  obtain ⟨n, bs, h, _, hm⟩ := blockLoop_ends 0 (2 ^ 62) (by decide +kernel)
  refine ⟨n, bs, h, fun b hb => (hm b).mpr ⟨?_, ?_⟩⟩
  · rw [UInt64.le_iff_toNat_le]; exact Nat.zero_le _
  · rw [UInt64.le_iff_toNat_le, show (2 ^ 62 : UInt64).toNat = 2 ^ 62 by decide +kernel]; exact hb

/-- **C82 is violated**: the difference of the block numbers can leave the signed numbers,
which is undefined behaviour. -/
theorem C82_undefined_violated : ∃ q : LogQuery, q.check = .undefined :=
  ⟨⟨[addr 1], [num 7], 1, 2 ^ 63⟩, by decide +kernel⟩

/-- **C82 is violated**: an address which is named twice has its entries in the answer
twice. -/
theorem C82_twice_violated : ∃ q : LogQuery, q.check = .accepted ∧ blockLoop 2 q.fromBlock q.toBlock = some [5] ∧
    answered q 2 (q.keys [5]) = some [(5, [8]), (5, [8])] ∧ (q.expected sampleLogs).length = 1 := by
  refine ⟨⟨[addr 1, addr 1], [num 8], 5, 5⟩, ?_, ?_, ?_, ?_⟩ <;> decide +kernel

end Verif.Evm
