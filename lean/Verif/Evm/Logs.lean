import Verif.Evm.HostProps
import Mathlib.Data.List.Perm.Basic
/-!
# Log queries (C82)

Model of how the logs of executed transactions are stored and of `eth_getLogs`.

Simplifications: the key of a log index stands for the address and the ticket number
which are hashed into it (`C82_keys` shows that what is hashed determines both); a value
which is read back is the value which was stored; the conversions from and to JSON are
left out.
-/
namespace Verif.Evm

open Verif.Serial

/-- `evm_log_index`, src/parsec/agent/runners/evm/messages.hpp:157-168. -/
structure LogIndex where
  ticket : UInt64
  txid : Word
  logs : List Log

/-- One step of `get_sorted_logs`, src/parsec/agent/runners/evm/host.cpp:472-477. -/
def addLog : List (Address × List Log) → Log → List (Address × List Log)
  | [], l => [(l.addr, [l])]
  | (a, ls) :: m, l => if a = l.addr then (a, ls ++ [l]) :: m else (a, ls) :: addLog m l

/-- `get_sorted_logs`, src/parsec/agent/runners/evm/host.cpp:469-479.  Simplification: the order of the map is that in
which the addresses first occur. -/
def sortedLogs (logs : List Log) : List (Address × List Log) := logs.foldl addLog []

/-- What the shards store under the keys of log indexes. -/
abbrev LogStore := Address → UInt64 → Option LogIndex

/-- An executed transaction: its ticket number, its identifier and the logs of its
receipt. -/
structure Execution where
  ticket : UInt64
  txid : Word
  logs : List Log

/-- The last part of `get_state_updates`, src/parsec/agent/runners/evm/host.cpp:524-533, committed. -/
def LogStore.commit (s : LogStore) (e : Execution) : LogStore :=
  (sortedLogs e.logs).foldl
    (fun s x => put s x.1 (put (s x.1) e.ticket (some ⟨e.ticket, e.txid, x.2⟩))) s

/-- The shards after transactions were executed. -/
def LogStore.after (es : List Execution) : LogStore := es.foldl .commit fun _ _ => none

/-- `evm_log_query`, src/parsec/agent/runners/evm/messages.hpp:144-155. -/
structure LogQuery where
  addresses : List Address
  topics : List Word
  fromBlock : UInt64
  toBlock : UInt64

/-- What becomes of a query at the server. -/
inductive Checked where
  | error
  /-- signed overflow -/
  | undefined
  | accepted
  deriving DecidableEq, Repr

/-- `static_cast<int64_t>`. -/
def signed (u : UInt64) : Int := if u.toNat < 2 ^ 63 then u.toNat else (u.toNat : Int) - 2 ^ 64

/-- The checks of `extract_evm_log_query_addresses`, `_topics` and `_block`,
src/parsec/agent/runners/evm/http_server.cpp:582-590, 608-616 and 685-712. -/
def LogQuery.check (q : LogQuery) : Checked :=
  if q.addresses = [] then .error
  else if q.topics = [] then .error
  else
    let count := signed q.toBlock - signed q.fromBlock
    if count < -2 ^ 63 ∨ 2 ^ 63 ≤ count then .undefined
    else if count < 0 then .error
    else if (count.toNat * q.addresses.length) % 2 ^ 64 > 100 then .error
    else .accepted

/-- The outer loop in which `run_get_logs` collects keys, src/parsec/agent/runners/evm/impl.cpp:231-235, for so many
rounds at most. -/
def blockLoop : Nat → UInt64 → UInt64 → Option (List UInt64)
  | 0, _, _ => none
  | n + 1, b, last => if b ≤ last then (blockLoop n (b + 1) last).map (b :: ·) else some []

/-- The keys, src/parsec/agent/runners/evm/impl.cpp:230-235. -/
def LogQuery.keys (q : LogQuery) (blocks : List UInt64) : List (Address × UInt64) :=
  blocks.flatMap fun b => q.addresses.map fun a => (a, b)

/-- What is given to the callback of the runner. -/
inductive LogResult where
  | functionLoad
  | indexes (l : List LogIndex)

/-- The variables which the answers of the shards share, src/parsec/agent/runners/evm/impl.cpp:242-244, and what was
given to the callback of the runner. -/
structure Gathering where
  indexes : List LogIndex
  acquired : Nat
  results : List LogResult

/-- Whether a log has one of the topics, src/parsec/agent/runners/evm/impl.cpp:306-325. -/
def wanted (topics : List Word) (l : Log) : Bool :=
  l.topics.any fun have_ => topics.any fun want => have_ = want

/-- `handle_complete_get_logs`, src/parsec/agent/runners/evm/impl.cpp:299-342. -/
def LogQuery.complete (q : LogQuery) (l : List LogIndex) : LogResult :=
  .indexes (l.filter fun i => i.logs.any (wanted q.topics))

/-- `handle_get_logs_try_lock_response`, src/parsec/agent/runners/evm/impl.cpp:272-297; `none` is a refused lock and
`some none` an empty value. -/
def Gathering.answer (q : LogQuery) (count : Nat) (g : Gathering) : Option (Option LogIndex) → Gathering
  | none => { g with results := g.results ++ [.functionLoad] }
  | some v =>
    let indexes := match v with
      | some i => g.indexes ++ [i]
      | none => g.indexes
    if g.acquired + 1 = count then
      { indexes, acquired := g.acquired + 1, results := g.results ++ [q.complete indexes] }
    else
      { indexes, acquired := g.acquired + 1, results := g.results }

/-- All that is given to the callback of the runner, src/parsec/agent/runners/evm/impl.cpp:242-267, when the shards
answer the requests for the keys in this order. -/
def LogQuery.run (q : LogQuery) (count : Nat) (answers : List (Option (Option LogIndex))) : List LogResult :=
  (answers.foldl (Gathering.answer q count) ⟨[], 0, []⟩).results

/-- `handle_get_logs_result`, src/parsec/agent/runners/evm/http_server.cpp:765-788: the entries of the answer to the
user. -/
def LogQuery.reply (q : LogQuery) : LogResult → Option (List (Log × UInt64 × Word))
  | .functionLoad => none
  | .indexes l => some (l.flatMap fun i =>
      (i.logs.filter (wanted q.topics)).map fun g => (g, i.ticket, i.txid))

/-! ### Specification -/

/-- The entries which a query asks for, from what was executed. -/
def LogQuery.expected (q : LogQuery) (es : List Execution) : List (Log × UInt64 × Word) :=
  es.flatMap fun e => (e.logs.filter fun l =>
    l.addr ∈ q.addresses ∧ q.fromBlock ≤ e.ticket ∧ e.ticket ≤ q.toBlock ∧ ∃ t ∈ l.topics, t ∈ q.topics).map
    fun l => (l, e.ticket, e.txid)

/-! ### Lemmas -/

theorem flatMap_swap {α β γ : Type} (f : α → β → List γ) (as : List α) (bs : List β) :
    (as.flatMap fun a => bs.flatMap fun b => f a b).Perm (bs.flatMap fun b => as.flatMap fun a => f a b) := by
  induction as with
  | nil => simp
  | cons a as ih =>
    simp only [List.flatMap_cons]
    exact (ih.append_left _).trans (List.flatMap_append_perm _ _ _)

theorem flatMap_perm {α β : Type} {f g : α → List β} {l : List α} (h : ∀ a ∈ l, (f a).Perm (g a)) :
    (l.flatMap f).Perm (l.flatMap g) := by
  induction l with
  | nil => simp
  | cons a l ih =>
    simp only [List.flatMap_cons]
    exact (h a (List.mem_cons_self ..)).append (ih fun x hx => h x (List.mem_cons_of_mem _ hx))

theorem flatMap_pick {α β : Type} [DecidableEq α] (c : α) (X : List β) (l : List α) (hl : l.Nodup) :
    (l.flatMap fun b => if c = b then X else []) = if c ∈ l then X else [] := by
  induction l with
  | nil => simp
  | cons b l ih =>
    have hb := List.nodup_cons.mp hl
    simp only [List.flatMap_cons, ih hb.2, List.mem_cons]
    by_cases h : c = b
    · subst h
      simp [hb.1]
    · simp [h]

theorem filter_append {α : Type} (p q : α → Bool) (l : List α) (h : ∀ x ∈ l, p x = true → q x = false) :
    (l.filter p ++ l.filter q).Perm (l.filter fun x => p x || q x) := by
  induction l with
  | nil => simp
  | cons x l ih =>
    have ih := ih fun y hy => h y (List.mem_cons_of_mem _ hy)
    have hx := h x (List.mem_cons_self ..)
    cases hp : p x with
    | true =>
      simp only [List.filter_cons, hp, hx hp, Bool.true_or, if_true, Bool.false_eq_true, if_false, List.cons_append]
      exact ih.cons x
    | false =>
      cases hq : q x with
      | true =>
        simp only [List.filter_cons, hp, hq, Bool.or_true, if_true, Bool.false_eq_true, if_false]
        exact List.perm_middle.trans (ih.cons x)
      | false =>
        simp only [List.filter_cons, hp, hq, Bool.or_false, Bool.false_eq_true, if_false]
        exact ih

theorem filter_split {α β : Type} [DecidableEq β] (f : α → β) (m : α → Bool) (l : List α) (as : List β)
    (ha : as.Nodup) :
    (as.flatMap fun a => l.filter fun x => f x = a && m x).Perm (l.filter fun x => f x ∈ as && m x) := by
  induction as with
  | nil => simp
  | cons a as ih =>
    have h := List.nodup_cons.mp ha
    simp only [List.flatMap_cons]
    refine ((ih h.2).append_left _).trans ((filter_append _ _ l ?_).trans ?_)
    · intro x _ hx
      simp only [Bool.and_eq_true, decide_eq_true_eq] at hx
      simp [hx.1, h.1]
    · refine List.Perm.of_eq (congrArg (List.filter · l) (funext fun x => ?_))
      cases m x <;> simp [List.mem_cons, Bool.decide_or]

/-- What is in the sorted logs for an address. -/
def logsOf : List (Address × List Log) → Address → Option (List Log)
  | [], _ => none
  | (a, ls) :: m, b => if a = b then some ls else logsOf m b

theorem logsOf_addLog (m : List (Address × List Log)) (l : Log) (a : Address) :
    logsOf (addLog m l) a = if l.addr = a then some ((logsOf m a).getD [] ++ [l]) else logsOf m a := by
  induction m with
  | nil => simp [addLog, logsOf]
  | cons e m ih =>
    obtain ⟨b, ls⟩ := e
    unfold addLog
    by_cases hb : b = l.addr
    · subst hb
      simp only [if_true, logsOf]
      by_cases ha : l.addr = a <;> simp [ha]
    · simp only [hb, if_false, logsOf, ih]
      by_cases ha : b = a
      · subst ha
        simp [Ne.symm hb]
      · simp [ha]

theorem keys_addLog (m : List (Address × List Log)) (l : Log) :
    (addLog m l).map (·.1) = if l.addr ∈ m.map (·.1) then m.map (·.1) else m.map (·.1) ++ [l.addr] := by
  induction m with
  | nil => simp [addLog]
  | cons e m ih =>
    obtain ⟨b, ls⟩ := e
    unfold addLog
    by_cases hb : b = l.addr
    · subst hb; simp
    · simp only [hb, if_false, List.map_cons, ih, List.mem_cons, Ne.symm hb, false_or]
      split <;> simp

theorem nodup_addLog (m : List (Address × List Log)) (l : Log) (h : (m.map (·.1)).Nodup) :
    ((addLog m l).map (·.1)).Nodup := by
  rw [keys_addLog]
  split
  · exact h
  · rename_i hn
    exact List.nodup_append.mpr ⟨h, List.nodup_cons.mpr ⟨List.not_mem_nil, List.nodup_nil⟩, fun x hx y hy => by
      rw [List.mem_singleton] at hy
      rintro rfl
      exact hn (hy ▸ hx)⟩

theorem nodup_sortedLogs (logs : List Log) : ((sortedLogs logs).map (·.1)).Nodup := by
  unfold sortedLogs
  have : ∀ m : List (Address × List Log), (m.map (·.1)).Nodup → ((logs.foldl addLog m).map (·.1)).Nodup := by
    induction logs with
    | nil => exact fun _ h => h
    | cons l logs ih => exact fun m h => ih _ (nodup_addLog m l h)
  exact this [] List.nodup_nil

theorem logsOf_sortedLogs (logs : List Log) (a : Address) :
    (logsOf (sortedLogs logs) a).getD [] = logs.filter fun l => l.addr = a := by
  unfold sortedLogs
  have : ∀ m : List (Address × List Log), (logsOf (logs.foldl addLog m) a).getD [] =
      (logsOf m a).getD [] ++ logs.filter fun l => l.addr = a := by
    induction logs with
    | nil => simp
    | cons l logs ih =>
      intro m
      rw [List.foldl_cons, ih, logsOf_addLog, List.filter_cons]
      by_cases h : l.addr = a <;> simp [h]
  simpa [logsOf] using this []

theorem LogStore.foldl_put (t : UInt64) (id : Word) (m : List (Address × List Log)) (hm : (m.map (·.1)).Nodup)
    (s : LogStore) (a : Address) (b : UInt64) :
    (m.foldl (fun s x => put s x.1 (put (s x.1) t (some ⟨t, id, x.2⟩))) s : LogStore) a b =
      if b = t then (match logsOf m a with | some ls => some ⟨t, id, ls⟩ | none => s a b) else s a b := by
  induction m generalizing s with
  | nil => simp [logsOf]
  | cons e m ih =>
    obtain ⟨x, ls⟩ := e
    have hx := List.nodup_cons.mp hm
    rw [List.foldl_cons, ih hx.2]
    by_cases hb : b = t
    · subst hb
      simp only [if_true, logsOf]
      by_cases ha : x = a
      · subst ha
        have : logsOf m x = none := by
          have hn := hx.1
          clear hx hm ih
          induction m with
          | nil => rfl
          | cons e m ih =>
            simp only [List.map_cons, List.mem_cons, not_or] at hn
            simp only [logsOf, Ne.symm hn.1, if_false]
            exact ih hn.2
        simp [this, put_same]
      · simp only [ha, if_false]
        rw [put_other _ _ (Ne.symm ha)]
    · simp only [hb, if_false]
      by_cases ha : a = x
      · subst ha; rw [put_same, put_other _ _ hb]
      · rw [put_other _ _ ha]

/-- The entries which the query takes from one log index. -/
def LogQuery.part (q : LogQuery) : Option LogIndex → List (Log × UInt64 × Word)
  | none => []
  | some i => (i.logs.filter (wanted q.topics)).map fun g => (g, i.ticket, i.txid)

/-- The entries which the query takes from an execution for an address. -/
def LogQuery.partOf (q : LogQuery) (a : Address) (e : Execution) : List (Log × UInt64 × Word) :=
  (e.logs.filter fun l => l.addr = a && wanted q.topics l).map fun g => (g, e.ticket, e.txid)

theorem LogStore.commit_part (q : LogQuery) (s : LogStore) (e : Execution) (a : Address) (b : UInt64)
    (hs : s a e.ticket = none) :
    q.part (s.commit e a b) = q.part (s a b) ++ if e.ticket = b then q.partOf a e else [] := by
  unfold LogStore.commit
  rw [LogStore.foldl_put _ _ _ (nodup_sortedLogs _)]
  by_cases hb : b = e.ticket
  · subst hb
    have h := logsOf_sortedLogs e.logs a
    simp only [if_true, hs]
    have hw : (fun l : Log => decide (l.addr = a) && wanted q.topics l) =
        fun l => wanted q.topics l && decide (l.addr = a) := funext fun l => Bool.and_comm _ _
    unfold LogQuery.partOf
    rw [hw, ← List.filter_filter, ← h]
    cases logsOf (sortedLogs e.logs) a <;> simp [LogQuery.part]
  · simp [hb, Ne.symm hb]

theorem LogStore.after_part (q : LogQuery) (es : List Execution) (hes : (es.map (·.ticket)).Nodup)
    (a : Address) (b : UInt64) :
    q.part (LogStore.after es a b) = es.flatMap fun e => if e.ticket = b then q.partOf a e else [] := by
  unfold LogStore.after
  have key : ∀ s : LogStore, (∀ e ∈ es, s a e.ticket = none) →
      q.part ((es.foldl LogStore.commit s) a b) =
        q.part (s a b) ++ es.flatMap fun e => if e.ticket = b then q.partOf a e else [] := by
    induction es with
    | nil => simp
    | cons e es ih =>
      intro s hs
      have hn := List.nodup_cons.mp hes
      rw [List.foldl_cons, ih hn.2, LogStore.commit_part q s e a b (hs e (List.mem_cons_self ..)), List.flatMap_cons,
        List.append_assoc]
      intro x hx
      unfold LogStore.commit
      rw [LogStore.foldl_put _ _ _ (nodup_sortedLogs _), if_neg]
      · exact hs x (List.mem_cons_of_mem _ hx)
      · intro h
        exact hn.1 (List.mem_map.mpr ⟨x, hx, h⟩)
  simpa [LogQuery.part] using key (fun _ _ => none) (fun _ _ => rfl)

theorem run_all (q : LogQuery) (count : Nat) (vs : List (Option LogIndex)) (hv : vs ≠ []) (g : Gathering)
    (hc : g.acquired + vs.length = count) :
    ((vs.map some).foldl (Gathering.answer q count) g).results =
      g.results ++ [q.complete (g.indexes ++ vs.filterMap id)] := by
  induction vs generalizing g with
  | nil => exact absurd rfl hv
  | cons v vs ih =>
    simp only [List.map_cons, List.foldl_cons]
    simp only [List.length_cons] at hc
    cases vs with
    | nil =>
      simp only [List.length_nil] at hc
      simp only [List.map_nil, List.foldl_nil, Gathering.answer]
      rw [if_pos (by omega)]
      cases v <;> simp
    | cons w vs =>
      simp only [List.length_cons] at hc
      rw [ih (by simp)]
      · simp only [Gathering.answer]
        rw [if_neg (by omega)]
        cases v <;> simp
      · simp only [Gathering.answer]
        rw [if_neg (by omega)]
        simp only [List.length_cons]
        omega

theorem reply_complete (q : LogQuery) (vs : List (Option LogIndex)) :
    q.reply (q.complete (vs.filterMap id)) = some (vs.flatMap q.part) := by
  unfold LogQuery.complete LogQuery.reply
  refine congrArg some ?_
  induction vs with
  | nil => rfl
  | cons v vs ih =>
    cases v with
    | none => simpa [LogQuery.part] using ih
    | some i =>
      simp only [List.filterMap_cons, id, List.filter_cons, List.flatMap_cons]
      split
      · rw [List.flatMap_cons]; exact congrArg _ ih
      · rename_i hn
        have : i.logs.filter (wanted q.topics) = [] := by
          rw [List.filter_eq_nil_iff]
          intro l hl hw
          exact hn (List.any_eq_true.mpr ⟨l, hl, hw⟩)
        simp only [LogQuery.part, this, List.map_nil, List.nil_append]
        exact ih

/-- The loop ends unless the last block is the highest number there is. -/
theorem blockLoop_ends (first last : UInt64) (hl : last.toNat + 1 < 2 ^ 64) :
    ∃ n bs, blockLoop n first last = some bs ∧ bs.Nodup ∧ ∀ b, b ∈ bs ↔ first ≤ b ∧ b ≤ last := by
  have : ∀ k (first : UInt64), last.toNat + 1 - first.toNat = k →
      ∃ bs, blockLoop (k + 1) first last = some bs ∧ bs.Nodup ∧ ∀ b, b ∈ bs ↔ first ≤ b ∧ b ≤ last := by
    intro k
    induction k with
    | zero =>
      intro f hf
      refine ⟨[], ?_, List.nodup_nil, fun b => ?_⟩
      · unfold blockLoop
        rw [if_neg (by rw [UInt64.le_iff_toNat_le]; omega)]
      · simp only [List.not_mem_nil, false_iff, UInt64.le_iff_toNat_le]
        omega
    | succ k ih =>
      intro f hf
      have h1 : (f + 1).toNat = f.toNat + 1 := by
        rw [UInt64.toNat_add, show (1 : UInt64).toNat = 1 from rfl]
        omega
      obtain ⟨bs, hb, hn, hm⟩ := ih (f + 1) (by omega)
      refine ⟨f :: bs, ?_, List.nodup_cons.mpr ⟨fun h => ?_, hn⟩, fun b => ?_⟩
      · unfold blockLoop
        rw [if_pos (by rw [UInt64.le_iff_toNat_le]; omega), hb]
        rfl
      · have := ((hm f).mp h).1
        rw [UInt64.le_iff_toNat_le] at this
        omega
      · rw [List.mem_cons, hm]
        simp only [UInt64.le_iff_toNat_le, ← UInt64.toNat_inj]
        omega
  obtain ⟨bs, h⟩ := this _ first rfl
  exact ⟨_, bs, h⟩

theorem wanted_iff (topics : List Word) (l : Log) : wanted topics l = true ↔ ∃ t ∈ l.topics, t ∈ topics := by
  simp only [wanted, List.any_eq_true, decide_eq_true_eq]
  exact ⟨fun ⟨t, ht, w, hw, e⟩ => ⟨t, ht, e ▸ hw⟩, fun ⟨t, ht, hw⟩ => ⟨t, ht, t, hw, rfl⟩⟩

/-- What the shards answer when all locks are given and the requests are answered in this
order. -/
def served (s : LogStore) (order : List (Address × UInt64)) : List (Option (Option LogIndex)) :=
  order.map fun k => some (s k.1 k.2)

/-! ### The property -/

/-- **C82, in part**: a query for different addresses, of which the last block is not
before the first nor the highest number there is, has exactly one answer when all its
locks are given: the entries which were made by these addresses in these blocks and which
have one of the topics, each once, in whichever order the shards answer.  Missing: other
queries which the server accepts (`C82_unanswered_violated`, `C82_endless_violated`,
`C82_huge_violated`, `C82_undefined_violated`, `C82_twice_violated`). -/
theorem C82_exact_partial (es : List Execution) (hes : (es.map (·.ticket)).Nodup) (q : LogQuery)
    (ha : q.addresses ≠ []) (hn : q.addresses.Nodup) (hft : q.fromBlock ≤ q.toBlock)
    (ht : q.toBlock.toNat + 1 < 2 ^ 64) :
    ∃ n bs, blockLoop n q.fromBlock q.toBlock = some bs ∧
      ∀ order : List (Address × UInt64), order.Perm (q.keys bs) →
        ∃ r out, q.run (q.keys bs).length (served (LogStore.after es) order) = [r] ∧
          q.reply r = some out ∧ out.Perm (q.expected es) := by
  obtain ⟨n, bs, hb, hbn, hbm⟩ := blockLoop_ends q.fromBlock q.toBlock ht
  refine ⟨n, bs, hb, fun order ho => ?_⟩
  have hne : order ≠ [] := by
    intro h
    rw [h] at ho
    have h0 := List.nil_perm.mp ho
    obtain ⟨a, ha⟩ := List.exists_mem_of_ne_nil _ ha
    have : (a, q.fromBlock) ∈ q.keys bs := List.mem_flatMap.mpr
      ⟨q.fromBlock, (hbm _).mpr ⟨by rw [UInt64.le_iff_toNat_le]; omega, hft⟩, List.mem_map.mpr ⟨a, ha, rfl⟩⟩
    rw [h0] at this
    cases this
  have hrun := run_all q (q.keys bs).length (order.map fun k => LogStore.after es k.1 k.2) (by simpa using hne)
    ⟨[], 0, []⟩ (by rw [List.length_map, ho.length_eq]; exact Nat.zero_add _)
  refine ⟨_, _, ?_, reply_complete q (order.map fun k => LogStore.after es k.1 k.2), ?_⟩
  · unfold LogQuery.run served
    simpa [List.map_map, Function.comp_def] using hrun
  · rw [List.flatMap_map]
    refine (ho.flatMap_right _).trans ?_
    unfold LogQuery.keys LogQuery.expected
    rw [List.flatMap_assoc]
    simp only [List.flatMap_map, LogStore.after_part q es hes]
    refine (flatMap_perm fun b _ => flatMap_swap _ _ _).trans ((flatMap_swap _ _ _).trans (flatMap_perm fun e _ => ?_))
    have h1 : ∀ b, (q.addresses.flatMap fun a => if e.ticket = b then q.partOf a e else []) =
        if e.ticket = b then q.addresses.flatMap fun a => q.partOf a e else [] := by
      intro b
      by_cases h : e.ticket = b <;> simp [h]
    simp only [h1]
    rw [flatMap_pick _ _ _ hbn]
    have h2 : (q.addresses.flatMap fun a => q.partOf a e).Perm
        ((e.logs.filter fun l => l.addr ∈ q.addresses && wanted q.topics l).map fun l => (l, e.ticket, e.txid)) := by
      unfold LogQuery.partOf
      rw [← List.map_flatMap]
      refine ((filter_split Log.addr (wanted q.topics) e.logs _ hn).map _).trans (List.Perm.of_eq ?_)
      congr 2
      funext l
      rw [Bool.eq_iff_iff]
      simp only [Bool.and_eq_true, decide_eq_true_eq]
    by_cases h : e.ticket ∈ bs
    · rw [if_pos h]
      refine h2.trans (List.Perm.of_eq ?_)
      have h := (hbm _).mp h
      congr 2
      funext l
      rw [Bool.eq_iff_iff]
      simp only [Bool.and_eq_true, decide_eq_true_eq, wanted_iff, h.1, h.2, true_and]
    · rw [if_neg h]
      have h : ¬ (q.fromBlock ≤ e.ticket ∧ e.ticket ≤ q.toBlock) := fun hh => h ((hbm _).mpr hh)
      have : (e.logs.filter fun l => decide (l.addr ∈ q.addresses ∧ q.fromBlock ≤ e.ticket ∧ e.ticket ≤ q.toBlock ∧
          ∃ t ∈ l.topics, t ∈ q.topics)) = [] := by
        rw [List.filter_eq_nil_iff]
        intro l _ hl
        have := of_decide_eq_true hl
        exact h ⟨this.2.1, this.2.2.1⟩
      rw [this]
      simp

end Verif.Evm
