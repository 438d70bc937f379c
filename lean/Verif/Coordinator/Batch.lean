import Verif.Coordinator.Props

/-!
Model of how the coordinator builds batches and answers callers,
`src/uhs/twophase/coordinator/controller.cpp` `execute_transaction` and `batch_executor_func`.
A caller (the result callback) is a number. -/
namespace Verif.Coordinator

open Verif.Tx Verif.LockingShard

/-- The settings used here: `m_opts.m_sentinel_public_keys`, `m_attestation_threshold`,
`m_batch_size`, and the shards. -/
structure CCfg where
  crypto : Crypto
  keys : List PubKey
  threshold : Nat
  batchSize : Nat
  shards : List Cfg

/-- `m_current_batch` and `m_current_txs`, `src/uhs/twophase/coordinator/controller.hpp:154-158`. -/
structure Batch where
  dtx : Dtx
  callers : List (Hash × Nat × Nat)

/-- A new batch, `src/uhs/twophase/coordinator/controller.cpp:386-405`. -/
def Batch.new (c : CCfg) : Batch := ⟨Dtx.new c.shards, []⟩

/-- `execute_transaction`, `src/uhs/twophase/coordinator/controller.cpp:684-731`; `leader` and `running` are the state of the
node. `none` while the call waits for space (`:704-706`). -/
def Batch.submit (c : CCfg) (leader running : Bool) (b : Batch) (tx : CompactTx) (caller : Nat) :
    Option (Batch × Bool) :=
  if !leader then some (b, false)
  else if !checkAttestations c.crypto tx c.keys c.threshold then some (b, false)
  else if !running then some (b, false)
  else if c.batchSize ≤ b.callers.length then none
  else if b.callers.any (fun q => q.1 == tx.id) then some (b, false)
  else some (⟨b.dtx.addTx c.shards tx, b.callers ++ [(tx.id, caller, b.dtx.full.length)]⟩, true)

/-- The callers' answers when the batch has been executed, `src/uhs/twophase/coordinator/controller.cpp:424-431`; outer `none`
when an index is out of range. -/
def Batch.respond (b : Batch) (res : Option (List Bool)) : Option (List (Nat × Option Bool)) :=
  b.callers.mapM fun q =>
    match res with
    | none => some (q.2.1, none)
    | some D => (D[q.2.2]?).map fun f => (q.2.1, some f)

/-- The batch after a sequence of calls; those that wait are left out. -/
def Batch.submits (c : CCfg) (b : Batch) : List (Bool × Bool × CompactTx × Nat) → Batch
  | [] => b
  | (l, r, tx, caller) :: calls =>
    match b.submit c l r tx caller with
    | some (b', _) => b'.submits c calls
    | none => b.submits c calls

/-! ### Invariant -/

/-- The batch is built from accepted calls: caller `i` brought transaction `i`. -/
structure BInv (c : CCfg) (b : Batch) : Prop where
  built : b.dtx = built c.shards b.dtx.full
  idx : ∀ (i : Nat) (q : Hash × Nat × Nat), b.callers[i]? = some q →
    q.2.2 = i ∧ ∃ t, b.dtx.full[i]? = some t ∧ t.id = q.1
  len : b.callers.length = b.dtx.full.length
  ids : (b.dtx.full.map (·.id)).Nodup
  att : ∀ t ∈ b.dtx.full, checkAttestations c.crypto t c.keys c.threshold = true

theorem binv_new (c : CCfg) : BInv c (Batch.new c) where
  built := addAll_new c.shards []
  idx i q h := by simp [Batch.new] at h
  len := rfl
  ids := by simp [Batch.new, Dtx.new]
  att := by simp [Batch.new, Dtx.new]

theorem binv_submit (c : CCfg) (l r : Bool) (b b' : Batch) (tx : CompactTx) (caller : Nat)
    (ok : Bool) (h : BInv c b) (hs : b.submit c l r tx caller = some (b', ok)) : BInv c b' := by
  unfold Batch.submit at hs
  split at hs
  · simp only [Option.some.injEq, Prod.mk.injEq] at hs; exact hs.1 ▸ h
  split at hs
  · simp only [Option.some.injEq, Prod.mk.injEq] at hs; exact hs.1 ▸ h
  rename_i hatt
  split at hs
  · simp only [Option.some.injEq, Prod.mk.injEq] at hs; exact hs.1 ▸ h
  split at hs
  · simp at hs
  split at hs
  · simp only [Option.some.injEq, Prod.mk.injEq] at hs; exact hs.1 ▸ h
  rename_i hdup
  simp only [Option.some.injEq, Prod.mk.injEq] at hs
  obtain ⟨rfl, -⟩ := hs
  have hfull : (b.dtx.addTx c.shards tx).full = b.dtx.full ++ [tx] := rfl
  refine ⟨?_, ?_, ?_, ?_, ?_⟩
  · simp only [hfull]
    rw [h.built, addTx_built]
    rfl
  · intro i q hq
    simp only [hfull] at hq ⊢
    rw [List.getElem?_append] at hq
    split at hq
    · rename_i hlt
      obtain ⟨h1, t, h2, h3⟩ := h.idx i q hq
      refine ⟨h1, t, ?_, h3⟩
      rw [List.getElem?_append_left (by rw [h.len] at hlt; exact hlt)]; exact h2
    · rename_i hge
      have hi : i = b.callers.length := by
        have := (List.getElem?_eq_some_iff.1 hq).1
        simp only [List.length_singleton] at this
        omega
      subst hi
      simp only [Nat.sub_self, List.getElem?_cons_zero, Option.some.injEq] at hq
      subst hq
      exact ⟨h.len.symm, tx, by simp [h.len], rfl⟩
  · simp [hfull, h.len]
  · simp only [hfull, List.map_append, List.map_cons, List.map_nil]
    rw [List.nodup_append]
    refine ⟨h.ids, by simp, ?_⟩
    intro x hx y hy
    simp only [List.mem_singleton] at hy
    subst hy
    intro e
    apply hdup
    rw [List.mem_map] at hx
    obtain ⟨t, ht, rfl⟩ := hx
    obtain ⟨i, hi⟩ := List.mem_iff_getElem?.1 ht
    have hlt := (List.getElem?_eq_some_iff.1 hi).1
    obtain ⟨q, hq⟩ : ∃ q, b.callers[i]? = some q :=
      ⟨_, List.getElem?_eq_getElem (by rw [h.len]; exact hlt)⟩
    obtain ⟨-, t', h2, h3⟩ := h.idx i q hq
    rw [hi, Option.some.injEq] at h2
    subst h2
    rw [List.any_eq_true]
    exact ⟨q, List.mem_of_getElem? hq, by simp [← h3, e]⟩
  · intro t ht
    simp only [hfull, List.mem_append, List.mem_singleton] at ht
    rcases ht with ht | rfl
    · exact h.att t ht
    · simpa using hatt

theorem binv_submits (c : CCfg) (calls : List (Bool × Bool × CompactTx × Nat)) :
    ∀ b, BInv c b → BInv c (b.submits c calls) := by
  induction calls with
  | nil => intro b h; exact h
  | cons q calls ih =>
    obtain ⟨l, r, tx, caller⟩ := q
    intro b h
    simp only [Batch.submits]
    split
    · rename_i b' ok hs
      exact ih b' (binv_submit c l r b b' tx caller ok h hs)
    · exact ih b h

/-! ### C18: what the coordinator reports -/

/-- C18. When a batch built from any sequence of calls has been executed and a caller is told
`some true` (`some false`) about its transaction, then every shard concerned by the transaction
executed (undid) it, and its attestations had passed the coordinator's check. -/
theorem C18_reported_executed (c : CCfg) (d : Hash) (calls : List (Bool × Bool × CompactTx × Nat))
    (b : Batch) (hb : b = (Batch.new c).submits c calls) (w : World)
    (h : Reach ⟨c.shards, d, b.dtx.full, false⟩ w) (e : Exec) (he : e ∈ w.execs)
    (hdone : e.stage = .done) (answers : List (Nat × Option Bool))
    (hr : b.respond (some e.dtx.complete) = some answers) (j : Nat) (caller : Nat) (f : Bool)
    (ha : answers[j]? = some (caller, some f)) :
    ∃ t, b.callers[j]? = some (t.id, caller, j) ∧ b.dtx.full[j]? = some t ∧
      checkAttestations c.crypto t c.keys c.threshold = true ∧
      ∀ i sc, c.shards[i]? = some sc → Concerns sc t →
        w.history i ≠ [] ∧ ∀ x ∈ w.history i, Did sc b.dtx.full j t f x := by
  have hi : BInv c b := hb ▸ binv_submits c calls _ (binv_new c)
  -- the answers are in the order of the callers
  have hm : ∀ (l : List (Hash × Nat × Nat)) (as : List (Nat × Option Bool)),
      (l.mapM fun q => (e.dtx.complete[q.2.2]?).map fun f => (q.2.1, some f)) = some as →
      ∀ (j caller : Nat) (f : Bool), as[j]? = some (caller, some f) →
        ∃ q, l[j]? = some q ∧ q.2.1 = caller ∧ e.dtx.complete[q.2.2]? = some f := by
    intro l
    induction l with
    | nil => intro as has; simp at has; subst has; simp
    | cons q l ih =>
      intro as has
      simp only [List.mapM_cons, Option.pure_def, Option.bind_eq_bind, Option.bind_eq_some_iff,
        Option.some.injEq] at has
      obtain ⟨a, ha, as', has', rfl⟩ := has
      intro j caller f hj
      cases j with
      | zero =>
        simp only [List.getElem?_cons_zero, Option.some.injEq] at hj
        subst hj
        rw [Option.map_eq_some_iff] at ha
        obtain ⟨g, hg, e⟩ := ha
        simp only [Prod.mk.injEq, Option.some.injEq] at e
        exact ⟨q, rfl, e.1, e.2 ▸ hg⟩
      | succ j => exact ih as' has' j caller f hj
  obtain ⟨q, hq, hcaller, hf⟩ := hm b.callers answers hr j caller f ha
  obtain ⟨hidx, t, ht, hid⟩ := hi.idx j q hq
  refine ⟨t, ?_, ht, hi.att t (List.mem_of_getElem? ht), ?_⟩
  · rw [hq, hid, ← hcaller]
    obtain ⟨q1, q2, q3⟩ := q
    simp only at hidx
    simp [hidx]
  · intro i sc hsc hc
    rw [hidx] at hf
    exact C16_all_or_nothing ⟨c.shards, d, b.dtx.full, false⟩ w h e he hdone j t f ht hf i sc hsc hc

/-- Every accepted caller gets exactly one answer when the batch is over. -/
theorem C18_every_caller_answered (c : CCfg) (calls : List (Bool × Bool × CompactTx × Nat))
    (b : Batch) (hb : b = (Batch.new c).submits c calls) (res : Option (List Bool))
    (hl : ∀ D, res = some D → D.length = b.dtx.full.length) :
    ∃ answers, b.respond res = some answers ∧ answers.map (·.1) = b.callers.map (·.2.1) := by
  have hi : BInv c b := hb ▸ binv_submits c calls _ (binv_new c)
  have : ∀ l : List (Hash × Nat × Nat), (∀ q ∈ l, q.2.2 < b.dtx.full.length) →
      ∃ answers, (l.mapM fun q =>
        match res with
        | none => some (q.2.1, none)
        | some D => (D[q.2.2]?).map fun f => (q.2.1, some f)) = some answers ∧
        answers.map (·.1) = l.map (·.2.1) := by
    intro l
    induction l with
    | nil => intro _; exact ⟨[], by simp, rfl⟩
    | cons q l ih =>
      intro hq
      obtain ⟨as, h1, h2⟩ := ih fun x hx => hq x (List.mem_cons_of_mem _ hx)
      have hlt := hq q (List.mem_cons_self ..)
      cases res with
      | none =>
        refine ⟨(q.2.1, none) :: as, ?_, by simp [h2]⟩
        simp only [List.mapM_cons, Option.pure_def, Option.bind_eq_bind]
        simp only at h1
        rw [h1]; rfl
      | some D =>
        have hD : q.2.2 < D.length := by rw [hl D rfl]; exact hlt
        refine ⟨(q.2.1, some D[q.2.2]) :: as, ?_, by simp [h2]⟩
        simp only [List.mapM_cons, Option.pure_def, Option.bind_eq_bind]
        simp only at h1
        rw [h1, List.getElem?_eq_getElem hD]; rfl
  apply this
  intro q hq
  obtain ⟨i, hi'⟩ := List.mem_iff_getElem?.1 hq
  obtain ⟨h1, t, h2, -⟩ := hi.idx i q hi'
  rw [h1]
  exact (List.getElem?_eq_some_iff.1 h2).1

/-- The coordinator of the example. -/
def exC : CCfg := ⟨toy, [], 0, 10, exP.shards⟩
/-- A call while not the leader, two accepted ones and a repeated one. -/
def exCalls : List (Bool × Bool × CompactTx × Nat) :=
  [(false, true, exMove, 0), (true, true, exMove, 1), (true, true, exBad, 2),
    (true, true, exMove, 3)]

/-- The hypotheses above are met: the batch of these calls is the example of `exRun`, and the two
accepted callers are told `true` and `false`. -/
example : ∃ w, Reach ⟨exC.shards, dA, ((Batch.new exC).submits exC exCalls).dtx.full, false⟩ w ∧
    ∃ e ∈ w.execs, e.stage = .done ∧
      ((Batch.new exC).submits exC exCalls).respond (some e.dtx.complete) =
        some [(1, some true), (2, some false)] := by
  obtain ⟨w, h, e, he, hs, hc⟩ := exRun
  exact ⟨w, h, e, he, hs, by rw [hc]; rfl⟩

end Verif.Coordinator
