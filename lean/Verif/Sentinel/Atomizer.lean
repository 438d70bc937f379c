import Verif.Sentinel.TwoPhase
import Verif.LockingShard.Model
import Verif.Atomizer.Props

/-!
Model of `src/uhs/atomizer/sentinel/controller.cpp`. Attestations are gathered as by the two-phase
sentinel (`gather_attestations` and `validate_result_handler` have the same code,
`src/uhs/atomizer/sentinel/controller.cpp:129-170`), so that part of its model is used again; a request that has enough of them
is handed to `send_compact_tx` at once.
-/
namespace Verif.Sentinel.Atomizer

open Verif.Tx
open Verif.LockingShard (inRange)
open Verif.Sentinel.TwoPhase (Cfg S Phase Ev addAttestation enter CtxInv SInv)

/-- The answer to the client, `src/uhs/atomizer/sentinel/controller.cpp:86-108`. -/
inductive Answer where
  | pending
  | staticInvalid (e : TxError)
  deriving DecidableEq

/-- `execute_transaction` and `send_transaction`, `src/uhs/atomizer/sentinel/controller.cpp:86-116`: the answer, given before
anything else has happened, and the state of the request. The left side is undefined behaviour in
the validation. -/
def start (c : Cfg) (tx : FullTx) : Option (Answer × S) :=
  match checkTx c.crypto tx with
  | .err e => some (.staticInvalid e, ⟨.finished, [], []⟩)
  | .ub => none
  | .pass =>
    let ctx := CompactTx.ofFull c.crypto tx
    let ctx := addAttestation ctx (c.sign ctx)
    some (.pending, ⟨enter c ctx [], [], []⟩)

/-- The compact transaction that is handed to `send_compact_tx`, if the request has come that far. -/
def handed (s : S) : Option CompactTx :=
  match s.phase with
  | .sending ctx => some ctx
  | _ => none

/-- What happens to a request until then: choices of remote sentinels and their answers. -/
def gather (c : Cfg) (s : S) (evs : List (Nat × Bool ⊕ Option (PubKey × Sig))) : S :=
  (evs.map fun | .inl (id, ok) => Ev.pick id ok | .inr r => Ev.validated r).foldl (TwoPhase.step c) s

/-- A shard as the sentinel sees it: its range, and whether it is connected when asked
(`src/uhs/atomizer/sentinel/controller.hpp`, `m_shard_data`). -/
structure Shard where
  range : UInt8 × UInt8
  connected : Bool

/-- The inner loop of `send_compact_tx`, `src/uhs/atomizer/sentinel/controller.cpp:190-200`, for the inputs with index in
`js`. Line 195 reads the input at the position `i` of the shard loop; `none` is a read outside the
vector. -/
def inner (range : UInt8 × UInt8) (inputs : List Hash) (i : Nat) :
    List Nat → List Nat → Bool → Option (List Nat × Bool)
  | [], sent, should => some (sent, should)
  | j :: js, sent, should =>
    if j ∈ sent then inner range inputs i js sent should
    else
      match inputs[i]? with
      | none => none
      | some x =>
        if !inRange range x then inner range inputs i js sent should
        else inner range inputs i js (j :: sent) true

/-- The outer loop of `send_compact_tx`, `src/uhs/atomizer/sentinel/controller.cpp:180-204`, for the positions in `is`: the
shards (by index) that the transaction is sent to. -/
def outer (shards : List Shard) (inputs : List Hash) (offset : Nat) :
    List Nat → List Nat → Option (List Nat)
  | [], _ => some []
  | i :: is, sent =>
    let idx := (i + offset) % shards.length
    match shards[idx]? with
    | none => none
    | some s =>
      if sent.length = inputs.length then some []
      else if !s.connected then outer shards inputs offset is sent
      else
        match inner s.range inputs i (List.range inputs.length) sent false with
        | none => none
        | some (sent', should) =>
          match outer shards inputs offset is sent' with
          | none => none
          | some l => some (if should then idx :: l else l)

/-- `send_compact_tx`, `src/uhs/atomizer/sentinel/controller.cpp:172-205`. -/
def sendCompactTx (shards : List Shard) (inputs : List Hash) (offset : Nat) : Option (List Nat) :=
  outer shards inputs offset (List.range shards.length) []

/-! ### C28 -/

/-- Every input that a connected shard is responsible for reaches such a shard. -/
def Reaches (shards : List Shard) (inputs : List Hash) (sent : List Nat) : Prop :=
  ∀ x ∈ inputs, (∃ s ∈ shards, s.connected ∧ inRange s.range x) →
    ∃ idx ∈ sent, ∃ s, shards[idx]? = some s ∧ s.connected ∧ inRange s.range x

/-- Two shards sharing the space of hashes. -/
def halves : List Shard := [⟨(0, 127), true⟩, ⟨(128, 255), true⟩]

/-- C28. With two inputs on two shards only one shard gets the transaction, although both are
connected; the other input is never attested. -/
theorem C28_violated :
    sendCompactTx halves [fill 32 1, fill 32 200] 0 = some [0] ∧
    ¬ Reaches halves [fill 32 1, fill 32 200] [0] := by
  refine ⟨by decide, ?_⟩
  intro h
  obtain ⟨idx, h1, s, h2, h3, h4⟩ := h (fill 32 200) (by simp) ⟨⟨(128, 255), true⟩, by simp [halves], rfl, by decide⟩
  simp at h1
  subst h1
  simp [halves] at h2
  subst h2
  exact absurd h4 (by decide)

/-- C28. A transaction with a single input on the second of two shards makes the sentinel read
outside the list of inputs. -/
theorem C28_out_of_bounds_violated : sendCompactTx halves [fill 32 200] 0 = none := by decide

theorem inner_none {range : UInt8 × UInt8} {inputs : List Hash} {i : Nat} (hi : i < inputs.length)
    (hr : ∀ x ∈ inputs, inRange range x = false) (js : List Nat) :
    ∀ sent should, inner range inputs i js sent should = some (sent, should) := by
  have hx : inputs[i]? = some inputs[i] := List.getElem?_eq_getElem hi
  induction js with
  | nil => intro sent should; rfl
  | cons j js ih =>
    intro sent should
    unfold inner
    rw [hx]
    simp [hr _ (List.getElem_mem hi), ih]

theorem inner_all {range : UInt8 × UInt8} {inputs : List Hash} {i : Nat} (hi : i < inputs.length)
    (hr : ∀ x ∈ inputs, inRange range x = true) (js : List Nat) :
    ∀ sent should, js.Nodup → (∀ j ∈ js, j ∉ sent) →
      inner range inputs i js sent should = some (js.reverse ++ sent, should || !js.isEmpty) := by
  have hx : inputs[i]? = some inputs[i] := List.getElem?_eq_getElem hi
  induction js with
  | nil => intro sent should _ _; simp [inner]
  | cons j js ih =>
    intro sent should hn hd
    have hn' := List.nodup_cons.mp hn
    unfold inner
    rw [if_neg (hd j (by simp)), hx]
    simp only [hr _ (List.getElem_mem hi)]
    simp only [Bool.not_true, Bool.false_eq_true, if_false]
    rw [ih _ _ hn'.2 ?_]
    · simp
    · intro k hk hc
      rcases List.mem_cons.mp hc with hc | hc
      · subst hc; exact hn'.1 hk
      · exact hd k (by simp [hk]) hc

/-- C28. If there are at least as many inputs as shards and no shard's range splits the inputs, then
the transaction is sent, only to connected shards, so that every input reaches a shard responsible
for it. Missing: the general case, in which the claim is false (`C28_violated`,
`C28_out_of_bounds_violated`). -/
theorem C28_partial (shards : List Shard) (inputs : List Hash) (offset : Nat)
    (hlen : shards.length ≤ inputs.length)
    (huni : ∀ s ∈ shards, (∀ x ∈ inputs, inRange s.range x) ∨ ∀ x ∈ inputs, inRange s.range x = false) :
    ∃ sent, sendCompactTx shards inputs offset = some sent ∧ Reaches shards inputs sent ∧
      ∀ idx ∈ sent, ∃ s, shards[idx]? = some s ∧ s.connected := by
  have hfull : ∀ (is : List Nat) (sent : List Nat), sent.length = inputs.length → (∀ i ∈ is, i < shards.length) →
      outer shards inputs offset is sent = some [] := by
    intro is sent hs his
    cases is with
    | nil => rfl
    | cons i is =>
      have hpos : 0 < shards.length := by have := his i (by simp); omega
      unfold outer
      simp only
      rw [List.getElem?_eq_getElem (Nat.mod_lt _ hpos)]
      simp [hs]
  have key : ∀ is : List Nat, (∀ i ∈ is, i < shards.length) → inputs ≠ [] →
      ∃ sent, outer shards inputs offset is [] = some sent ∧
        (∀ idx ∈ sent, ∃ s, shards[idx]? = some s ∧ s.connected ∧ ∀ x ∈ inputs, inRange s.range x) ∧
        ((∃ i ∈ is, ∃ s, shards[(i + offset) % shards.length]? = some s ∧ s.connected ∧
          ∃ x ∈ inputs, inRange s.range x) → sent ≠ []) := by
    intro is
    induction is with
    | nil => intro _ _; exact ⟨[], rfl, by simp, by simp⟩
    | cons i is ih =>
      intro his hne
      have hi := his i (by simp)
      have hpos : 0 < shards.length := by omega
      have hil : i < inputs.length := by omega
      obtain ⟨rest, r1, r2, r3⟩ := ih (fun j hj => his j (by simp [hj])) hne
      have hidx : (i + offset) % shards.length < shards.length := Nat.mod_lt _ hpos
      have hget := List.getElem?_eq_getElem hidx
      generalize hs : shards[(i + offset) % shards.length] = s at hget
      have hmem : s ∈ shards := by rw [← hs]; exact List.getElem_mem hidx
      have hl0 : ¬ (([] : List Nat).length = inputs.length) := by
        intro h
        exact hne (List.eq_nil_of_length_eq_zero h.symm)
      unfold outer
      simp only [hget]
      rw [if_neg hl0]
      by_cases hc : s.connected
      · rw [if_neg (by simp [hc])]
        rcases huni s hmem with hu | hu
        · rw [inner_all hil hu _ _ _ List.nodup_range (by simp)]
          have hne' : (List.range inputs.length).isEmpty = false := by
            cases inputs with
            | nil => exact absurd rfl hne
            | cons a l => simp
          have hf := hfull is ((List.range inputs.length).reverse ++ []) (by simp) (fun j hj => his j (by simp [hj]))
          simp only [hf, hne']
          refine ⟨_, rfl, ?_, by simp⟩
          intro idx hidx'
          simp at hidx'
          subst hidx'
          exact ⟨s, hget, hc, hu⟩
        · rw [inner_none hil hu]
          simp only [r1]
          refine ⟨rest, rfl, r2, ?_⟩
          rintro ⟨j, hj, s', k1, k2, x, hx, k3⟩
          rcases List.mem_cons.mp hj with hj | hj
          · subst hj
            rw [hget] at k1
            cases k1
            rw [hu x hx] at k3
            simp at k3
          · exact r3 ⟨j, hj, s', k1, k2, x, hx, k3⟩
      · rw [if_pos (by simp [hc])]
        refine ⟨rest, r1, r2, ?_⟩
        rintro ⟨j, hj, s', k1, k2, x, hx, k3⟩
        rcases List.mem_cons.mp hj with hj | hj
        · subst hj
          rw [hget] at k1
          cases k1
          exact absurd k2 hc
        · exact r3 ⟨j, hj, s', k1, k2, x, hx, k3⟩
  by_cases hne : inputs = []
  · have : shards = [] := by
      rw [hne] at hlen
      exact List.eq_nil_of_length_eq_zero (by simpa using hlen)
    subst this hne
    exact ⟨[], rfl, by intro x hx; simp at hx, by simp⟩
  · obtain ⟨sent, h1, h2, h3⟩ := key (List.range shards.length) (fun i hi => List.mem_range.mp hi) hne
    refine ⟨sent, h1, ?_, fun idx hidx => by
      obtain ⟨s, k1, k2, _⟩ := h2 idx hidx
      exact ⟨s, k1, k2⟩⟩
    rintro x hx ⟨s, hs, hc, hr⟩
    have hnonempty : sent ≠ [] := by
      apply h3
      obtain ⟨idx, hidx⟩ := List.getElem?_of_mem hs
      have hlt : idx < shards.length := (List.getElem?_eq_some_iff.mp hidx).1
      -- the position at which the rotation visits this shard
      refine ⟨(idx + (shards.length - offset % shards.length)) % shards.length,
        List.mem_range.mpr (Nat.mod_lt _ (by omega)), s, ?_, hc, x, hx, hr⟩
      have hom : offset % shards.length < shards.length := Nat.mod_lt _ (by omega)
      have : ((idx + (shards.length - offset % shards.length)) % shards.length + offset) % shards.length
          = idx := by
        rw [Nat.mod_add_mod]
        have e : idx + (shards.length - offset % shards.length) + offset =
            idx + shards.length * (offset / shards.length + 1) := by
          have := Nat.div_add_mod offset shards.length
          rw [Nat.mul_add, Nat.mul_one]
          omega
        rw [e, Nat.add_mul_mod_self_left, Nat.mod_eq_of_lt hlt]
      rw [this]
      exact hidx
    obtain ⟨idx, rest, rfl⟩ := List.exists_cons_of_ne_nil hnonempty
    obtain ⟨s', k1, k2, k3⟩ := h2 idx (by simp)
    exact ⟨idx, by simp, s', k1, k2, k3 x hx⟩

example : sendCompactTx [⟨(0, 255), false⟩, ⟨(0, 255), true⟩] [fill 32 1, fill 32 200] 2 = some [1] := by
  decide

/-! ### C64 -/

theorem gather_inv (c : Cfg) (tx : FullTx) (s : S) (h : SInv c tx s [])
    (evs : List (Nat × Bool ⊕ Option (PubKey × Sig))) : SInv c tx (gather c s evs)
      (evs.map fun | .inl (id, ok) => Ev.pick id ok | .inr r => Ev.validated r) := by
  unfold gather
  generalize (evs.map fun | .inl (id, ok) => Ev.pick id ok | .inr r => Ev.validated r) = l
  have key : ∀ (post pre : List Ev) (s : S), SInv c tx s pre →
      SInv c tx (post.foldl (TwoPhase.step c) s) (pre ++ post) := by
    intro post
    induction post with
    | nil => intro pre s h; simpa using h
    | cons e post ih =>
      intro pre s h
      have := ih (pre ++ [e]) _ (TwoPhase.inv_step c tx s pre e h)
      simpa using this
  simpa using key l [] s h

/-- **C64.** The atomizer sentinel tells a client "pending" exactly for the transactions that pass
static validation. What it sends to the shards is the compact form of such a transaction, with
attestations under at least `threshold` different keys, each its own or the answer of a remote
sentinel. -/
theorem C64_forwarded (c : Cfg) (tx : FullTx) (a : Answer) (s : S)
    (evs : List (Nat × Bool ⊕ Option (PubKey × Sig))) (hs : start c tx = some (a, s)) :
    (a = .pending ↔ checkTx c.crypto tx = .pass) ∧
    ∀ ctx, handed (gather c s evs) = some ctx →
      a = .pending ∧ { ctx with attestations := [] } = CompactTx.ofFull c.crypto tx ∧
      c.threshold ≤ ctx.attestations.length ∧ (ctx.attestations.map (·.1)).Nodup ∧
      ∀ x ∈ ctx.attestations, x = c.sign (CompactTx.ofFull c.crypto tx) ∨ .inr (some x) ∈ evs := by
  have hans : a = .pending ↔ checkTx c.crypto tx = .pass := by
    unfold start at hs
    split at hs
    · rename_i e he; simp at hs; simp [← hs.1, he]
    · simp at hs
    · rename_i he; simp at hs; simp [← hs.1, he]
  refine ⟨hans, ?_⟩
  intro ctx hctx
  have hfin : checkTx c.crypto tx = .pass := by
    unfold start at hs
    split at hs
    · simp only [Option.some.injEq, Prod.mk.injEq] at hs
      obtain ⟨-, rfl⟩ := hs
      have : ∀ (l : List Ev) (s : S), s.phase = .finished → (l.foldl (TwoPhase.step c) s).phase = .finished := by
        intro l
        induction l with
        | nil => intro s h; exact h
        | cons e l ih =>
          intro s h
          refine ih _ ?_
          unfold TwoPhase.step
          rw [h]
          cases e <;> exact h
      unfold handed gather at hctx
      rw [this _ _ rfl] at hctx
      simp at hctx
    · simp at hs
    · assumption
  have h0 : SInv c tx s [] := by
    unfold start at hs
    rw [hfin] at hs
    simp only [Option.some.injEq, Prod.mk.injEq] at hs
    obtain ⟨-, rfl⟩ := hs
    have h0 : CtxInv c tx (CompactTx.ofFull c.crypto tx) [] :=
      ⟨⟨rfl, rfl, rfl⟩, by simp [CompactTx.ofFull], by simp [CompactTx.ofFull]⟩
    apply TwoPhase.inv_enter c tx _ [] [] hfin
    · exact h0.add _ (Or.inl rfl)
    · have := (TwoPhase.addAttestation_length (CompactTx.ofFull c.crypto tx)
        (c.sign (CompactTx.ofFull c.crypto tx))).2
      simpa [CompactTx.ofFull] using this
    · simp
  have hi := gather_inv c tx s h0 evs
  have hph : (gather c s evs).phase = .sending ctx := by
    unfold handed at hctx
    split at hctx
    · rename_i h; simp at hctx; rw [h, hctx]
    · simp at hctx
  obtain ⟨_, k1, k2⟩ := hi.pass.2.2 ctx hph
  refine ⟨hans.mpr hfin, ?_, k2, k1.keys, ?_⟩
  · obtain ⟨s1, s2, s3⟩ := k1.same
    rw [s1, s2, s3]; rfl
  · intro x hx
    rcases k1.origin x hx with h | h
    · exact .inl h
    · right
      obtain ⟨ev, h1, h2⟩ := List.mem_map.mp h
      cases ev with
      | inl p => simp at h2
      | inr r => simp at h2; subst h2; exact h1

/-- C64. If a remote sentinel refuses, the transaction is dropped: nothing is sent however the run
goes on, although the client was told "pending". -/
theorem C64_refused (c : Cfg) (s : S) (ctx : CompactTx) (r : List Nat) (id : Nat)
    (evs : List (Nat × Bool ⊕ Option (PubKey × Sig))) (hp : s.phase = .asked ctx r id) :
    handed (gather c s (.inr none :: evs)) = none := by
  have : ∀ (l : List Ev) (s : S), s.phase = .finished → (l.foldl (TwoPhase.step c) s).phase = .finished := by
    intro l
    induction l with
    | nil => intro s h; exact h
    | cons e l ih =>
      intro s h
      refine ih _ ?_
      unfold TwoPhase.step
      rw [h]
      cases e <;> exact h
  unfold handed gather
  rw [List.map_cons, List.foldl_cons, this _ _ (by unfold TwoPhase.step; rw [hp])]

/-- The theorems above are about runs such as this one. -/
example : ∃ s ctx, start TwoPhase.exSentinel exTx = some (.pending, s) ∧
    handed (gather TwoPhase.exSentinel s [.inl (0, false), .inl (0, true), .inr (some (fill 32 2, fill 64 2))])
      = some ctx ∧ ctx.attestations.length = 2 := by
  refine ⟨_, _, rfl, rfl, ?_⟩
  decide

end Verif.Sentinel.Atomizer
