import Verif.Tx.Props
import Verif.Util.CacheSet

/-!
Model of `src/uhs/twophase/sentinel_2pc/controller.cpp`: the life of one
`execute_transaction` request. The random choice of a remote sentinel, whether
a request could be sent, and the replies are events. A callback is invoked at
most once by the RPC client (property C35).
-/
namespace Verif.Sentinel.TwoPhase

open Verif.Tx

/-- The members that matter, `src/uhs/twophase/sentinel_2pc/controller.hpp:88-108`. `sign` is `compact_tx::sign` with this
sentinel's key. -/
structure Cfg where
  crypto : Crypto
  sign : CompactTx → PubKey × Sig
  threshold : Nat
  /-- number of clients for remote sentinels, `m_sentinel_clients` -/
  remotes : Nat

/-- What a caller is told: no response (`std::nullopt`), or a status,
`src/uhs/sentinel/interface.hpp:20-40`. -/
inductive Answer where
  | noResponse
  | staticInvalid (e : TxError)
  | confirmed
  | stateInvalid
  deriving DecidableEq

/-- `m_attestations.insert`: an unordered map, an existing key is kept. -/
def addAttestation (t : CompactTx) (a : PubKey × Sig) : CompactTx :=
  if a.1 ∈ t.attestations.map (·.1) then t
  else { t with attestations := t.attestations ++ [a] }

/-- Where a request is. -/
inductive Phase where
  /-- in the loop of `gather_attestations`, looking for a sentinel to ask -/
  | gathering (ctx : CompactTx) (requested : List Nat)
  /-- waiting for the reply of a remote sentinel -/
  | asked (ctx : CompactTx) (requested : List Nat) (id : Nat)
  /-- in the loop of `send_compact_tx` -/
  | sending (ctx : CompactTx)
  /-- waiting for the coordinator -/
  | waiting (ctx : CompactTx)
  | finished
  /-- access out of bounds -/
  | ub

/-- The state of a request: where it is, what was answered, what was sent to the coordinator. -/
structure S where
  phase : Phase
  answers : List Answer
  forwarded : List CompactTx

/-- Things that happen. -/
inductive Ev where
  /-- `m_dist(m_rand)` yields `id`; `sent` is the result of sending the request -/
  | pick (id : Nat) (sent : Bool)
  /-- reply of the remote sentinel -/
  | validated (r : Option (PubKey × Sig))
  /-- one iteration of the sending loop -/
  | send (ok : Bool)
  /-- reply of the coordinator -/
  | executed (r : Option Bool)

/-- The head of `gather_attestations`, `src/uhs/twophase/sentinel_2pc/controller.cpp:181` and `:204-206`. -/
def enter (c : Cfg) (ctx : CompactTx) (requested : List Nat) : Phase :=
  if ctx.attestations.length < c.threshold then .gathering ctx requested else .sending ctx

/-- `execute_transaction`, `src/uhs/twophase/sentinel_2pc/controller.cpp:98-125`. -/
def start (c : Cfg) (tx : FullTx) : S :=
  match checkTx c.crypto tx with
  | .err e => ⟨.finished, [.staticInvalid e], []⟩
  | .ub => ⟨.ub, [], []⟩
  | .pass =>
    let ctx := CompactTx.ofFull c.crypto tx
    let ctx := if c.threshold > 0 then addAttestation ctx (c.sign ctx) else ctx
    ⟨enter c ctx [], [], []⟩

/-- `gather_attestations` (`src/uhs/twophase/sentinel_2pc/controller.cpp:176-207`), `validate_result_handler` (`:157-174`),
`send_compact_tx` (`:209-227`), `result_handler` (`:127-141`). Events that do not concern the
current phase cannot happen and are ignored. -/
def step (c : Cfg) (s : S) (e : Ev) : S :=
  match s.phase, e with
  | .gathering ctx requested, .pick id sent =>
    if id ∈ requested then s
    else if c.remotes ≤ id then { s with phase := .ub }
    else if sent then { s with phase := .asked ctx requested id }
    else s
  | .asked ctx requested id, .validated r =>
    match r with
    | none => { s with phase := .finished, answers := s.answers ++ [.noResponse] }
    | some a => { s with phase := enter c (addAttestation ctx a) (id :: requested) }
  | .sending ctx, .send ok =>
    if ok then { s with phase := .waiting ctx, forwarded := s.forwarded ++ [ctx] } else s
  | .waiting _, .executed r =>
    { s with
      phase := .finished
      answers := s.answers ++
        [match r with
          | some true => .confirmed
          | some false => .stateInvalid
          | none => .noResponse] }
  | _, _ => s

/-- A request and what happens to it. -/
def run (c : Cfg) (tx : FullTx) (evs : List Ev) : S := evs.foldl (step c) (start c tx)

/-- `validate_transaction`, `src/uhs/twophase/sentinel_2pc/controller.cpp:143-155`. -/
def validateTransaction (c : Cfg) (tx : FullTx) : Option (Option (PubKey × Sig)) :=
  match checkTx c.crypto tx with
  | .pass => some (some (c.sign (CompactTx.ofFull c.crypto tx)))
  | .err _ => some none
  | .ub => none

/-! ### Invariant -/

/-- What is known of the compact transaction at any time. -/
structure CtxInv (c : Cfg) (tx : FullTx) (ctx : CompactTx) (evs : List Ev) : Prop where
  same : ctx.id = txId c.crypto tx ∧ ctx.inputs = (CompactTx.ofFull c.crypto tx).inputs ∧
    ctx.uhsOutputs = (CompactTx.ofFull c.crypto tx).uhsOutputs
  keys : (ctx.attestations.map (·.1)).Nodup
  origin : ∀ a ∈ ctx.attestations, a = c.sign (CompactTx.ofFull c.crypto tx) ∨
    .validated (some a) ∈ evs

/-- The invariant of a request. -/
structure SInv (c : Cfg) (tx : FullTx) (s : S) (evs : List Ev) : Prop where
  notStatic : s.answers ≠ [] ∨ s.forwarded ≠ [] ∨ s.phase ≠ .finished
  valid : (∀ e, .staticInvalid e ∈ s.answers → checkTx c.crypto tx = .err e) ∧
    (s.forwarded ≠ [] → checkTx c.crypto tx = .pass)
  pass : (∀ ctx r, s.phase = .gathering ctx r → checkTx c.crypto tx = .pass ∧
        CtxInv c tx ctx evs ∧ ctx.attestations.length ≤ r.length + 1) ∧
      (∀ ctx r id, s.phase = .asked ctx r id → checkTx c.crypto tx = .pass ∧
        CtxInv c tx ctx evs ∧ ctx.attestations.length ≤ r.length + 1 ∧ id ∉ r ∧ id < c.remotes) ∧
      (∀ ctx, s.phase = .sending ctx → checkTx c.crypto tx = .pass ∧
        CtxInv c tx ctx evs ∧ c.threshold ≤ ctx.attestations.length)
  open_ : s.phase ≠ .finished → s.answers = []
  once : s.answers.length ≤ 1
  unsent : (∀ ctx r, s.phase = .gathering ctx r → s.forwarded = []) ∧
    (∀ ctx r id, s.phase = .asked ctx r id → s.forwarded = []) ∧
    (∀ ctx, s.phase = .sending ctx → s.forwarded = [])
  sent : s.forwarded.length ≤ 1 ∧ ∀ ctx ∈ s.forwarded, CtxInv c tx ctx evs ∧
    c.threshold ≤ ctx.attestations.length
  confirmed : .confirmed ∈ s.answers → s.forwarded ≠ [] ∧ .executed (some true) ∈ evs
  refused : .stateInvalid ∈ s.answers → s.forwarded ≠ [] ∧ .executed (some false) ∈ evs
  wait : ∀ ctx, s.phase = .waiting ctx → s.forwarded ≠ []
  req : (∀ ctx r, s.phase = .gathering ctx r → r.Nodup ∧ ∀ i ∈ r, i < c.remotes) ∧
    (∀ ctx r id, s.phase = .asked ctx r id → r.Nodup ∧ ∀ i ∈ r, i < c.remotes)

theorem CtxInv.mono {c : Cfg} {tx : FullTx} {ctx : CompactTx} {evs : List Ev} (e : Ev)
    (h : CtxInv c tx ctx evs) : CtxInv c tx ctx (evs ++ [e]) :=
  ⟨h.same, h.keys, fun a ha => (h.origin a ha).imp id fun g => List.mem_append_left _ g⟩

theorem CtxInv.add {c : Cfg} {tx : FullTx} {ctx : CompactTx} {evs : List Ev} (a : PubKey × Sig)
    (h : CtxInv c tx ctx evs)
    (ha : a = c.sign (CompactTx.ofFull c.crypto tx) ∨ .validated (some a) ∈ evs) :
    CtxInv c tx (addAttestation ctx a) evs := by
  unfold addAttestation
  split
  · exact h
  · rename_i hn
    refine ⟨h.same, ?_, ?_⟩
    · simp only [List.map_append, List.map_cons, List.map_nil]
      rw [List.nodup_append]
      refine ⟨h.keys, by simp, ?_⟩
      intro x hx y hy
      simp only [List.mem_singleton] at hy
      subst hy
      intro e; exact hn (e ▸ hx)
    · intro b hb
      simp only [List.mem_append, List.mem_singleton] at hb
      rcases hb with hb | rfl
      · exact h.origin b hb
      · exact ha

theorem addAttestation_length (t : CompactTx) (a : PubKey × Sig) :
    t.attestations.length ≤ (addAttestation t a).attestations.length ∧
      (addAttestation t a).attestations.length ≤ t.attestations.length + 1 := by
  unfold addAttestation
  split <;> simp

theorem enter_cases (c : Cfg) (ctx : CompactTx) (r : List Nat) :
    (enter c ctx r = .gathering ctx r ∧ ctx.attestations.length < c.threshold) ∨
      (enter c ctx r = .sending ctx ∧ c.threshold ≤ ctx.attestations.length) := by
  unfold enter
  split
  · rename_i h; exact Or.inl ⟨rfl, h⟩
  · rename_i h; exact Or.inr ⟨rfl, by omega⟩

theorem inv_enter (c : Cfg) (tx : FullTx) (ctx : CompactTx) (r : List Nat) (evs : List Ev)
    (hp : checkTx c.crypto tx = .pass) (hc : CtxInv c tx ctx evs)
    (hl : ctx.attestations.length ≤ r.length + 1) (hr : r.Nodup ∧ ∀ i ∈ r, i < c.remotes) :
    SInv c tx ⟨enter c ctx r, [], []⟩ evs := by
  rcases enter_cases c ctx r with ⟨h, -⟩ | ⟨h, ht⟩ <;> rw [h] <;>
    constructor <;> simp_all

theorem inv_start (c : Cfg) (tx : FullTx) : SInv c tx (start c tx) [] := by
  unfold start
  split
  · rename_i e he
    constructor <;> simp_all
  · constructor <;> simp_all
  · rename_i hp
    have h0 : CtxInv c tx (CompactTx.ofFull c.crypto tx) [] :=
      ⟨⟨rfl, rfl, rfl⟩, by simp [CompactTx.ofFull], by simp [CompactTx.ofFull]⟩
    apply inv_enter c tx _ [] [] hp
    · split
      · exact h0.add _ (Or.inl rfl)
      · exact h0
    · split
      · have := (addAttestation_length (CompactTx.ofFull c.crypto tx)
          (c.sign (CompactTx.ofFull c.crypto tx))).2
        simpa [CompactTx.ofFull] using this
      · simp [CompactTx.ofFull]
    · simp

theorem SInv.mono {c : Cfg} {tx : FullTx} {s : S} {evs : List Ev} (e : Ev) (h : SInv c tx s evs) :
    SInv c tx s (evs ++ [e]) where
  notStatic := h.notStatic
  valid := h.valid
  pass := ⟨fun ctx r hp => let q := h.pass.1 ctx r hp; ⟨q.1, q.2.1.mono e, q.2.2⟩,
    fun ctx r id hp => let q := h.pass.2.1 ctx r id hp; ⟨q.1, q.2.1.mono e, q.2.2⟩,
    fun ctx hp => let q := h.pass.2.2 ctx hp; ⟨q.1, q.2.1.mono e, q.2.2⟩⟩
  open_ := h.open_
  once := h.once
  unsent := h.unsent
  sent := ⟨h.sent.1, fun ctx hc => ⟨(h.sent.2 ctx hc).1.mono e, (h.sent.2 ctx hc).2⟩⟩
  confirmed hc := ⟨(h.confirmed hc).1, List.mem_append_left _ (h.confirmed hc).2⟩
  refused hc := ⟨(h.refused hc).1, List.mem_append_left _ (h.refused hc).2⟩
  wait := h.wait
  req := h.req

theorem inv_step (c : Cfg) (tx : FullTx) (s : S) (evs : List Ev) (e : Ev) (h : SInv c tx s evs) :
    SInv c tx (step c s e) (evs ++ [e]) := by
  obtain ⟨ph, ans, fwd⟩ := s
  unfold step
  split
  · -- pick
    rename_i ctx r id sent hph
    simp only at hph
    subst hph
    split
    · exact h.mono _
    · rename_i hid
      split
      · have h' := h.mono (.pick id sent)
        have hf := h.unsent.1 ctx r rfl
        have ho := h.open_ (by simp)
        simp only at hf ho
        subst hf ho
        constructor <;> simp
      · rename_i hlt
        split
        · have h' := h.mono (.pick id sent)
          obtain ⟨p1, p2, p3⟩ := h'.pass.1 ctx r rfl
          obtain ⟨q1, q2⟩ := h.req.1 ctx r rfl
          have hf := h.unsent.1 ctx r rfl
          have ho := h.open_ (by simp)
          simp only at hf ho
          subst hf ho
          constructor <;> simp_all
        · exact h.mono _
  · -- validated
    rename_i ctx r id v hph
    simp only at hph
    subst hph
    have h' := h.mono (.validated v)
    obtain ⟨p1, p2, p3, p4, p5⟩ := h'.pass.2.1 ctx r id rfl
    obtain ⟨q1, q2⟩ := h.req.2 ctx r id rfl
    have hf := h.unsent.2.1 ctx r id rfl
    have ho := h.open_ (by simp)
    simp only at hf ho
    subst hf ho
    split
    · constructor <;> simp_all
    · rename_i a
      apply inv_enter c tx _ _ _ p1
      · exact p2.add a (Or.inr (by simp))
      · have := (addAttestation_length ctx a).2
        simp only [List.length_cons]; omega
      · exact ⟨List.nodup_cons.2 ⟨p4, q1⟩, by simpa using ⟨p5, q2⟩⟩
  · -- send
    rename_i ctx ok hph
    simp only at hph
    subst hph
    split
    · have h' := h.mono (.send ok)
      obtain ⟨p1, p2, p3⟩ := h'.pass.2.2 ctx rfl
      have hf := h.unsent.2.2 ctx rfl
      have ho := h.open_ (by simp)
      simp only at hf ho
      subst hf ho
      constructor <;> simp_all
    · exact h.mono _
  · -- executed
    rename_i ctx r hph
    simp only at hph
    subst hph
    have h' := h.mono (.executed r)
    have hw := h.wait ctx rfl
    have ho := h.open_ (by simp)
    simp only at hw ho
    subst ho
    have hsent := h'.sent
    have hval := h'.valid
    simp only at hsent hval
    rcases r with _ | _ | _ <;> constructor <;> simp_all
  · exact h.mono _

theorem inv_run (c : Cfg) (tx : FullTx) (evs : List Ev) : SInv c tx (run c tx evs) evs := by
  have : ∀ (post pre : List Ev) (s : S), SInv c tx s pre →
      SInv c tx (post.foldl (step c) s) (pre ++ post) := by
    intro post
    induction post with
    | nil => intro pre s h; simpa using h
    | cons e post ih =>
      intro pre s h
      have := ih (pre ++ [e]) _ (inv_step c tx s pre e h)
      simpa using this
  simpa [run] using this evs [] _ (inv_start c tx)

/-! ### C18 -/

/-- Two sentinels, two attestations wanted. -/
def exSentinel : Cfg := ⟨toy, fun _ => (fill 32 1, fill 64 1), 2, 1⟩

/-- The events of a confirmed transaction. -/
def exEvents : List Ev :=
  [.pick 0 false, .pick 0 true, .validated (some (fill 32 2, fill 64 2)), .send false, .send true,
    .executed (some true)]

/-- The theorems below are about runs such as this one. -/
example : (run exSentinel exTx exEvents).answers = [.confirmed] ∧
    (run exSentinel exTx exEvents).forwarded.length = 1 := by decide

/-- C18. A caller is told `confirmed` only after the transaction was sent to the coordinator and
the coordinator reported success; `state invalid` only after it reported failure; `static
invalid` only if the transaction is malformed. -/
theorem C18_status (c : Cfg) (tx : FullTx) (evs : List Ev) :
    (.confirmed ∈ (run c tx evs).answers →
      (run c tx evs).forwarded ≠ [] ∧ .executed (some true) ∈ evs) ∧
    (.stateInvalid ∈ (run c tx evs).answers →
      (run c tx evs).forwarded ≠ [] ∧ .executed (some false) ∈ evs) ∧
    (∀ e, .staticInvalid e ∈ (run c tx evs).answers → checkTx c.crypto tx = .err e) :=
  ⟨(inv_run c tx evs).confirmed, (inv_run c tx evs).refused, (inv_run c tx evs).valid.1⟩

/-- C18. What is sent to the coordinator is the compact form of a transaction that passes static
validation; it carries attestations under at least `threshold` different keys, each made by this
sentinel or received from a remote one. -/
theorem C18_forwarded (c : Cfg) (tx : FullTx) (evs : List Ev) (ctx : CompactTx)
    (h : ctx ∈ (run c tx evs).forwarded) :
    checkTx c.crypto tx = .pass ∧
      { ctx with attestations := [] } = CompactTx.ofFull c.crypto tx ∧
      c.threshold ≤ ctx.attestations.length ∧ (ctx.attestations.map (·.1)).Nodup ∧
      ∀ a ∈ ctx.attestations, a = c.sign (CompactTx.ofFull c.crypto tx) ∨
        .validated (some a) ∈ evs := by
  have hi := inv_run c tx evs
  obtain ⟨h1, h2⟩ := hi.sent.2 ctx h
  refine ⟨hi.valid.2 (List.ne_nil_of_mem h), ?_, h2, h1.keys, h1.origin⟩
  obtain ⟨s1, s2, s3⟩ := h1.same
  rw [s1, s2, s3]; rfl

/-- C18. A request is answered at most once and sent to the coordinator at most once. -/
theorem C18_once (c : Cfg) (tx : FullTx) (evs : List Ev) :
    (run c tx evs).answers.length ≤ 1 ∧ (run c tx evs).forwarded.length ≤ 1 :=
  ⟨(inv_run c tx evs).once, (inv_run c tx evs).sent.1⟩

/-- C18. A sentinel attests only to transactions that pass static validation. -/
theorem C18_attests_valid (c : Cfg) (tx : FullTx) (a : PubKey × Sig)
    (h : validateTransaction c tx = some (some a)) :
    checkTx c.crypto tx = .pass ∧ a = c.sign (CompactTx.ofFull c.crypto tx) := by
  unfold validateTransaction at h
  split at h <;> simp_all

/-- Finding: with a threshold above the number of sentinels no transaction is ever sent to the
coordinator; once all remote sentinels have answered, the request loops for ever. -/
theorem C18_threshold_too_high_violated (c : Cfg) (tx : FullTx) (evs : List Ev)
    (h : c.remotes + 1 < c.threshold) : (run c tx evs).forwarded = [] := by
  have hi : ∀ evs, (∀ ctx, (run c tx evs).phase ≠ .sending ctx) ∧ (run c tx evs).forwarded = [] := by
    intro evs
    -- the number of attestations is bounded by the number of sentinels asked
    have hb : ∀ ctx r, r.Nodup → (∀ i ∈ r, i < c.remotes) →
        (ctx : CompactTx).attestations.length ≤ r.length + 1 →
        enter c ctx r = .gathering ctx r := by
      intro ctx r h1 h2 h3
      have : r.length ≤ c.remotes := by
        have := Verif.Util.length_le_of_subset (ks := r) (l := List.range c.remotes) h1
          (fun i hi => List.mem_range.2 (h2 i hi))
        simpa using this
      unfold enter
      rw [if_pos (by omega)]
    have key : ∀ (post pre : List Ev) (s : S), SInv c tx s pre →
        (∀ ctx, s.phase ≠ .sending ctx) → s.forwarded = [] →
        (∀ ctx, (post.foldl (step c) s).phase ≠ .sending ctx) ∧
          (post.foldl (step c) s).forwarded = [] := by
      intro post
      induction post with
      | nil => intro pre s _ h1 h2; exact ⟨h1, h2⟩
      | cons e post ih =>
        intro pre s hs h1 h2
        refine ih (pre ++ [e]) _ (inv_step c tx s pre e hs) ?_ ?_
        · intro ctx hc
          have hs' := inv_step c tx s pre e hs
          unfold step at hc
          split at hc
          · split at hc
            · exact h1 _ hc
            · split at hc
              · simp at hc
              · split at hc
                · simp at hc
                · exact h1 _ hc
          · rename_i ctx' r id v hph
            split at hc
            · simp at hc
            · rename_i a
              obtain ⟨-, p2, p3, p4, p5⟩ := hs.pass.2.1 ctx' r id hph
              obtain ⟨q1, q2⟩ := hs.req.2 ctx' r id hph
              simp only at hc
              rw [hb _ (id :: r) (List.nodup_cons.2 ⟨p4, q1⟩) (by simpa using ⟨p5, q2⟩)] at hc
              · simp at hc
              · have := (addAttestation_length ctx' a).2
                simp only [List.length_cons]; omega
          · rename_i ctx' ok hph
            exact h1 _ hph
          · simp at hc
          · exact h1 _ hc
        · unfold step
          split
          · split
            · exact h2
            · split
              · exact h2
              · split <;> exact h2
          · split <;> exact h2
          · rename_i ctx' ok hph; exact absurd hph (h1 _)
          · exact h2
          · exact h2
    have hs := inv_start c tx
    refine key evs [] _ hs ?_ ?_
    · intro ctx hc
      have := hs.pass.2.2 ctx hc
      unfold start at hc
      split at hc
      · simp at hc
      · simp at hc
      · simp only at hc
        rw [hb _ [] (by simp) (by simp)] at hc
        · simp at hc
        · split
          · have := (addAttestation_length (CompactTx.ofFull c.crypto tx)
              (c.sign (CompactTx.ofFull c.crypto tx))).2
            simpa [CompactTx.ofFull] using this
          · simp [CompactTx.ofFull]
    · unfold start
      split <;> rfl
  exact (hi evs).2

end Verif.Sentinel.TwoPhase
