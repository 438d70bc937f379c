import Verif.Wallet.ClientConfirm
import Verif.Watchtower.Status
import Verif.LockingShard.Props
/-!
# Settling pending payments (C72)
-/
namespace Verif.Wallet

open Verif.Serial Verif.Tx

theorem confirm_txs (c : Crypto) (cl : Client) (id : Hash) :
    (confirm c cl id).2.txs = del cl.txs id := by
  rw [confirm_eq]
  have h : ∀ cl : Client, (confirmInput cl id).2.txs = cl.txs := by
    intro cl
    unfold confirmInput
    split <;> rfl
  rw [h]
  unfold confirmPending
  cases hl : cl.txs.lookup id with
  | none => exact (del_same (lookup_none hl)).symm
  | some t => rfl

theorem confirm_inputs (c : Crypto) (cl : Client) (id : Hash) :
    (confirm c cl id).2.inputs = del cl.inputs id := by
  rw [confirm_eq]
  have h : (confirmPending c cl id).2.inputs = cl.inputs := by
    unfold confirmPending
    split <;> rfl
  simp only [← h]
  generalize (confirmPending c cl id).2 = cl
  unfold confirmInput
  cases hl : cl.inputs.lookup id with
  | none => exact (del_same (lookup_none hl)).symm
  | some t => rfl

theorem del_mem {α : Type} {m : List (Hash × α)} {k : Hash} {e : Hash × α} :
    e ∈ del m k ↔ e ∈ m ∧ e.1 ≠ k := by
  unfold del
  rw [List.mem_filter]
  simp

theorem confirm_known {c : Crypto} {cl : Client} {id : Hash}
    (h : id ∈ cl.txs.map (·.1) ∨ id ∈ cl.inputs.map (·.1)) :
    (confirm c cl id).1 = true := by
  rw [confirm_eq]
  have hin : (confirmPending c cl id).2.inputs = cl.inputs := by
    unfold confirmPending
    split <;> rfl
  rcases h with h | h
  · cases hl : cl.txs.lookup id with
    | none => exact absurd h (lookup_none hl)
    | some t => simp [confirmPending, hl]
  · cases hl : cl.inputs.lookup id with
    | none => exact absurd h (lookup_none hl)
    | some t =>
      rw [confirmInput_some (hin ▸ hl)]
      simp

/-! ### Two-phase commit -/

/-- Confirm all of these. -/
def confirmAll (c : Crypto) (cl : Client) (ids : List Hash) : Client :=
  ids.foldl (fun cl id => (confirm c cl id).2) cl

/-- **C72, two-phase commit.** `sync` confirms exactly what the shards report as
executed, in the order of the ids, and nothing else changes.  It fails exactly if
a question was not answered. -/
theorem C72_twophase_exact (c : Crypto) (ask : Hash → Option Bool) (cl : Client)
    (ids : List Hash) :
    (syncTwoPhase c ask cl ids).2 =
      confirmAll c cl (ids.filter fun id => ask id = some true) ∧
    ((syncTwoPhase c ask cl ids).1 = true ↔ ∀ id ∈ ids, ask id ≠ none) := by
  induction ids generalizing cl with
  | nil => simp [syncTwoPhase, confirmAll]
  | cons id ids ih =>
    simp only [syncTwoPhase]
    cases ha : ask id with
    | none =>
      simp only
      rw [(ih cl).1]
      simp [ha]
    | some b =>
      cases b with
      | true =>
        simp only
        rw [(ih _).1, (ih _).2]
        simp [ha, confirmAll]
      | false =>
        simp only
        rw [(ih _).1, (ih _).2]
        simp [ha]

theorem confirmAll_txs (c : Crypto) (cl : Client) (ids : List Hash) :
    (∀ e, e ∈ (confirmAll c cl ids).txs ↔ e ∈ cl.txs ∧ e.1 ∉ ids) ∧
    (∀ e, e ∈ (confirmAll c cl ids).inputs ↔ e ∈ cl.inputs ∧ e.1 ∉ ids) := by
  induction ids generalizing cl with
  | nil => simp [confirmAll]
  | cons id ids ih =>
    obtain ⟨h1, h2⟩ := ih (confirm c cl id).2
    refine ⟨fun e => ?_, fun e => ?_⟩
    · show e ∈ (confirmAll c (confirm c cl id).2 ids).txs ↔ _
      rw [h1, confirm_txs, del_mem, List.mem_cons, not_or, and_assoc]
    · show e ∈ (confirmAll c (confirm c cl id).2 ids).inputs ↔ _
      rw [h2, confirm_inputs, del_mem, List.mem_cons, not_or, and_assoc]

/-- **C72, two-phase commit.** After `sync` exactly those payments and
notifications are pending whose transaction the shards did not report as
executed. -/
theorem C72_twophase (c : Crypto) (ask : Hash → Option Bool) (cl : Client)
    (ids : List Hash) (ht : ∀ e ∈ cl.txs, e.1 ∈ ids)
    (hi : ∀ e ∈ cl.inputs, e.1 ∈ ids) :
    (∀ e, e ∈ (syncTwoPhase c ask cl ids).2.txs ↔
      e ∈ cl.txs ∧ ask e.1 ≠ some true) ∧
    (∀ e, e ∈ (syncTwoPhase c ask cl ids).2.inputs ↔
      e ∈ cl.inputs ∧ ask e.1 ≠ some true) := by
  rw [(C72_twophase_exact c ask cl ids).1]
  obtain ⟨h1, h2⟩ := confirmAll_txs c cl
    (ids.filter fun id => ask id = some true)
  refine ⟨fun e => ?_, fun e => ?_⟩
  · rw [h1, List.mem_filter]
    constructor
    · rintro ⟨a, b⟩
      exact ⟨a, fun h => b ⟨ht e a, by simpa using h⟩⟩
    · rintro ⟨a, b⟩
      exact ⟨a, fun h => b (by simpa using h.2)⟩
  · rw [h2, List.mem_filter]
    constructor
    · rintro ⟨a, b⟩
      exact ⟨a, fun h => b ⟨hi e a, by simpa using h⟩⟩
    · rintro ⟨a, b⟩
      exact ⟨a, fun h => b (by simpa using h.2)⟩

/-! ### Atomizer -/

open Watchtower (Status Tower)

/-- The answers say that the transaction was executed: the first is about an
input it spent or an output it created. -/
def Reported (l : List Status) : Prop :=
  ∀ s ∈ l.head?, s = .unspent ∨ s = .spent

theorem scan_false (l : List Status) : scan false l = false := by
  induction l with
  | nil => rfl
  | cons s l ih =>
    unfold scan
    split
    · exact ih
    · rfl

theorem scan_true (l : List Status) : scan true l = true ↔ Reported l := by
  cases l with
  | nil => simp [scan, Reported]
  | cons s l =>
    simp only [scan, scan_false, Reported, List.head?_cons, Option.mem_def,
      Option.some.injEq, forall_eq']
    split
    · next h => simp [h.1, h.2]
    · next h =>
      simp only [true_iff]
      by_cases hs : s = .unspent
      · exact .inl hs
      · by_cases hs2 : s = .spent
        · exact .inr hs2
        · exact absurd ⟨hs, hs2⟩ h

theorem syncAtomizer_false (c : Crypto) (cl : Client)
    (res : List (Hash × List Status)) :
    syncAtomizer c cl false res = (false, cl) := by
  induction res with
  | nil => rfl
  | cons a res ih =>
    obtain ⟨id, l⟩ := a
    simp only [syncAtomizer, scan_false]
    exact ih

/-- What `sync` does with the answers about transactions that are pending: it
confirms those before the first one that is not reported as executed. -/
theorem C72_atomizer_exact (c : Crypto) (cl : Client)
    (res : List (Hash × List Status)) (hn : (res.map (·.1)).Nodup)
    (hk : ∀ a ∈ res, a.1 ∈ cl.txs.map (·.1) ∨ a.1 ∈ cl.inputs.map (·.1)) :
    ∃ done rest, res = done ++ rest ∧ (∀ a ∈ done, Reported a.2) ∧
      (∀ a ∈ rest.head?, ¬ Reported a.2) ∧
      syncAtomizer c cl true res =
        (rest.isEmpty, confirmAll c cl (done.map (·.1))) := by
  induction res generalizing cl with
  | nil => exact ⟨[], [], rfl, by simp, by simp, rfl⟩
  | cons a res ih =>
    obtain ⟨id, l⟩ := a
    by_cases hr : Reported l
    · have hs := (scan_true l).mpr hr
      rw [List.map_cons, List.nodup_cons] at hn
      obtain ⟨done, rest, h1, h2, h3, h4⟩ := ih (confirm c cl id).2 hn.2 (by
        intro a ha
        have hne : a.1 ≠ id := by
          rintro rfl
          exact hn.1 (List.mem_map_of_mem (f := (·.1)) ha)
        rcases hk a (List.mem_cons_of_mem _ ha) with h | h
        · left
          obtain ⟨e, he, hx⟩ := List.mem_map.mp h
          refine List.mem_map.mpr ⟨e, ?_, hx⟩
          rw [confirm_txs, del_mem]
          exact ⟨he, hx ▸ hne⟩
        · right
          obtain ⟨e, he, hx⟩ := List.mem_map.mp h
          refine List.mem_map.mpr ⟨e, ?_, hx⟩
          rw [confirm_inputs, del_mem]
          exact ⟨he, hx ▸ hne⟩)
      refine ⟨(id, l) :: done, rest, by rw [h1]; rfl, ?_, h3, ?_⟩
      · intro a ha
        rcases List.mem_cons.mp ha with rfl | ha
        · exact hr
        · exact h2 a ha
      · have hb := confirm_known (c := c) (hk (id, l) (List.mem_cons_self ..))
        simp only at hb
        simp only [syncAtomizer, hs, if_true, hb]
        exact h4
    · refine ⟨[], (id, l) :: res, rfl, by simp, by simpa using hr, ?_⟩
      have hs : scan true l = false := by
        rw [Bool.eq_false_iff, ne_eq, scan_true]; exact hr
      simp only [syncAtomizer, hs]
      rw [if_neg (by simp), syncAtomizer_false]
      rfl

/-- **C72, atomizer.** `sync` confirms only what the watchtower reports as
executed. -/
theorem C72_atomizer_sound (c : Crypto) (cl : Client)
    (res : List (Hash × List Status)) (hn : (res.map (·.1)).Nodup)
    (hk : ∀ a ∈ res, a.1 ∈ cl.txs.map (·.1) ∨ a.1 ∈ cl.inputs.map (·.1)) :
    (∀ e ∈ cl.txs, e ∉ (syncAtomizer c cl true res).2.txs →
      ∃ l, (e.1, l) ∈ res ∧ Reported l) ∧
    (∀ e ∈ cl.inputs, e ∉ (syncAtomizer c cl true res).2.inputs →
      ∃ l, (e.1, l) ∈ res ∧ Reported l) := by
  obtain ⟨done, rest, h1, h2, _, h4⟩ := C72_atomizer_exact c cl res hn hk
  obtain ⟨g1, g2⟩ := confirmAll_txs c cl (done.map (·.1))
  have key : ∀ id, id ∈ done.map (·.1) → ∃ l, (id, l) ∈ res ∧ Reported l := by
    intro id h
    obtain ⟨a, ha, rfl⟩ := List.mem_map.mp h
    exact ⟨a.2, by rw [h1]; exact List.mem_append_left _ ha, h2 a ha⟩
  rw [h4]
  refine ⟨fun e he hx => key _ ?_, fun e he hx => key _ ?_⟩
  · rw [g1] at hx
    exact Classical.not_not.mp fun h => hx ⟨he, h⟩
  · rw [g2] at hx
    exact Classical.not_not.mp fun h => hx ⟨he, h⟩

/-- **C72, atomizer, when everything pending was executed:** it is all confirmed,
and `sync` succeeds.  Missing: when something pending was not executed the rest is
not confirmed (`C72_atomizer_violated`). -/
theorem C72_atomizer_partial (c : Crypto) (cl : Client)
    (res : List (Hash × List Status)) (hn : (res.map (·.1)).Nodup)
    (hk : ∀ a ∈ res, a.1 ∈ cl.txs.map (·.1) ∨ a.1 ∈ cl.inputs.map (·.1))
    (ht : ∀ e ∈ cl.txs, e.1 ∈ res.map (·.1))
    (hi : ∀ e ∈ cl.inputs, e.1 ∈ res.map (·.1))
    (hr : ∀ a ∈ res, Reported a.2) :
    (syncAtomizer c cl true res).1 = true ∧
    (syncAtomizer c cl true res).2.txs = [] ∧
    (syncAtomizer c cl true res).2.inputs = [] := by
  obtain ⟨done, rest, h1, h2, h3, h4⟩ := C72_atomizer_exact c cl res hn hk
  have hrest : rest = [] := by
    cases rest with
    | nil => rfl
    | cons a rest =>
      exact absurd (hr a (by rw [h1]; simp)) (h3 a (by simp))
  subst hrest
  rw [List.append_nil] at h1
  subst h1
  obtain ⟨g1, g2⟩ := confirmAll_txs c cl (res.map (·.1))
  rw [h4]
  refine ⟨rfl, ?_, ?_⟩
  · rw [List.eq_nil_iff_forall_not_mem]
    intro e he
    rw [g1] at he
    exact he.2 (ht e he.1)
  · rw [List.eq_nil_iff_forall_not_mem]
    intro e he
    rw [g2] at he
    exact he.2 (hi e he.1)

/-- What the watchtower answers. -/
def answers (w : Tower) (req : List (Hash × List Hash)) :
    List (Hash × List Status) :=
  req.map fun r => (r.1, (w.query r.1 r.2).map (·.status))

/-- If the first answer about a transaction says that it was executed, it is in a
block. -/
theorem reported_in_block {kb ke : Nat} {evs : List Watchtower.Ev}
    (hl : Watchtower.Ledger (Watchtower.entries (Watchtower.blocks evs)))
    {id : Hash} {us : List Hash} (hu : us ≠ [])
    (hr : Reported (((evs.foldl Tower.step (.new kb ke)).query id us).map
      (·.status))) :
    ∃ b ∈ Watchtower.blocks evs, ∃ t ∈ b.txs, t.id = id := by
  obtain ⟨es, _, hw⟩ := Watchtower.run_parts evs (.new kb ke)
  rw [hw] at hr
  have hbc := Watchtower.C26_block_cache kb (Watchtower.blocks evs) hl
  generalize hw' : (⟨(Tower.new kb ke).bc.pushAll (Watchtower.blocks evs),
    (Tower.new kb ke).ec.push es⟩ : Tower) = w at hr
  have hbc' : w.bc = (Watchtower.BlockCache.new kb).pushAll
      (Watchtower.blocks evs) := by rw [← hw']; rfl
  rw [← hbc'] at hbc
  have hmem : ∀ p, p ∈ Watchtower.entries
      (Watchtower.lastK kb (Watchtower.blocks evs)) →
      ∃ b ∈ Watchtower.blocks evs, p.2 ∈ b.txs := by
    intro p hp
    unfold Watchtower.entries at hp
    rw [List.mem_flatMap] at hp
    obtain ⟨b, hb, hp⟩ := hp
    obtain ⟨t, ht, rfl⟩ := List.mem_map.mp hp
    refine ⟨b, ?_, ht⟩
    unfold Watchtower.lastK at hb
    split at hb
    · exact hb
    · exact List.mem_of_mem_drop hb
  cases us with
  | nil => exact absurd rfl hu
  | cons u us =>
    obtain ⟨ie, te, hq⟩ : ∃ ie te, w.query id (u :: us) =
        (u :: us).flatMap (w.status1 id ie te w.bc.best) := ⟨_, _, rfl⟩
    rw [hq] at hr
    simp only [List.flatMap_cons, List.map_append] at hr
    have h0 : ∃ s, ((w.status1 id ie te w.bc.best u).map (·.status)).head? =
        some s ∧ (s = .unspent ∨ s = .spent) := by
      have hne : (w.status1 id ie te w.bc.best u) ≠ [] := by
        unfold Tower.status1
        have key : ∀ (l : List Watchtower.Answer) (x : Watchtower.Answer),
            (if l = [] then [x] else l) ≠ [] := by
          intro l x
          split
          · simp
          · assumption
        exact key _ _
      cases hx : w.status1 id ie te w.bc.best u with
      | nil => exact absurd hx hne
      | cons a l =>
        refine ⟨a.status, rfl, hr a.status ?_⟩
        rw [hx]
        rfl
    have h1 : ∃ h, (∃ s, w.bc.checkSpent u = some (h, s) ∧ s = id) ∨
        (∃ s, w.bc.checkUnspent u = some (h, s) ∧ s = id) := by
      obtain ⟨s, hs, hs2⟩ := h0
      unfold Tower.status1 at hs
      cases ie with
      | true =>
        simp at hs
        subst hs
        rcases hs2 with h | h <;> cases h
      | false =>
        cases te with
        | true =>
          simp only [if_true] at hs
          split at hs <;> rcases hs2 with rfl | rfl <;> simp at hs <;>
            split at hs <;> simp at hs
        | false =>
          simp only [List.nil_append, Bool.false_eq_true, if_false] at hs
          unfold Tower.fromBlocks at hs
          cases hc : w.bc.checkSpent u with
          | some p =>
            obtain ⟨h, t⟩ := p
            simp only [hc] at hs
            by_cases ht : t = id
            · exact ⟨h, .inl ⟨t, rfl, ht⟩⟩
            · simp [ht] at hs
              subst hs
              rcases hs2 with h | h <;> cases h
          | none =>
            simp only [hc] at hs
            cases hd : w.bc.checkUnspent u with
            | some p =>
              obtain ⟨h, t⟩ := p
              simp only [hd] at hs
              by_cases ht : t = id
              · exact ⟨h, .inr ⟨t, rfl, ht⟩⟩
              · simp [ht] at hs
                subst hs
                rcases hs2 with h | h <;> cases h
            | none =>
              simp only [hd] at hs
              simp at hs
              subst hs
              rcases hs2 with h | h <;> cases h
    obtain ⟨h, ⟨s, hs, rfl⟩ | ⟨s, hs, rfl⟩⟩ := h1
    · rw [(hbc u).1] at hs
      unfold Watchtower.spender at hs
      rw [Option.map_eq_some_iff] at hs
      obtain ⟨p, hp, hx⟩ := hs
      obtain ⟨b, hb, ht⟩ := hmem p (List.mem_of_find?_eq_some hp)
      exact ⟨b, hb, p.2, ht, by rw [Prod.mk.injEq] at hx; exact hx.2⟩
    · rw [(hbc u).2] at hs
      split at hs
      · cases hs
      · unfold Watchtower.creator at hs
        rw [Option.map_eq_some_iff] at hs
        obtain ⟨p, hp, hx⟩ := hs
        obtain ⟨b, hb, ht⟩ := hmem p (List.mem_of_find?_eq_some hp)
        exact ⟨b, hb, p.2, ht, by rw [Prod.mk.injEq] at hx; exact hx.2⟩

/-- **C72, client and watchtower together.** A payment or notification that `sync`
settles belongs to a transaction in a block, whatever errors the watchtower has
seen. -/
theorem C72_executed (c : Crypto) (cl : Client) (kb ke : Nat)
    (evs : List Watchtower.Ev)
    (hl : Watchtower.Ledger (Watchtower.entries (Watchtower.blocks evs)))
    (req : List (Hash × List Hash)) (hn : (req.map (·.1)).Nodup)
    (hk : ∀ a ∈ req, a.1 ∈ cl.txs.map (·.1) ∨ a.1 ∈ cl.inputs.map (·.1))
    (hu : ∀ a ∈ req, a.2 ≠ []) (id : Hash)
    (h : (∃ e ∈ cl.txs, e.1 = id ∧ e ∉ (syncAtomizer c cl true
        (answers (evs.foldl Tower.step (.new kb ke)) req)).2.txs) ∨
      (∃ e ∈ cl.inputs, e.1 = id ∧ e ∉ (syncAtomizer c cl true
        (answers (evs.foldl Tower.step (.new kb ke)) req)).2.inputs)) :
    ∃ b ∈ Watchtower.blocks evs, ∃ t ∈ b.txs, t.id = id := by
  have hs := C72_atomizer_sound c cl
    (answers (evs.foldl Tower.step (.new kb ke)) req)
    (by
      unfold answers
      rw [List.map_map]
      exact hn)
    (by
      intro a ha
      obtain ⟨r, hr, rfl⟩ := List.mem_map.mp ha
      exact hk r hr)
  have : ∃ l, (id, l) ∈ answers (evs.foldl Tower.step (.new kb ke)) req ∧
      Reported l := by
    rcases h with ⟨e, he, rfl, hx⟩ | ⟨e, he, rfl, hx⟩
    · exact hs.1 e he hx
    · exact hs.2 e he hx
  obtain ⟨l, hm, hr⟩ := this
  obtain ⟨r, hr', hx⟩ := List.mem_map.mp hm
  simp only [Prod.mk.injEq] at hx
  obtain ⟨rfl, rfl⟩ := hx
  exact reported_in_block hl (hu r hr') hr

/-! ### Examples -/

/-- A client that made payments of 4 and of 6. -/
def payer : Client :=
  (send toy sgn (send toy sgn client 4 keyB (keyB, 0)).2 6 keyB (keyB, 0)).2

/-- The two pending payments. -/
def pay1 : Hash := (payer.txs[0]?.map (·.1)).getD zero
def pay2 : Hash := (payer.txs[1]?.map (·.1)).getD zero

example : payer.txs.map (·.1) = [pay1, pay2] ∧ pay1 ≠ pay2 := by decide

/-- **C72 is violated** by the atomizer's client: the first payment was rejected,
the second executed, and `sync` leaves everything as it was, however often it is
called. -/
theorem C72_atomizer_violated :
    let res : List (Hash × List Status) :=
      [(pay1, [.txRejected]), (pay2, [.spent, .unspent, .unspent])]
    payer.txs.map (·.1) = [pay1, pay2] ∧ pay1 ≠ pay2 ∧
    syncAtomizer toy payer true res = (false, payer) :=
  ⟨by decide, by decide, rfl⟩

/-- With the answers the other way round the executed payment is confirmed. -/
example : (syncAtomizer toy payer true [(pay2, [.spent, .unspent, .unspent]),
    (pay1, [.txRejected])]).2.txs.map (·.1) = [pay1] := by decide

/-- Both executed. -/
example : (syncAtomizer toy payer true [(pay2, [.spent]), (pay1, [.spent])]).1 =
    true := by decide

/-! ### The client and a shard -/

open LockingShard (HSet Cfg State Req Resp run checkTxId checkUnspent)

/-- A payment of 4. -/
def four : FullTx := ((send toy sgn client 4 keyB (keyC, 0)).1).getD ⟨[], [], []⟩

/-- The client that made it. -/
def fourClient : Client := (send toy sgn client 4 keyB (keyC, 0)).2

/-- A shard that has the outputs of the client. -/
def fourUhs : HSet := fun h =>
  h = (coin 1 5).hash toy || h = (coin 2 7).hash toy

/-- The payment is prepared and then aborted. -/
def aborted : List Req :=
  [.lock [CompactTx.ofFull toy four] zero, .apply [false] zero]

/-- **C72 is violated with two-phase commit** too: a payment that was aborted is
reported as executed by the shard, and `sync` confirms it.  The client no longer
counts the output worth 5, though it is unspent, and counts the change of 1, which
does not exist. -/
theorem C72_aborted_violated : ∃ s as,
    run LockingShard.exCfg (State.init LockingShard.exCfg fourUhs) aborted =
      some (s, as) ∧ as = [.lock (some [true]), .apply true] ∧
    (∀ i ∈ four.inputs, s.uhs (i.hash toy) = true) ∧
    balanceOf client.wallet = 12 ∧
    fourClient.txs.map (·.1) = [txId toy four] ∧
    (syncTwoPhase toy (fun id => some (checkTxId s id)) fourClient
      [txId toy four]).2.txs = [] ∧
    balanceOf (syncTwoPhase toy (fun id => some (checkTxId s id)) fourClient
      [txId toy four]).2.wallet = 8 := by
  have h : (run LockingShard.exCfg (State.init LockingShard.exCfg fourUhs)
      aborted).map (fun q => (q.2, four.inputs.map fun i => q.1.uhs (i.hash toy),
        checkTxId q.1 (txId toy four))) =
      some ([.lock (some [true]), .apply true], [true], true) := by decide
  rw [Option.map_eq_some_iff] at h
  obtain ⟨⟨s, as⟩, h1, h2⟩ := h
  simp only [Prod.mk.injEq] at h2
  obtain ⟨h2, h3, h4⟩ := h2
  have hs : syncTwoPhase toy (fun id => some (checkTxId s id)) fourClient
      [txId toy four] = (true, (confirm toy fourClient (txId toy four)).2) := by
    simp only [syncTwoPhase, h4]
  refine ⟨s, as, h1, h2, ?_, by decide, by decide, by rw [hs]; rfl,
    by rw [hs]; rfl⟩
  intro i hi
  have : four.inputs.map (fun i => s.uhs (i.hash toy)) = [true] := h3
  have hm := List.mem_map_of_mem (f := fun i => s.uhs (i.hash toy)) hi
  rw [this] at hm
  simpa using hm

end Verif.Wallet
