import Verif.Atomizer.Blocks
import Verif.Util.CacheSet

/-!
# A transaction that the shards attest in full is settled (C131)

The leader of the atomizer cluster, `src/uhs/atomizer/atomizer/atomizer_raft.cpp:55-133` and
`src/uhs/atomizer/atomizer/controller.cpp:116-122,158-170,284-294`, over the pool of C20, from the notifications it gets to
the commands of the replicated log.
-/
namespace Verif.Atomizer.Settled

open Verif.Tx

/-- A leader and the batches of transactions it gave to the replicated log. -/
structure Leader where
  pool : Pool := Pool.new
  log : List (List Agg) := []

/-- What happens at a leader. -/
inductive Ev where
  /-- a notification is handled, `src/uhs/atomizer/atomizer/controller.cpp:284-294` -/
  | notify (n : Notif)
  /-- `send_complete_txs`, and whether raft takes the command -/
  | send (taken : Bool)

/-- One event.  `send_complete_txs`, `src/uhs/atomizer/atomizer/atomizer_raft.cpp:122-133`, takes the complete transactions out before
it knows whether raft takes them, and `tx_notify_handler` (`src/uhs/atomizer/atomizer/controller.cpp:158-170`) only waits when it does
not. -/
def Leader.step (attested : CompactTx → Bool) (l : Leader) : Ev → Leader
  | .notify n => { l with pool := l.pool.notify attested n }
  | .send taken =>
    if l.pool.complete = [] then l
    else ⟨{ l.pool with complete := [] }, if taken then l.log ++ [l.pool.complete] else l.log⟩

/-- A leader after some events. -/
def Leader.run (attested : CompactTx → Bool) (l : Leader) (evs : List Ev) : Leader := evs.foldl (Leader.step attested) l

/-! ### Specification -/

/-- The notifications that attest input `i` of a transaction. -/
def attests (tx : CompactTx) (i : Nat) : List Ev → List Notif
  | [] => []
  | .notify n :: evs => if n.tx = tx ∧ i ∈ n.atts then n :: attests tx i evs else attests tx i evs
  | .send _ :: evs => attests tx i evs

/-- Notifications about the transaction are about its inputs: no other transaction has its identifier, and no other index is attested. -/
def Honest (tx : CompactTx) (evs : List Ev) : Prop :=
  ∀ n, .notify n ∈ evs → n.tx.id = tx.id → n.tx = tx ∧ ∀ i ∈ n.atts, i < tx.inputs.length

/-- How often the leader has handed over a transaction, or is about to. -/
def handed (tx : CompactTx) (l : Leader) : Nat :=
  ((l.log.flatten ++ l.pool.complete).filter fun a => a.tx.id == tx.id).length

/-! ### The pool -/

/-- The attestations collected for a transaction. -/
def cur (tx : CompactTx) (p : Pool) : List (Nat × UInt64) :=
  match p.txs.find? fun e => e.1.id == tx.id with
  | some e => e.2
  | none => []

theorem addAtt_mem (s : List (Nat × UInt64)) (p : Nat × UInt64) (i : Nat) :
    i ∈ (addAtt s p).map (·.1) ↔ i ∈ s.map (·.1) ∨ i = p.1 := by
  unfold addAtt
  split
  · next h =>
    obtain ⟨q, hq, he⟩ := List.any_eq_true.mp h
    have he : q.1 = p.1 := by simpa using he
    constructor
    · exact .inl
    · rintro (h | h)
      · exact h
      · rw [h, ← he]; exact List.mem_map_of_mem hq
  · simp

theorem addAtt_nodup (s : List (Nat × UInt64)) (p : Nat × UInt64) (h : (s.map (·.1)).Nodup) : ((addAtt s p).map (·.1)).Nodup := by
  unfold addAtt
  split
  · exact h
  · next hn =>
    rw [List.map_append, List.nodup_append]
    refine ⟨h, by simp, ?_⟩
    intro a ha b hb hab
    simp only [List.map_cons, List.map_nil, List.mem_singleton] at hb
    obtain ⟨q, hq, he⟩ := List.mem_map.mp ha
    exact hn (List.any_eq_true.mpr ⟨q, hq, by simp [he, hab, hb]⟩)

theorem fold_mem (atts : List Nat) (h : UInt64) (i : Nat) : ∀ s : List (Nat × UInt64),
    i ∈ (atts.foldl (fun s i => addAtt s (i, h)) s).map (·.1) ↔ i ∈ s.map (·.1) ∨ i ∈ atts := by
  induction atts with
  | nil => intro s; simp
  | cons a atts ih =>
    intro s
    rw [List.foldl_cons, ih, addAtt_mem, List.mem_cons, or_assoc]

theorem fold_nodup (atts : List Nat) (h : UInt64) : ∀ s : List (Nat × UInt64), (s.map (·.1)).Nodup →
    ((atts.foldl (fun s i => addAtt s (i, h)) s).map (·.1)).Nodup := by
  induction atts with
  | nil => exact fun s hs => hs
  | cons a atts ih => exact fun s hs => ih _ (addAtt_nodup s _ hs)

theorem find_filter_ne {l : List (CompactTx × List (Nat × UInt64))} {id id' : Hash} (h : id' ≠ id) :
    (l.filter fun e => e.1.id != id').find? (fun e => e.1.id == id) = l.find? fun e => e.1.id == id := by
  induction l with
  | nil => rfl
  | cons e l ih =>
    by_cases he : e.1.id = id
    · have h1 : (e.1.id != id') = true := by rw [he]; exact bne_iff_ne.mpr (Ne.symm h)
      rw [List.filter_cons, if_pos h1, List.find?_cons_of_pos (p := fun e : CompactTx × List (Nat × UInt64) => e.1.id == id) (beq_iff_eq.mpr he),
        List.find?_cons_of_pos (p := fun e : CompactTx × List (Nat × UInt64) => e.1.id == id) (beq_iff_eq.mpr he)]
    · by_cases h1 : (e.1.id != id') = true
      · rw [List.filter_cons, if_pos h1, List.find?_cons, List.find?_cons, ih]
      · rw [List.filter_cons, if_neg h1, ih, List.find?_cons_of_neg (p := fun e : CompactTx × List (Nat × UInt64) => e.1.id == id)
          (fun hx => he (beq_iff_eq.mp hx))]

theorem find_filter_self {l : List (CompactTx × List (Nat × UInt64))} {id : Hash} :
    (l.filter fun e => e.1.id != id).find? (fun e => e.1.id == id) = none := by
  rw [List.find?_eq_none]
  intro e he
  exact fun hx => bne_iff_ne.mp (List.mem_filter.mp he).2 (beq_iff_eq.mp hx)

theorem id_of_find {l : List (CompactTx × List (Nat × UInt64))} {id : Hash} {e : CompactTx × List (Nat × UInt64)}
    (h : l.find? (fun e => e.1.id == id) = some e) : e.1.id = id := by
  have := List.find?_some h
  exact beq_iff_eq.mp this

theorem entry_id (p : Pool) (n : Notif) : (p.entry n).1.id = n.tx.id := by
  unfold Pool.entry
  split
  · next e h => exact id_of_find (e := e) h
  · rfl

/-- A notification about something else. -/
theorem notify_other (attested : CompactTx → Bool) (p : Pool) (n : Notif) (tx : CompactTx) (h : n.tx.id ≠ tx.id) :
    cur tx (p.notify attested n) = cur tx p ∧
    (∀ e ∈ (p.notify attested n).txs, e.1.id = tx.id → e ∈ p.txs) ∧
    ((p.notify attested n).complete.filter fun a => a.tx.id == tx.id) = p.complete.filter fun a => a.tx.id == tx.id := by
  have he := entry_id p n
  have hne : (p.entry n).1.id ≠ tx.id := he ▸ h
  have hrest : ∀ e ∈ p.txs.filter (fun e' => e'.1.id != n.tx.id), e ∈ p.txs := fun e he => (List.mem_filter.mp he).1
  simp only [Pool.notify]
  split
  · exact ⟨rfl, fun e he _ => he, rfl⟩
  · split
    · refine ⟨?_, ?_, rfl⟩
      · simp only [cur, List.find?_append, find_filter_ne h]
        have hz : [p.entry n].find? (fun e => e.1.id == tx.id) = none := by
          rw [List.find?_eq_none]; intro x hx; rw [List.mem_singleton.mp hx]; exact fun hz => hne (beq_iff_eq.mp hz)
        rw [hz, Option.or_none]
      · intro e hin hid
        rcases List.mem_append.mp hin with hin | hin
        · exact hrest e hin
        · rw [List.mem_singleton.mp hin] at hid; exact absurd hid hne
    · refine ⟨?_, fun e hin _ => hrest e hin, ?_⟩
      · simp only [cur, find_filter_ne h]
      · rw [List.filter_append, List.filter_cons_of_neg (p := fun a : Agg => a.tx.id == tx.id) (fun hz => hne (beq_iff_eq.mp hz)), List.filter_nil, List.append_nil]

/-- A notification about the transaction. -/
theorem notify_same (attested : CompactTx → Bool) (p : Pool) (n : Notif) (hatt : attested n.tx = true)
    (hp : ∀ e ∈ p.txs, e.1.id = n.tx.id → e.1 = n.tx) :
    ((n.atts.foldl (fun s i => addAtt s (i, n.height)) (cur n.tx p)).length ≠ n.tx.inputs.length ∧
      cur n.tx (p.notify attested n) = n.atts.foldl (fun s i => addAtt s (i, n.height)) (cur n.tx p) ∧
      (p.notify attested n).complete = p.complete ∧
      ∀ e ∈ (p.notify attested n).txs, e.1.id = n.tx.id → e.1 = n.tx) ∨
    ((n.atts.foldl (fun s i => addAtt s (i, n.height)) (cur n.tx p)).length = n.tx.inputs.length ∧
      cur n.tx (p.notify attested n) = [] ∧
      (∃ o, o = oldestOf (n.atts.foldl (fun s i => addAtt s (i, n.height)) (cur n.tx p)) ∧
        (p.notify attested n).complete = p.complete ++ [⟨n.tx, o⟩]) ∧
      ∀ e ∈ (p.notify attested n).txs, e.1.id = n.tx.id → e.1 = n.tx) := by
  have hent : p.entry n = (n.tx, n.atts.foldl (fun s i => addAtt s (i, n.height)) (cur n.tx p)) := by
    unfold Pool.entry cur
    split
    · next e h =>
      have := hp e (List.mem_of_find?_eq_some h) (id_of_find h)
      rw [this, h]
    · next h => rw [h]
  have hrest : ∀ e ∈ p.txs.filter (fun e' => e'.1.id != n.tx.id), e.1.id ≠ n.tx.id := fun e he => by
    simpa using (List.mem_filter.mp he).2
  simp only [Pool.notify, hatt, Bool.not_true, Bool.false_eq_true, if_false, hent]
  split
  · next hl =>
    refine .inl ⟨hl, ?_, rfl, ?_⟩
    · have h1 : [(n.tx, n.atts.foldl (fun s i => addAtt s (i, n.height)) (cur n.tx p))].find? (fun e => e.1.id == n.tx.id) =
          some (n.tx, n.atts.foldl (fun s i => addAtt s (i, n.height)) (cur n.tx p)) :=
        List.find?_cons_of_pos (p := fun e : CompactTx × List (Nat × UInt64) => e.1.id == n.tx.id) (beq_iff_eq.mpr rfl)
      generalize n.atts.foldl (fun s i => addAtt s (i, n.height)) (cur n.tx p) = a at h1 ⊢
      unfold cur
      dsimp only
      rw [List.find?_append, find_filter_self, h1]
      rfl
    · intro e hin hid
      rcases List.mem_append.mp hin with hin | hin
      · exact absurd hid (hrest e hin)
      · rw [List.mem_singleton.mp hin]
  · next hl =>
    refine .inr ⟨by simpa using hl, ?_, ⟨_, rfl, rfl⟩, fun e hin hid => absurd hid (hrest e hin)⟩
    simp only [cur, find_filter_self]

/-! ### The invariant of a leader -/

structure Inv (tx : CompactTx) (evs : List Ev) (l : Leader) : Prop where
  entry : ∀ e ∈ l.pool.txs, e.1.id = tx.id → e.1 = tx
  nodup : ((cur tx l.pool).map (·.1)).Nodup
  bound : ∀ i ∈ (cur tx l.pool).map (·.1), i < tx.inputs.length
  short : (cur tx l.pool).length ≠ tx.inputs.length
  /-- what is handed over was attested -/
  times : ∀ i < tx.inputs.length, handed tx l + (if i ∈ (cur tx l.pool).map (·.1) then 1 else 0) ≤ (attests tx i evs).length
  /-- what is attested is not forgotten -/
  kept : (∀ b, Ev.send b ∈ evs → b = true) → 0 < handed tx l ∨ ∀ i, attests tx i evs ≠ [] → i ∈ (cur tx l.pool).map (·.1)

theorem attests_append (tx : CompactTx) (i : Nat) (evs evs' : List Ev) :
    attests tx i (evs ++ evs') = attests tx i evs ++ attests tx i evs' := by
  induction evs with
  | nil => rfl
  | cons e evs ih =>
    cases e with
    | notify n =>
      simp only [List.cons_append, attests, ih]
      split <;> rfl
    | send b => exact ih

/-- A set of indexes as large as there are inputs has all of them. -/
theorem all_of_length {s : List Nat} {k : Nat} (hn : s.Nodup) (hb : ∀ i ∈ s, i < k) (hl : s.length = k) : ∀ i < k, i ∈ s := by
  intro i hi
  refine Classical.byContradiction fun hns => ?_
  have := Verif.Util.length_le_of_subset (ks := i :: s) (l := List.range k) (List.nodup_cons.mpr ⟨hns, hn⟩) (by
    intro x hx
    rcases List.mem_cons.mp hx with hx | hx
    · exact List.mem_range.mpr (hx ▸ hi)
    · exact List.mem_range.mpr (hb x hx))
  simp only [List.length_cons, List.length_range] at this
  omega

theorem inv_step {attested : CompactTx → Bool} {tx : CompactTx} (hatt : attested tx = true) (hne : tx.inputs ≠ []) {evs : List Ev} {l : Leader}
    {e : Ev} (h : Inv tx evs l) (hh : ∀ n, e = .notify n → n.tx.id = tx.id → n.tx = tx ∧ ∀ i ∈ n.atts, i < tx.inputs.length) :
    Inv tx (evs ++ [e]) (l.step attested e) := by
  cases e with
  | notify n =>
    have hsends : (∀ b, Ev.send b ∈ evs ++ [Ev.notify n] → b = true) → ∀ b, Ev.send b ∈ evs → b = true :=
      fun hs b hb => hs b (List.mem_append_left _ hb)
    by_cases hid : n.tx.id = tx.id
    · obtain ⟨rfl, hb⟩ := hh n rfl hid
      have hatts : ∀ i, attests n.tx i [Ev.notify n] = if i ∈ n.atts then [n] else [] := by
        intro i; simp [attests]
      rcases notify_same attested l.pool n hatt h.entry with ⟨hl, hc, hcomp, hent⟩ | ⟨hl, hc, ⟨o, _, hcomp⟩, hent⟩
      · have hhand : handed n.tx (l.step attested (.notify n)) = handed n.tx l := by
          simp only [handed, Leader.step, hcomp]
        have hcur : cur n.tx (l.step attested (.notify n)).pool = n.atts.foldl (fun s i => addAtt s (i, n.height)) (cur n.tx l.pool) := hc
        refine ⟨hent, ?_, ?_, ?_, ?_, ?_⟩
        · rw [hcur]; exact fold_nodup _ _ _ h.nodup
        · rw [hcur]
          intro i hi
          rcases (fold_mem _ _ _ _).mp hi with hi | hi
          · exact h.bound i hi
          · exact hb i hi
        · rw [hcur]; exact hl
        · intro i hi
          have := h.times i hi
          rw [hhand, hcur, attests_append, List.length_append, hatts]
          by_cases h1 : i ∈ (cur n.tx l.pool).map (·.1)
          · rw [if_pos h1] at this
            split <;> omega
          · rw [if_neg h1] at this
            by_cases h2 : i ∈ n.atts
            · rw [if_pos h2, if_pos ((fold_mem _ _ _ _).mpr (.inr h2))]
              simp only [List.length_singleton]; omega
            · rw [if_neg (fun hx => ((fold_mem _ _ _ _).mp hx).elim h1 h2)]; omega
        · intro hs
          rcases h.kept (hsends hs) with hk | hk
          · exact .inl (by rw [hhand]; exact hk)
          · refine .inr fun i hi => ?_
            rw [hcur]
            refine (fold_mem _ _ _ _).mpr ?_
            rw [attests_append, hatts] at hi
            by_cases h2 : i ∈ n.atts
            · exact .inr h2
            · rw [if_neg h2, List.append_nil] at hi
              exact .inl (hk i hi)
      · have hhand : handed n.tx (l.step attested (.notify n)) = handed n.tx l + 1 := by
          simp only [handed, Leader.step, hcomp, ← List.append_assoc, List.filter_append, List.length_append]
          simp
        have hcur : cur n.tx (l.step attested (.notify n)).pool = [] := hc
        have hall : ∀ i < n.tx.inputs.length, i ∈ (cur n.tx l.pool).map (·.1) ∨ i ∈ n.atts := by
          intro i hi
          refine (fold_mem n.atts n.height i _).mp (all_of_length (fold_nodup _ _ _ h.nodup) ?_ (by rw [List.length_map]; exact hl) i hi)
          intro j hj
          rcases (fold_mem _ _ _ _).mp hj with hj | hj
          · exact h.bound j hj
          · exact hb j hj
        refine ⟨hent, ?_, ?_, ?_, ?_, ?_⟩
        · rw [hcur]; exact List.nodup_nil
        · rw [hcur]; exact fun i hi => nomatch hi
        · rw [hcur]; exact fun hx => hne (List.length_eq_zero_iff.mp hx.symm)
        · intro i hi
          have := h.times i hi
          rw [hhand, hcur, attests_append, List.length_append, hatts]
          simp only [List.map_nil, List.not_mem_nil, if_false, Nat.add_zero]
          rcases hall i hi with h1 | h2
          · rw [if_pos h1] at this; omega
          · rw [if_pos h2, List.length_singleton]
            have : handed n.tx l ≤ (attests n.tx i evs).length := by omega
            omega
        · exact fun _ => .inl (by rw [hhand]; omega)
    · obtain ⟨hc, hent, hcomp⟩ := notify_other attested l.pool n tx hid
      have hne' : n.tx ≠ tx := fun hx => hid (hx ▸ rfl)
      have hatts : ∀ i, attests tx i (evs ++ [Ev.notify n]) = attests tx i evs := by
        intro i; rw [attests_append]; simp [attests, hne']
      have hhand : handed tx (l.step attested (.notify n)) = handed tx l := by
        simp only [handed, Leader.step, List.filter_append, hcomp]
      have hcur : cur tx (l.step attested (.notify n)).pool = cur tx l.pool := hc
      refine ⟨fun e he hid => h.entry e (hent e he hid) hid, hcur ▸ h.nodup, hcur ▸ h.bound, hcur ▸ h.short, ?_, ?_⟩
      · intro i hi; rw [hhand, hcur, hatts]; exact h.times i hi
      · intro hs
        rw [hhand, hcur]
        refine (h.kept (hsends hs)).imp_right fun hk i hi => hk i (by rwa [hatts] at hi)
  | send b =>
    have hatts : ∀ i, attests tx i (evs ++ [Ev.send b]) = attests tx i evs := by
      intro i; rw [attests_append]; exact List.append_nil _
    have hpool : (l.step attested (.send b)).pool.txs = l.pool.txs := by
      simp only [Leader.step]; split <;> rfl
    have hcur : cur tx (l.step attested (.send b)).pool = cur tx l.pool := by unfold cur; rw [hpool]
    have hle : handed tx (l.step attested (.send b)) ≤ handed tx l := by
      simp only [Leader.step]
      split
      · exact Nat.le_refl _
      · cases b <;> simp [handed, List.filter_append]
    refine ⟨hpool ▸ h.entry, hcur ▸ h.nodup, hcur ▸ h.bound, hcur ▸ h.short, ?_, ?_⟩
    · intro i hi
      have := h.times i hi
      rw [hcur, hatts]; omega
    · intro hs
      have hb : b = true := hs b (by simp)
      have heq : handed tx (l.step attested (.send b)) = handed tx l := by
        simp only [Leader.step]
        split
        · rfl
        · simp [handed, List.filter_append]
      rw [heq, hcur]
      refine (h.kept fun b' hb' => hs b' (List.mem_append_left _ hb')).imp_right fun hk i hi => hk i (by rwa [hatts] at hi)

theorem run_inv {attested : CompactTx → Bool} {tx : CompactTx} (hatt : attested tx = true) (hne : tx.inputs ≠ []) (evs : List Ev)
    (hh : Honest tx evs) : Inv tx evs (Leader.run attested {} evs) := by
  have key : ∀ (evs pre : List Ev) (l : Leader), Inv tx pre l → Honest tx evs → Inv tx (pre ++ evs) (Leader.run attested l evs) := by
    intro evs
    induction evs with
    | nil => intro pre l h _; rw [List.append_nil]; exact h
    | cons e evs ih =>
      intro pre l h hh
      have h1 := inv_step hatt hne h (e := e) (fun n hn => hh n (by simp [hn]))
      have := ih (pre ++ [e]) _ h1 (fun n hn => hh n (List.mem_cons_of_mem _ hn))
      rwa [List.append_assoc, List.singleton_append] at this
  refine key evs [] {} ⟨fun e he => (nomatch he), List.nodup_nil, fun i hi => (nomatch hi), ?_, fun i _ => Nat.le_refl _,
    fun _ => .inr fun i hi => absurd rfl hi⟩ hh
  exact fun hx => hne (List.length_eq_zero_iff.mp hx.symm)

/-! ### From notifications to the log -/

/-- What is handed over under the identifier of a transaction is the transaction. -/
theorem handed_tx {attested : CompactTx → Bool} {tx : CompactTx} (hatt : attested tx = true) (hne : tx.inputs ≠ []) (evs : List Ev)
    (hh : Honest tx evs) :
    ∀ a ∈ (Leader.run attested {} evs).log.flatten ++ (Leader.run attested {} evs).pool.complete, a.tx.id = tx.id → a.tx = tx := by
  have key : ∀ (evs pre : List Ev) (l : Leader), Inv tx pre l →
      (∀ a ∈ l.log.flatten ++ l.pool.complete, a.tx.id = tx.id → a.tx = tx) → Honest tx evs →
      ∀ a ∈ (Leader.run attested l evs).log.flatten ++ (Leader.run attested l evs).pool.complete, a.tx.id = tx.id → a.tx = tx := by
    intro evs
    induction evs with
    | nil => exact fun _ _ _ h _ => h
    | cons e evs ih =>
      intro pre l hi h hh
      refine ih (pre ++ [e]) (l.step attested e) (inv_step hatt hne hi (fun n hn => hh n (by simp [hn]))) ?_
        (fun n hn => hh n (List.mem_cons_of_mem _ hn))
      intro a ha hid
      cases e with
      | send b =>
        refine h a ?_ hid
        simp only [Leader.step] at ha
        split at ha
        · exact ha
        · cases b
          · simp only [Bool.false_eq_true, if_false, List.append_nil] at ha
            exact List.mem_append_left _ ha
          · simpa using ha
      | notify n =>
        simp only [Leader.step] at ha
        rcases List.mem_append.mp ha with ha | ha
        · exact h a (List.mem_append_left _ ha) hid
        · by_cases hn : n.tx.id = tx.id
          · obtain ⟨rfl, _⟩ := hh n (by simp) hn
            rcases notify_same attested l.pool n hatt hi.entry with ⟨_, _, hc, _⟩ | ⟨_, _, ⟨o, _, hc⟩, _⟩
            · rw [hc] at ha; exact h a (List.mem_append_right _ ha) hid
            · rw [hc] at ha
              rcases List.mem_append.mp ha with ha | ha
              · exact h a (List.mem_append_right _ ha) hid
              · rw [List.mem_singleton.mp ha]
          · have hf := (notify_other attested l.pool n tx hn).2.2
            have : a ∈ (l.pool.notify attested n).complete.filter fun a => a.tx.id == tx.id :=
              List.mem_filter.mpr ⟨ha, beq_iff_eq.mpr hid⟩
            rw [hf] at this
            exact h a (List.mem_append_right _ (List.mem_filter.mp this).1) hid
  refine key evs [] {} ?_ (fun a ha => nomatch ha) hh
  have := run_inv hatt hne [] (fun n hn => nomatch hn)
  exact this

/-- **C131, partly.** When one leader gets notifications that attest every input of a transaction, in whatever order and with whatever others,
and raft takes its commands, it hands the transaction over: it is in a command or in the next one.
What is missing: the notifications go to one leader, and raft takes every command (`C131_refused_violated`, `C131_leaders_violated`). -/
theorem C131_handed_partial (attested : CompactTx → Bool) (tx : CompactTx) (evs : List Ev) (hatt : attested tx = true) (hne : tx.inputs ≠ [])
    (hh : Honest tx evs) (hall : ∀ i < tx.inputs.length, ∃ n, Ev.notify n ∈ evs ∧ n.tx = tx ∧ i ∈ n.atts) (hs : Ev.send false ∉ evs) :
    ∃ a ∈ (Leader.run attested {} evs).log.flatten ++ (Leader.run attested {} evs).pool.complete, a.tx = tx := by
  have hi := run_inv hatt hne evs hh
  have hatts : ∀ i < tx.inputs.length, attests tx i evs ≠ [] := by
    intro i hlt
    obtain ⟨n, hn, h1, h2⟩ := hall i hlt
    obtain ⟨pre, post, rfl⟩ := List.append_of_mem hn
    rw [attests_append]
    simp [attests, h1, h2]
  have hpos : 0 < handed tx (Leader.run attested {} evs) := by
    rcases hi.kept (fun b hb => by cases b; exact absurd hb hs; rfl) with h | h
    · exact h
    · exfalso
      have hle : (List.range tx.inputs.length).length ≤ ((cur tx (Leader.run attested {} evs).pool).map (·.1)).length := by
        refine Verif.Util.length_le_of_subset List.nodup_range ?_
        intro i hi
        exact h i (hatts i (List.mem_range.mp hi))
      have hge := Verif.Util.length_le_of_subset hi.nodup (l := List.range tx.inputs.length)
        (fun i hx => List.mem_range.mpr (hi.bound i hx))
      simp only [List.length_range, List.length_map] at hle hge
      exact hi.short (by omega)
  obtain ⟨a, ha⟩ := List.exists_mem_of_length_pos hpos
  have ha := List.mem_filter.mp ha
  exact ⟨a, ha.1, handed_tx hatt hne evs hh a ha.1 (beq_iff_eq.mp ha.2)⟩

/-- **C131.** A transaction is handed over no more often than each of its inputs was attested: once, if the shards attest once. -/
theorem C131_times (attested : CompactTx → Bool) (tx : CompactTx) (evs : List Ev) (hatt : attested tx = true) (hne : tx.inputs ≠ [])
    (hh : Honest tx evs) (i : Nat) (hlt : i < tx.inputs.length) :
    (((Leader.run attested {} evs).log.flatten ++ (Leader.run attested {} evs).pool.complete).filter fun a => a.tx.id == tx.id).length ≤
      (attests tx i evs).length := by
  have := (run_inv hatt hne evs hh).times i hlt
  exact Nat.le_trans (Nat.le_add_right _ _) this

/-! ### From the log to a block or an error -/

theorem insertComplete_err {a a' : Atm} {o : UInt64} {tx : CompactTx} {e : TxErr} (hr : a.insertComplete o tx = some (a', some e)) :
    e.txId = tx.id := by
  unfold Atm.insertComplete at hr
  split at hr
  · next e' he =>
    unfold Atm.checkOffset at he
    split at he
    · cases he; cases hr; rfl
    · exact nomatch he
  · split at hr
    · exact nomatch hr
    · next e' he =>
      unfold Atm.checkStxo at he
      split at he
      · exact nomatch he
      split at he
      · exact nomatch he
      split at he
      · exact nomatch he
      · cases he; cases hr; rfl
    · exact nomatch hr

theorem notifyAll_settled (ms : List Agg) : ∀ (s s' : SM) (es : List TxErr), s.notifyAll ms = some (s', es) →
    (∀ t ∈ s.atm.complete, t ∈ s'.atm.complete) ∧ ∀ m ∈ ms, m.tx ∈ s'.atm.complete ∨ ∃ e ∈ es, e.txId = m.tx.id := by
  induction ms with
  | nil => intro s s' es h; simp [SM.notifyAll] at h; obtain ⟨rfl, _⟩ := h; exact ⟨fun _ h => h, fun m hm => nomatch hm⟩
  | cons m ms ih =>
    intro s s' es h
    unfold SM.notifyAll at h
    split at h
    · simp at h
    · rename_i a e he
      split at h
      · simp at h
      · rename_i s1 es1 h1
        simp at h
        obtain ⟨rfl, rfl⟩ := h
        obtain ⟨i1, i2⟩ := ih _ _ _ h1
        dsimp only at i1
        rcases C21_insert_complete he with ⟨hne, rfl⟩ | ⟨rfl, hc, _⟩
        · obtain ⟨e', rfl⟩ := Option.ne_none_iff_exists'.mp hne
          refine ⟨i1, ?_⟩
          intro m' hm
          rcases List.mem_cons.mp hm with rfl | hm
          · exact .inr ⟨e', by simp, insertComplete_err he⟩
          · exact (i2 m' hm).imp_right fun ⟨x, hx, hx'⟩ => ⟨x, by simp [hx], hx'⟩
        · rw [hc] at i1
          refine ⟨fun t ht => i1 t (List.mem_append_left _ ht), ?_⟩
          intro m' hm
          rcases List.mem_cons.mp hm with rfl | hm
          · exact .inl (i1 _ (by simp))
          · exact (i2 m' hm).imp_right fun ⟨x, hx, hx'⟩ => ⟨x, by simp [hx], hx'⟩

theorem run_complete (rs : List Req) (hn : ∀ r ∈ rs, r ≠ .makeBlock) : ∀ (s s' : SM) (l : List (Req × Option Resp)),
    s.run rs = some (s', l) → ∀ t ∈ s.atm.complete, t ∈ s'.atm.complete := by
  induction rs with
  | nil => intro s s' l h; simp [SM.run] at h; obtain ⟨rfl, _⟩ := h; exact fun _ h => h
  | cons r rs ih =>
    intro s s' l h t ht
    simp only [SM.run, Option.bind_eq_bind, Option.bind_eq_some_iff] at h
    obtain ⟨⟨s1, a⟩, h1, ⟨s2, as⟩, h2, h3⟩ := h
    cases h3
    refine ih (fun r hr => hn r (List.mem_cons_of_mem _ hr)) s1 s2 as h2 t ?_
    cases r with
    | makeBlock => exact absurd rfl (hn .makeBlock (by simp))
    | getBlock h => cases h1; exact ht
    | prune h => cases h1; exact ht
    | notify ms =>
      simp only [SM.commit] at h1
      split at h1
      · exact nomatch h1
      · next s' es he =>
        cases h1
        exact (notifyAll_settled ms s _ es he).1 t ht

/-- **C131.** Each transaction of a command that the cluster executes is in the next block that is made, or the answer to the command, which the
leader sends to the watchtowers, has an error for it. -/
theorem C131_settled (s s1 s2 : SM) (ms : List Agg) (rs : List Req) (r : Option Resp) (l : List (Req × Option Resp)) (b : Block)
    (es : List TxErr) (s3 : SM) (hc : s.commit (.notify ms) = some (s1, r)) (hn : ∀ r ∈ rs, r ≠ .makeBlock)
    (hr : s1.run rs = some (s2, l)) (hb : s2.commit .makeBlock = some (s3, some (.made b es))) (m : Agg) (hm : m ∈ ms) :
    m.tx ∈ b.txs ∨ ∃ errs, r = some (.errors errs) ∧ ∃ e ∈ errs, e.txId = m.tx.id := by
  simp only [SM.commit] at hc
  split at hc
  · exact nomatch hc
  · next s' errs he =>
    cases hc
    rcases (notifyAll_settled ms s s1 errs he).2 m hm with h | ⟨e, h1, h2⟩
    · left
      have := run_complete rs hn s1 s2 l hr m.tx h
      simp only [SM.commit, Atm.makeBlock, Option.some.injEq, Prod.mk.injEq, Resp.made.injEq] at hb
      rw [← hb.2.1]
      exact this
    · right
      refine ⟨errs, ?_, e, h1, h2⟩
      rw [if_neg (List.ne_nil_of_mem h1)]

/-! ### What goes wrong -/

/-- **C131, violated.** When raft does not take the command, as when the leader has lost its place, the transactions in it are gone: they are not in the
log, and the leader does not send them again however often it tries. -/
theorem C131_refused_violated (attested : CompactTx → Bool) (l : Leader) (hc : l.pool.complete ≠ []) (sends : List Bool) :
    Leader.run attested l (.send false :: sends.map .send) = ⟨{ l.pool with complete := [] }, l.log⟩ := by
  have h1 : l.step attested (.send false) = ⟨{ l.pool with complete := [] }, l.log⟩ := by simp [Leader.step, hc]
  rw [Leader.run, List.foldl_cons, h1]
  induction sends with
  | nil => rfl
  | cons b bs ih =>
    rw [List.map_cons, List.foldl_cons]
    have : Leader.step attested ⟨{ l.pool with complete := [] }, l.log⟩ (.send b) = ⟨{ l.pool with complete := [] }, l.log⟩ := by
      simp [Leader.step]
    rw [this]
    exact ih

/-- Has two inputs. -/
def two : CompactTx := ⟨fill 32 31, [coinA, coinB], [fill 32 5], []⟩

/-- The hypotheses of `C131_handed_partial` are met by two shards that attest one input each. -/
example : ∃ a ∈ (Leader.run (fun _ => true) {} [.notify ⟨two, [1], 4⟩, .send true, .notify ⟨two, [0], 3⟩]).log.flatten ++
    (Leader.run (fun _ => true) {} [.notify ⟨two, [1], 4⟩, .send true, .notify ⟨two, [0], 3⟩]).pool.complete, a.tx = two := by
  refine C131_handed_partial _ two _ rfl (by decide) ?_ ?_ (by simp)
  · intro n hn _
    simp only [List.mem_cons, Ev.notify.injEq, List.not_mem_nil, or_false, reduceCtorEq, false_or] at hn
    rcases hn with rfl | rfl
    · exact ⟨rfl, by decide⟩
    · exact ⟨rfl, by decide⟩
  · intro i hi
    have : i = 0 ∨ i = 1 := by have : i < 2 := hi; omega
    rcases this with rfl | rfl
    · exact ⟨_, by simp; exact .inr rfl, rfl, by decide⟩
    · exact ⟨_, by simp; exact .inl rfl, rfl, by decide⟩

/-- **C131, violated.** What was attested to one leader is not known to the next: when the leader changes between the notifications of two shards,
neither hands the transaction over, though both shards have attested its inputs and neither does so again. -/
theorem C131_leaders_violated (b : Bool) :
    (Leader.run (fun _ => true) {} [.notify ⟨two, [0], 3⟩, .send b]).log = [] ∧
    (Leader.run (fun _ => true) {} [.notify ⟨two, [0], 3⟩, .send b]).pool.complete = [] ∧
    (Leader.run (fun _ => true) {} [.notify ⟨two, [1], 3⟩, .send b]).log = [] ∧
    (Leader.run (fun _ => true) {} [.notify ⟨two, [1], 3⟩, .send b]).pool.complete = [] := by
  cases b <;> exact ⟨by decide, by decide, by decide, by decide⟩

/-- **C131, violated.** When a transaction is attested twice, as when a client submits it again, it is confirmed and refused: its second copy
is reported to the watchtowers as an error. -/
theorem C131_twice_violated :
    let l := Leader.run (fun _ => true) {} [.notify ⟨pay, [0], 1⟩, .notify ⟨pay, [0], 1⟩, .send true]
    ∃ ms s0 r0 s1, l.log = [ms] ∧ (SM.new 1).commit .makeBlock = some (s0, r0) ∧
      s0.commit (.notify ms) = some (s1, some (.errors [⟨pay.id, .inputsSpent [coinA]⟩])) ∧ s1.atm.complete = [pay] :=
  ⟨[⟨pay, 1⟩, ⟨pay, 1⟩], _, _, _, by decide, rfl, rfl, by decide⟩

end Verif.Atomizer.Settled
