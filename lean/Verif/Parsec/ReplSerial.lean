import Verif.Parsec.ReplProps
import Verif.Parsec.ShardSerial

/-!
# Committed transactions are serializable, also across leaders (C67)

As for C66, requests are made carefully; a repeated commit erases data.
-/
namespace Verif.Parsec

/-- A transaction that was prepared: the keys it had locked with the values
they had, its update, and whether it has been committed. -/
structure Txn where
  ticket : Tn
  reads : Key → Option Value
  update : List (Key × Value)
  committed : Bool

/-- The keys `t` has locked, with their values. -/
def lockedValues (s : State) (t : Tn) : Key → Option Value :=
  fun k => (heldOf s k t).map fun _ => s.value k

/-- What executing a command means for the list of prepared transactions. -/
def followCmd (g : List Txn) (r : RState) : Pend → List Txn
  | .commit t =>
    if (r.tickets.lookup t).isSome then
      g.map fun e => if e.ticket = t then { e with committed := true } else e
    else g
  | .rollback t => g.filter fun e => e.committed || e.ticket ≠ t
  | _ => g

/-- What executing some commands means. -/
def followAll (g : List Txn) (r : RState) : List Pend → List Txn
  | [] => g
  | p :: log => followAll (followCmd g r p) (r.apply p.cmd).1 log

/-- The prepared transactions that have not been given up, in the order in
which they were prepared.  A transaction is given up when it is rolled back
before its commit or when its prepare is lost with the leader. -/
def follow (g : List Txn) (s : Sys) : Event → List Txn
  | .request (.prepare t _ u) =>
    if (prepare s.shard t u).2.result = none then
      g ++ [⟨t, lockedValues s.shard t, u, false⟩]
    else g
  | .apply =>
    match s.log with
    | [] => g
    | p :: _ => followCmd g s.repl p
  | .failover n =>
    (followAll g s.repl (s.log.take n)).filter fun e => e.committed ||
      ((s.repl.applyAll (s.log.take n)).tickets.lookup e.ticket).isSome
  | _ => g

/-- A run with the list of its prepared transactions. -/
inductive Traced : List Txn → Sys → Prop
  | start : Traced [] Sys.init
  | step {g : List Txn} {s s' : Sys} {e : Event} {o : SOut}
      (h : Traced g s) (hc : Careful s e) (hs : s.step e = some (s', o)) :
      Traced (follow g s e) s'

/-- A serial execution: one transaction after the other, each finding the
values it was given. -/
inductive Serial : (Key → Value) → List Txn → (Key → Value) → Prop
  | nil (v : Key → Value) : Serial v [] v
  | cons {v w : Key → Value} {f : Txn} {fs : List Txn}
      (h : ∀ k x, f.reads k = some x → x = v k)
      (hs : Serial (fun k => (f.update.lookup k).getD (v k)) fs w) :
      Serial v (f :: fs) w

/-! ### Lists of transactions -/

/-- The values after a transaction, if it is committed. -/
def Txn.next (e : Txn) (v : Key → Value) : Key → Value :=
  if e.committed then applyUpdate v e.update else v

/-- The values after all committed transactions. -/
def replay (v : Key → Value) : List Txn → Key → Value
  | [] => v
  | e :: g => replay (e.next v) g

/-- Every transaction, committed or not, finds what it was given. -/
def SerialOk (v : Key → Value) : List Txn → Prop
  | [] => True
  | e :: g => (∀ k x, e.reads k = some x → x = v k) ∧ SerialOk (e.next v) g

theorem serial_of_ok (g : List Txn) (v : Key → Value) (h : SerialOk v g) :
    Serial v (g.filter fun e => e.committed) (replay v g) := by
  induction g generalizing v with
  | nil => exact .nil v
  | cons e g ih =>
    unfold replay
    cases hc : e.committed with
    | false =>
      rw [List.filter_cons_of_neg (by simp [hc])]
      have := ih _ h.2
      simpa [Txn.next, hc] using this
    | true =>
      rw [List.filter_cons_of_pos (by simp [hc])]
      have := ih _ h.2
      refine .cons h.1 ?_
      simp only [Txn.next, hc, if_true] at this ⊢
      exact this

theorem replay_append (g g' : List Txn) (v : Key → Value) :
    replay v (g ++ g') = replay (replay v g) g' := by
  induction g generalizing v with
  | nil => rfl
  | cons e g ih => exact ih _

theorem serialOk_append (g g' : List Txn) (v : Key → Value) :
    SerialOk v (g ++ g') ↔ SerialOk v g ∧ SerialOk (replay v g) g' := by
  induction g generalizing v with
  | nil => simp [SerialOk, replay]
  | cons e g ih =>
    simp only [List.cons_append, SerialOk, replay, ih, and_assoc]

theorem replay_filter (p : Txn → Bool) (g : List Txn)
    (hp : ∀ e ∈ g, e.committed = true → p e = true) (v : Key → Value) :
    replay v (g.filter p) = replay v g := by
  induction g generalizing v with
  | nil => rfl
  | cons e g ih =>
    have ih' := ih (fun x hx => hp x (List.mem_cons_of_mem _ hx))
    cases hpe : p e with
    | true =>
      rw [List.filter_cons_of_pos hpe]
      exact ih' _
    | false =>
      rw [List.filter_cons_of_neg (by simp [hpe])]
      have hc : e.committed = false := by
        cases h : e.committed with
        | false => rfl
        | true =>
          rw [hp e List.mem_cons_self h] at hpe
          simp at hpe
      rw [ih']
      simp [replay, Txn.next, hc]

theorem serialOk_filter (p : Txn → Bool) (g : List Txn)
    (hp : ∀ e ∈ g, e.committed = true → p e = true) (v : Key → Value)
    (h : SerialOk v g) : SerialOk v (g.filter p) := by
  induction g generalizing v with
  | nil => exact h
  | cons e g ih =>
    have ih' := ih (fun x hx => hp x (List.mem_cons_of_mem _ hx)) _ h.2
    cases hpe : p e with
    | true =>
      rw [List.filter_cons_of_pos hpe]
      exact ⟨h.1, ih'⟩
    | false =>
      rw [List.filter_cons_of_neg (by simp [hpe])]
      have hc : e.committed = false := by
        cases h : e.committed with
        | false => rfl
        | true =>
          rw [hp e List.mem_cons_self h] at hpe
          simp at hpe
      simpa [Txn.next, hc] using ih'

/-- `u` and the transaction have no key in common. -/
def Apart (u : List (Key × Value)) (f : Txn) : Prop :=
  ∀ p ∈ u, f.reads p.1 = none

/-- The transaction updates only keys it has locked. -/
def Own (f : Txn) : Prop := ∀ p ∈ f.update, f.reads p.1 ≠ none

theorem lookup_none_of {u : List (Key × Value)} {k : Key}
    (h : ∀ p ∈ u, p.1 ≠ k) : u.lookup k = none := by
  induction u with
  | nil => rfl
  | cons p u ih =>
    obtain ⟨x, y⟩ := p
    have hb : (k == x) = false := by
      simpa using fun e => h (x, y) List.mem_cons_self e.symm
    simp only [List.lookup_cons, hb]
    exact ih (fun q hq => h q (List.mem_cons_of_mem _ hq))

theorem mem_of_lookup_some {u : List (Key × Value)} {k : Key} {v : Value}
    (h : u.lookup k = some v) : ∃ p ∈ u, p.1 = k := by
  apply Classical.byContradiction
  intro hn
  have : u.lookup k = none := lookup_none_of (fun p hp he => hn ⟨p, hp, he⟩)
  rw [this] at h
  simp at h

/-- A transaction apart from an update commutes with it. -/
theorem next_applyUpdate {u : List (Key × Value)} {f : Txn} (ha : Apart u f)
    (ho : Own f) (v : Key → Value) :
    f.next (applyUpdate v u) = applyUpdate (f.next v) u := by
  unfold Txn.next
  split
  · funext k
    unfold applyUpdate
    cases h1 : u.lookup k with
    | none => simp
    | some x =>
      obtain ⟨p, hp, rfl⟩ := mem_of_lookup_some h1
      have h2 : f.update.lookup p.1 = none := by
        apply lookup_none_of
        intro q hq he
        have := ho q hq
        rw [he, ha p hp] at this
        exact this rfl
      simp [h2]
  · rfl

theorem replay_applyUpdate {u : List (Key × Value)} (g : List Txn)
    (ha : ∀ f ∈ g, Apart u f) (ho : ∀ f ∈ g, Own f) (v : Key → Value) :
    replay (applyUpdate v u) g = applyUpdate (replay v g) u := by
  induction g generalizing v with
  | nil => rfl
  | cons e g ih =>
    unfold replay
    rw [next_applyUpdate (ha e List.mem_cons_self) (ho e List.mem_cons_self)]
    exact ih (fun f hf => ha f (List.mem_cons_of_mem _ hf))
      (fun f hf => ho f (List.mem_cons_of_mem _ hf)) _

theorem serialOk_applyUpdate {u : List (Key × Value)} (g : List Txn)
    (ha : ∀ f ∈ g, Apart u f) (ho : ∀ f ∈ g, Own f) (v : Key → Value)
    (h : SerialOk v g) : SerialOk (applyUpdate v u) g := by
  induction g generalizing v with
  | nil => exact h
  | cons e g ih =>
    have he := ha e List.mem_cons_self
    refine ⟨?_, ?_⟩
    · intro k x hx
      rw [h.1 k x hx]
      unfold applyUpdate
      rw [lookup_none_of]
      · rfl
      · intro p hp hk
        have := he p hp
        rw [hk, hx] at this
        simp at this
    · rw [next_applyUpdate he (ho e List.mem_cons_self)]
      exact ih (fun f hf => ha f (List.mem_cons_of_mem _ hf))
        (fun f hf => ho f (List.mem_cons_of_mem _ hf)) _ h.2

/-! ### The invariant -/

/-- The transaction list explains the state of the cluster. -/
structure Ser (g : List Txn) (s : Sys) : Prop where
  undecided : ∀ e ∈ g, e.committed = false →
    ∃ b, markOf s.shard e.ticket = .prepared b e.update
  present : ∀ t b u, markOf s.shard t = .prepared b u →
    ∃ e ∈ g, e.ticket = t ∧ e.committed = false
  unique : g.Pairwise fun a b => a.ticket = b.ticket →
    a.committed = true
  later : g.Pairwise fun e f => e.committed = false → Apart e.update f
  own : ∀ f ∈ g, Own f
  serial : SerialOk (fun _ => []) g
  value : s.shard.value = replay (fun _ => []) g

/-- Only what the shard says about marks and values matters. -/
theorem Ser.congr {g : List Txn} {s s' : Sys} (h : Ser g s)
    (hm : ∀ t, markOf s'.shard t = markOf s.shard t)
    (hv : s'.shard.value = s.shard.value) : Ser g s' where
  undecided := by
    intro e he hc
    rw [hm]
    exact h.undecided e he hc
  present := by
    intro t b u ht
    rw [hm] at ht
    exact h.present t b u ht
  unique := h.unique
  later := h.later
  own := h.own
  serial := h.serial
  value := hv.trans h.value

theorem Ser.prepare {g : List Txn} {s : Sys} (h : Ser g s) (hs : Sync s)
    {t : Tn} {u : List (Key × Value)} {s' : Sys}
    (hres : (Parsec.prepare s.shard t u).2.result = none)
    (hs' : s'.shard = (Parsec.prepare s.shard t u).1) :
    Ser (g ++ [⟨t, lockedValues s.shard t, u, false⟩]) s' := by
  have inv := hs.reach.inv
  have he : exec s.shard (.prepare t u) =
      some ((Parsec.prepare s.shard t u).1,
        (Parsec.prepare s.shard t u).2) := rfl
  have hmt : markOf s'.shard t = .prepared (brokerOf s.shard t) u := by
    rw [hs', exec_mark inv he t]
    simp [markStep, Op.ticket, hres]
  have hmo : ∀ x, x ≠ t → markOf s'.shard x = markOf s.shard x := by
    intro x hx
    rw [hs']
    exact exec_mark_other inv he hx
  have hidle : markOf s.shard t = .idle ∧
      ∀ p ∈ u, heldOf s.shard p.1 t = some .write := by
    rcases prepare_cases s.shard t u with g | ⟨tk, h1, h2, h3⟩
    · exact absurd hres g.2
    · obtain ⟨g1, -, g3⟩ := prepareError_none h2
      refine ⟨?_, ?_⟩
      · unfold markOf
        rw [h1]
        simp only [Ticket.mark, g1]
      · intro p hp
        rw [heldOf_some h1]
        exact g3 p hp
  have hnot : ∀ e ∈ g, e.committed = false → e.ticket ≠ t := by
    intro e he hc hx
    obtain ⟨b, hb⟩ := h.undecided e he hc
    rw [hx, hidle.1] at hb
    simp at hb
  have hval : s'.shard.value = s.shard.value := by
    rw [hs']
    exact exec_value_eq inv he (by simp)
  constructor
  · intro e he hc
    rcases List.mem_append.mp he with he | he
    · rw [hmo _ (hnot e he hc)]
      exact h.undecided e he hc
    · rw [List.mem_singleton.mp he]
      exact ⟨_, hmt⟩
  · intro x b v hx
    by_cases hxt : x = t
    · exact ⟨_, List.mem_append_right _ List.mem_cons_self, hxt.symm, rfl⟩
    · rw [hmo x hxt] at hx
      obtain ⟨e, he, h1, h2⟩ := h.present x b v hx
      exact ⟨e, List.mem_append_left _ he, h1, h2⟩
  · rw [List.pairwise_append]
    refine ⟨h.unique, List.pairwise_singleton _ _, ?_⟩
    intro a ha b hb hab
    rw [List.mem_singleton.mp hb] at hab
    cases hc : a.committed with
    | true => rfl
    | false => exact absurd hab (hnot a ha hc)
  · rw [List.pairwise_append]
    refine ⟨h.later, List.pairwise_singleton _ _, ?_⟩
    intro e he f hf hc p hp
    rw [List.mem_singleton.mp hf]
    simp only [lockedValues, Option.map_eq_none_iff]
    cases hh : heldOf s.shard p.1 t with
    | none => rfl
    | some ty =>
      exfalso
      obtain ⟨b, hb⟩ := h.undecided e he hc
      obtain ⟨tk, k1, k2, -, k4⟩ := markOf_prepared.mp hb
      have hw := (inv.prep e.ticket tk k1 k2).2 p (by rw [k4]; exact hp)
      have := C39_exclusion hs.reach (k := p.1) ⟨tk, k1, hw⟩
        (holds_iff.mpr hh)
      exact hnot e he hc this
  · intro f hf
    rcases List.mem_append.mp hf with hf | hf
    · exact h.own f hf
    · rw [List.mem_singleton.mp hf]
      intro p hp
      simp only [lockedValues, hidle.2 p hp]
      simp
  · rw [serialOk_append]
    refine ⟨h.serial, ?_, trivial⟩
    intro k x hx
    rw [← h.value]
    simp only [lockedValues, Option.map_eq_some_iff] at hx
    obtain ⟨_, _, rfl⟩ := hx
    rfl
  · rw [replay_append, hval, h.value]
    rfl

/-- The list after the commit of `t`. -/
theorem commit_split {g : List Txn} {t : Tn} {e : Txn} (he : e ∈ g)
    (ht : e.ticket = t) (hc : e.committed = false)
    (hu : g.Pairwise fun a b => a.ticket = b.ticket → a.committed = true) :
    ∃ xs ys, g = xs ++ e :: ys ∧ (∀ f ∈ ys, f.ticket ≠ t) ∧
      (∀ f ∈ xs, f.ticket = t → f.committed = true) ∧
      (g.map fun e => if e.ticket = t then { e with committed := true } else e)
        = xs ++ { e with committed := true } :: ys := by
  obtain ⟨xs, ys, rfl⟩ := List.append_of_mem he
  have hu' := List.pairwise_append.mp hu
  have hy : ∀ f ∈ ys, f.ticket ≠ t := by
    intro f hf hft
    have := (List.pairwise_cons.mp hu'.2.1).1 f hf (by rw [ht, hft])
    rw [hc] at this
    simp at this
  have hx : ∀ f ∈ xs, f.ticket = t → f.committed = true := by
    intro f hf hft
    exact hu'.2.2 f hf e List.mem_cons_self (by rw [ht, hft])
  refine ⟨xs, ys, rfl, hy, hx, ?_⟩
  rw [List.map_append, List.map_cons, if_pos ht]
  have hid : ∀ l : List Txn, (∀ f ∈ l, f.ticket = t → f.committed = true) →
      (l.map fun e => if e.ticket = t then { e with committed := true } else e)
        = l := by
    intro l hl
    induction l with
    | nil => rfl
    | cons f l ih =>
      rw [List.map_cons, ih (fun q hq => hl q (List.mem_cons_of_mem _ hq))]
      congr 1
      split
      · rename_i hft
        have := hl f List.mem_cons_self hft
        cases f
        simp_all
      · rfl
  rw [hid xs hx, hid ys (fun f hf hft => absurd hft (hy f hf))]

theorem Ser.commit {g : List Txn} {s s' : Sys} (h : Ser g s) (hs : Sync s)
    {t : Tn} {b : Nat} {u : List (Key × Value)}
    (hm : markOf s.shard t = .prepared b u)
    (hs' : s'.shard = (Parsec.commit s.shard t).1) :
    Ser (g.map fun e =>
      if e.ticket = t then { e with committed := true } else e) s' := by
  have inv := hs.reach.inv
  obtain ⟨tk, k1, k2, k3, k4⟩ := markOf_prepared.mp hm
  have hres : (Parsec.commit s.shard t).2.result = none := by
    unfold Parsec.commit
    rw [k1]
    simp [k2]
  have hx : exec s.shard (.commit t) =
      some ((Parsec.commit s.shard t).1, (Parsec.commit s.shard t).2) := rfl
  have hmt : ∀ b u, markOf s'.shard t ≠ .prepared b u := by
    intro b u
    rw [hs', exec_mark inv hx t]
    simp [markStep, Op.ticket, hres]
  have hmo : ∀ x, x ≠ t → markOf s'.shard x = markOf s.shard x := by
    intro x hne
    rw [hs']
    exact exec_mark_other inv hx hne
  have hval : s'.shard.value = applyUpdate s.shard.value u := by
    rw [hs']
    rcases commit_cases s.shard t with hc | ⟨tk', g1, g2, g3⟩
    · exact absurd hres hc.2.1
    · rw [g3]
      rw [k1] at g1
      rw [← Option.some.inj g1]
      simp only [acquire_value, released, applied, k4]
  obtain ⟨e, he, het, hec⟩ := h.present t b u hm
  have heu : e.update = u := by
    obtain ⟨b', hb'⟩ := h.undecided e he hec
    rw [het, hm] at hb'
    simp only [Mark.prepared.injEq] at hb'
    exact hb'.2.symm
  obtain ⟨xs, ys, hg, hy, hxs, hmap⟩ := commit_split he het hec h.unique
  rw [hmap]
  have hlater := h.later
  have hown := h.own
  have hser := h.serial
  have hv := h.value
  have huniq := h.unique
  rw [hg] at hlater hown hser hv huniq
  have hl' := List.pairwise_append.mp hlater
  have hu' := List.pairwise_append.mp huniq
  have hap : ∀ f ∈ ys, Apart u f := by
    intro f hf
    rw [← heu]
    exact (List.pairwise_cons.mp hl'.2.1).1 f hf hec
  have hoy : ∀ f ∈ ys, Own f := fun f hf =>
    hown f (List.mem_append_right _ (List.mem_cons_of_mem _ hf))
  have hmem : ∀ f, f ∈ xs ++ { e with committed := true } :: ys →
      f.committed = false → f ∈ g ∧ f.ticket ≠ t := by
    intro f hf hfc
    rw [hg]
    rcases List.mem_append.mp hf with hf | hf
    · refine ⟨List.mem_append_left _ hf, ?_⟩
      intro hft
      rw [hxs f hf hft] at hfc
      simp at hfc
    · rcases List.mem_cons.mp hf with rfl | hf
      · simp at hfc
      · exact ⟨List.mem_append_right _ (List.mem_cons_of_mem _ hf), hy f hf⟩
  have hnx : ({ e with committed := true } : Txn).next
      (replay (fun _ => []) xs) =
      applyUpdate (e.next (replay (fun _ => []) xs)) u := by
    simp [Txn.next, hec, heu]
  constructor
  · intro f hf hfc
    obtain ⟨h1, h2⟩ := hmem f hf hfc
    rw [hmo _ h2]
    exact h.undecided f h1 hfc
  · intro x b' v hxm
    have hxt : x ≠ t := by
      rintro rfl
      exact hmt b' v hxm
    rw [hmo x hxt] at hxm
    obtain ⟨f, hf, h1, h2⟩ := h.present x b' v hxm
    refine ⟨f, ?_, h1, h2⟩
    rw [hg] at hf
    rcases List.mem_append.mp hf with hf | hf
    · exact List.mem_append_left _ hf
    · rcases List.mem_cons.mp hf with rfl | hf
      · exact absurd (h1.symm.trans het) hxt
      · exact List.mem_append_right _ (List.mem_cons_of_mem _ hf)
  · rw [List.pairwise_append]
    refine ⟨hu'.1, ?_, ?_⟩
    · rw [List.pairwise_cons]
      exact ⟨fun _ _ _ => rfl, (List.pairwise_cons.mp hu'.2.1).2⟩
    · intro a ha c hc hac
      rcases List.mem_cons.mp hc with rfl | hc
      · exact hu'.2.2 a ha e List.mem_cons_self hac
      · exact hu'.2.2 a ha c (List.mem_cons_of_mem _ hc) hac
  · rw [List.pairwise_append]
    refine ⟨hl'.1, ?_, ?_⟩
    · rw [List.pairwise_cons]
      refine ⟨?_, (List.pairwise_cons.mp hl'.2.1).2⟩
      intro f _ hfalse
      simp at hfalse
    · intro a ha c hc hac
      rcases List.mem_cons.mp hc with rfl | hc
      · exact hl'.2.2 a ha e List.mem_cons_self hac
      · exact hl'.2.2 a ha c (List.mem_cons_of_mem _ hc) hac
  · intro f hf
    rcases List.mem_append.mp hf with hf | hf
    · exact hown f (List.mem_append_left _ hf)
    · rcases List.mem_cons.mp hf with rfl | hf
      · exact hown e (List.mem_append_right _ List.mem_cons_self)
      · exact hoy f hf
  · rw [serialOk_append] at hser ⊢
    refine ⟨hser.1, hser.2.1, ?_⟩
    rw [hnx]
    exact serialOk_applyUpdate ys hap hoy _ hser.2.2
  · rw [hval, hv, replay_append, replay_append]
    unfold replay
    rw [hnx, replay_applyUpdate ys hap hoy]

/-- Undecided transactions are given up. -/
theorem Ser.drop {g : List Txn} {s s' : Sys} (h : Ser g s) (p : Txn → Bool)
    (hp : ∀ e ∈ g, e.committed = true → p e = true)
    (hkeep : ∀ e ∈ g, e.committed = false → p e = true →
      markOf s'.shard e.ticket = markOf s.shard e.ticket)
    (hnew : ∀ t b u, markOf s'.shard t = .prepared b u →
      markOf s.shard t = .prepared b u ∧
      ∀ e ∈ g, e.ticket = t → p e = true)
    (hv : s'.shard.value = s.shard.value) : Ser (g.filter p) s' where
  undecided := by
    intro e he hc
    obtain ⟨h1, h2⟩ := List.mem_filter.mp he
    rw [hkeep e h1 hc h2]
    exact h.undecided e h1 hc
  present := by
    intro t b u ht
    obtain ⟨h1, h2⟩ := hnew t b u ht
    obtain ⟨e, he, h3, h4⟩ := h.present t b u h1
    exact ⟨e, List.mem_filter.mpr ⟨he, h2 e he h3⟩, h3, h4⟩
  unique := List.Pairwise.filter _ h.unique
  later := List.Pairwise.filter _ h.later
  own := fun f hf => h.own f (List.mem_filter.mp hf).1
  serial := serialOk_filter p g hp _ h.serial
  value := by
    rw [replay_filter p g hp]
    exact hv.trans h.value

/-- The list after the next command. -/
def followApply (g : List Txn) (s : Sys) : List Txn :=
  match s.log with
  | [] => g
  | p :: _ => followCmd g s.repl p

theorem Ser.apply {g : List Txn} {s : Sys} (h : Ser g s) (hs : Sync s) :
    Ser (followApply g s) s.apply.1 := by
  have inv := hs.reach.inv
  unfold followApply Sys.apply
  cases hl : s.log with
  | nil => exact h
  | cons p log =>
    cases p with
    | prepare t b u => exact h.congr (fun _ => rfl) rfl
    | commit t =>
      simp only [followCmd]
      cases hr : s.repl.tickets.lookup t with
      | none =>
        rw [if_neg (by simp)]
        simp only [Pend.cmd, apply_commit_none hr, afterCmd]
        exact h.congr (fun _ => rfl) rfl
      | some r =>
        rw [if_pos (show (some r).isSome = true from rfl)]
        have hin : Pend.commit t ∈ s.log := by
          rw [hl]
          exact List.mem_cons_self
        have hm : ∃ b u, markOf s.shard t = .prepared b u := by
          have ht := hs.ticket t
          cases hm : markOf s.shard t with
          | idle =>
            rw [hm, hr] at ht
            exact absurd ht.1 (by simp)
          | committed b' =>
            rw [hm] at ht
            exact absurd hin ht.2.2
          | prepared b u => exact ⟨b, u, rfl⟩
        obtain ⟨b, u, hm⟩ := hm
        refine h.commit hs hm ?_
        simp only [Pend.cmd, RState.apply, hr, afterCmd]
    | rollback t =>
      simp only [followCmd, afterCmd]
      have hx : exec s.shard (.rollback t) =
          some ((rollback s.shard t).1, (rollback s.shard t).2) := rfl
      have hmt : markOf (rollback s.shard t).1 t = .idle := by
        rw [exec_mark inv hx t]
        simp only [markStep, Op.ticket, ne_eq, not_true_eq_false, if_false]
        split
        · rfl
        · rename_i hne
          rcases rollback_cases s.shard t with g | ⟨tk, g1, g2⟩
          · simp [markOf, g.1]
          · rw [g2] at hne
            exact absurd rfl hne
      refine h.drop _ ?_ ?_ ?_ ?_
      · intro e _ hc
        simp [hc]
      · intro e _ hc hp
        rw [hc] at hp
        simp only [Bool.false_or, decide_eq_true_eq] at hp
        exact exec_mark_other inv hx hp
      · intro x b u hxm
        have hxt : x ≠ t := by
          rintro rfl
          simp only at hxm
          rw [hmt] at hxm
          simp at hxm
        simp only at hxm
        rw [exec_mark_other inv hx hxt] at hxm
        refine ⟨hxm, ?_⟩
        intro e _ het
        simp [het, hxt]
      · exact exec_value_eq inv hx (by simp)
    | finish t =>
      simp only [followCmd, afterCmd]
      have hx : exec s.shard (.finish t) =
          some ((finish s.shard t).1, (finish s.shard t).2) := rfl
      have hfin : ∀ b u, markOf s.shard t ≠ .prepared b u :=
        hs.fin t (by rw [hl]; exact List.mem_cons_self)
      have hnp : ∀ b u, markOf (finish s.shard t).1 t ≠ .prepared b u := by
        intro b u
        rw [exec_mark inv hx t]
        simp only [markStep, Op.ticket, ne_eq, not_true_eq_false, if_false]
        split
        · simp
        · exact hfin b u
      have hg : g = g.filter fun _ => true :=
        (List.filter_eq_self.mpr (fun _ _ => rfl)).symm
      rw [hg]
      refine h.drop _ (fun _ _ _ => rfl) ?_ ?_ ?_
      · intro e he hc _
        refine exec_mark_other inv hx ?_
        intro het
        obtain ⟨b, hb⟩ := h.undecided e he hc
        simp only [Op.ticket] at het
        rw [het] at hb
        exact hfin _ _ hb
      · intro x b u hxm
        have hxt : x ≠ t := by
          rintro rfl
          exact hnp b u hxm
        simp only at hxm
        rw [exec_mark_other inv hx hxt] at hxm
        exact ⟨hxm, fun _ _ _ => rfl⟩
      · exact exec_value_eq inv hx (by simp)

/-- The list after `n` commands. -/
def followN (g : List Txn) (s : Sys) : Nat → List Txn
  | 0 => g
  | n + 1 => followN (followApply g s) s.apply.1 n

theorem Ser.applyN {g : List Txn} {s : Sys} (h : Ser g s) (hs : Sync s)
    (n : Nat) : Ser (followN g s n) (s.applyN n) := by
  induction n generalizing g s with
  | zero => exact h
  | succ n ih => exact ih (h.apply hs) (apply_sync hs)

theorem followN_eq (g : List Txn) (s : Sys) (n : Nat) :
    followN g s n = followAll g s.repl (s.log.take n) := by
  induction n generalizing g s with
  | zero => simp [followN, followAll]
  | succ n ih =>
    unfold followN
    rw [ih]
    cases hl : s.log with
    | nil => simp [Sys.apply, followApply, hl, followAll]
    | cons p log =>
      obtain ⟨h1, h2⟩ := apply_repl hl
      rw [h1, h2]
      simp [followAll, followApply, hl]

theorem Ser.failover {g : List Txn} {s : Sys} (h : Ser g s) (hs : Sync s)
    (n : Nat) : Ser (follow g s (.failover n)) (s.failover n) := by
  have h1 := h.applyN hs n
  have hs1 := applyN_sync hs n
  have hs2 := failover_sync hs n
  have hrepl : (s.failover n).repl = (s.applyN n).repl := by
    rw [failover_eq]
  unfold follow
  simp only
  rw [← followN_eq, ← applyN_repl]
  refine h1.drop _ ?_ ?_ ?_ ?_
  · intro e _ hc
    simp [hc]
  · intro e he hc hp
    rw [hc] at hp
    simp only [Bool.false_or] at hp
    obtain ⟨b, hb⟩ := h1.undecided e he hc
    have ht := hs1.ticket e.ticket
    rw [hb] at ht ⊢
    rcases ht with ⟨g1, _⟩ | ⟨g1, _⟩
    · rw [← hrepl] at g1
      exact hs2.prepared g1
    · rw [g1] at hp
      simp at hp
  · intro t b u ht
    have hlk : (s.applyN n).repl.tickets.lookup t = some ⟨b, u, false⟩ := by
      have h2 := hs2.ticket t
      rw [ht, hrepl] at h2
      rcases h2 with ⟨g1, _⟩ | ⟨_, pre, post, g2, _⟩
      · exact g1
      · rw [failover_eq] at g2
        simp at g2
    refine ⟨hs1.prepared hlk, ?_⟩
    intro e _ het
    rw [het, hlk]
    simp
  · rw [failover_eq, ← hs1.values]
    rfl

theorem Ser.step {g : List Txn} {s : Sys} (h : Ser g s) (hs : Sync s)
    {e : Event} {s' : Sys} {o : SOut} (hst : s.step e = some (s', o)) :
    Ser (follow g s e) s' := by
  have inv := hs.reach.inv
  cases e with
  | request r =>
    cases r with
    | tryLock t b k ty f cb =>
      simp only [Sys.step, Sys.request] at hst
      cases hl : tryLock s.shard t b k ty f cb with
      | none => simp [hl] at hst
      | some q =>
        obtain ⟨sh, o'⟩ := q
        simp only [hl, Option.some.injEq, Prod.mk.injEq] at hst
        rw [← hst.1]
        have he : exec s.shard (.tryLock t b k ty f cb) = some (sh, o') := hl
        refine h.congr ?_ (exec_value_eq inv he (by simp))
        intro x
        simp only
        rw [exec_mark inv he x]
        unfold markStep
        split <;> rfl
    | prepare t b u =>
      simp only [Sys.step, Sys.request] at hst
      cases hl : (Parsec.prepare s.shard t u).2.result with
      | some e =>
        simp only [hl, Option.some.injEq, Prod.mk.injEq] at hst
        simp only [follow, hl]
        rw [← hst.1]
        exact h
      | none =>
        simp only [hl, Option.some.injEq, Prod.mk.injEq] at hst
        simp only [follow, hl, if_true]
        exact h.prepare hs hl (by rw [← hst.1])
    | commit t =>
      simp only [Sys.step, Sys.request, Option.some.injEq, Prod.mk.injEq]
        at hst
      rw [← hst.1]
      exact h.congr (fun _ => rfl) rfl
    | rollback t =>
      simp only [Sys.step, Sys.request, Option.some.injEq, Prod.mk.injEq]
        at hst
      rw [← hst.1]
      exact h.congr (fun _ => rfl) rfl
    | finish t =>
      simp only [Sys.step, Sys.request, Option.some.injEq, Prod.mk.injEq]
        at hst
      rw [← hst.1]
      exact h.congr (fun _ => rfl) rfl
  | apply =>
    simp only [Sys.step, Option.some.injEq] at hst
    rw [show s' = s.apply.1 by rw [hst]]
    exact h.apply hs
  | failover n =>
    simp only [Sys.step, Option.some.injEq, Prod.mk.injEq] at hst
    rw [← hst.1]
    exact h.failover hs n

theorem Traced.ok {g : List Txn} {s : Sys} (h : Traced g s) :
    Sync s ∧ Ser g s := by
  induction h with
  | start =>
    refine ⟨recovered_sync wf_nil, ?_⟩
    constructor
    · simp
    · intro t b u ht
      simp [Sys.init, Sys.failover, RState.applyAll, markOf, recover] at ht
    · exact List.Pairwise.nil
    · exact List.Pairwise.nil
    · simp
    · trivial
    · rfl
  | step _ hc hs ih => exact ⟨step_sync ih.1 hc hs, ih.2.step ih.1 hs⟩

/-- **C67, partial** (careful requests). In every run of the cluster, with any number of changes of the
leader, the committed transactions executed one after the other, in the order
in which they were prepared, start from an empty store, find the values they had
locked, and lead to the current data. -/
theorem C67_serializable_partial {g : List Txn} {s : Sys} (h : Traced g s) :
    Serial (fun _ => []) (g.filter fun e => e.committed) s.shard.value := by
  obtain ⟨_, h2⟩ := h.ok
  rw [h2.value]
  exact serial_of_ok g _ h2.serial

/-- Every state of a leader is reached by the operations of its own time. -/
theorem Reach.hist {s : State} (h : Reach s) :
    ∃ value ts hist, Hist value ts hist s := by
  induction h with
  | start value ts wf => exact ⟨value, ts, [], .start wf⟩
  | step _ he ih =>
    obtain ⟨value, ts, hist, hh⟩ := ih
    exact ⟨value, ts, _, .step hh he⟩

/-- **C67.** The values a transaction had locked when its prepare was accepted
are those the shard gave it through the callbacks of its lock requests. -/
theorem C67_inputs {g : List Txn} {s : Sys} (h : Traced g s) {t : Tn}
    {u : List (Key × Value)}
    (hp : (Parsec.prepare s.shard t u).2.result = none) {k : Key} {v : Value}
    (hk : lockedValues s.shard t k = some v) :
    ∃ value ts hist, Hist value ts hist s.shard ∧
      Given value ts hist s.shard t k v := by
  obtain ⟨value, ts, hist, hh⟩ := h.ok.1.reach.hist
  refine ⟨value, ts, hist, hh, ?_⟩
  simp only [lockedValues, Option.map_eq_some_iff] at hk
  obtain ⟨ty, h1, rfl⟩ := hk
  refine C65_unprepared hh ?_ (holds_iff.mpr h1)
  rintro ⟨tk, g1, g2⟩
  rcases prepare_cases s.shard t u with hc | ⟨tk', g3, g4, -⟩
  · exact hc.2 hp
  · rw [g1] at g3
    have := (prepareError_none g4).1
    rw [← Option.some.inj g3, g2] at this
    simp at this

/-- Runs events and keeps the list of transactions, for examples. -/
def traceEvents (g : List Txn) (s : Sys) : List Event →
    Option (List Txn × Sys)
  | [] => some (g, s)
  | e :: es =>
    match s.step e with
    | none => none
    | some (s', _) => traceEvents (follow g s e) s' es

/-- Transaction 1 reads key 2 and updates key 1; after a change of leader its
read lock is gone, transaction 2 updates key 2 and commits first.  Both are
committed, in the order 1, 2. -/
def lostReadLock : List Event :=
  [.request (.tryLock 1 0 [1] .write true 10),
   .request (.tryLock 1 0 [2] .read false 11),
   .request (.prepare 1 0 [([1], [7])]), .apply, .failover 0,
   .request (.tryLock 2 0 [2] .write true 20),
   .request (.prepare 2 0 [([2], [8])]), .apply,
   .request (.commit 2), .apply, .request (.commit 1), .apply]

/-- The run is one of those C67 is about. -/
example : carefulRun Sys.init lostReadLock = true := by decide

example : ((traceEvents [] Sys.init lostReadLock).map fun r =>
    r.1.map fun e => (e.ticket, e.committed)) =
    some [(1, true), (2, true)] := by decide

example : ((traceEvents [] Sys.init lostReadLock).map fun r =>
    r.1.map fun e => (e.reads [1], e.reads [2])) =
    some [(some [], some []), (none, some [])] := by decide

example : ((traceEvents [] Sys.init lostReadLock).map fun r =>
    (r.2.shard.value [1], r.2.shard.value [2])) =
    some ([7], [8]) := by decide

/-- **Across leaders the order of commits is not a serial order**, unlike C65 for one
leader. In that run transaction 1 commits
though the value of key 2, which it had read under a lock, is no longer the
current one: the order of the commits is not a serial order. -/
theorem C67_commit_order_violated :
    ((traceEvents [] Sys.init (lostReadLock.take 10)).map fun r =>
      ((r.1.filter fun e => e.ticket = 1).map fun e =>
        (e.committed, e.reads [2]), r.2.shard.value [2])) =
      some ([(false, some [])], [8]) := by decide

end Verif.Parsec
