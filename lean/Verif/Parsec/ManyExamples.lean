import Verif.Parsec.ManyProps
import Verif.Parsec.CommitRuns

/-!
# C87: a run of two brokers with two shards

Concrete states that meet the hypotheses of the theorems.
-/
namespace Verif.Parsec.Broker.Many

/-- Broker 0 has the ticket number 7, broker 1 the number 9. -/
def ownTwo (b : Nat) (t : Tn) : Prop := (b = 0 ∧ t = 7) ∨ (b = 1 ∧ t = 9)

theorem ownTwo_disjoint : Disjoint ownTwo := by
  rintro a b t (⟨rfl, rfl⟩ | ⟨rfl, rfl⟩) (⟨rfl, h⟩ | ⟨rfl, h⟩)
  · rfl
  · cases h
  · cases h
  · rfl

/-- The ticket numbers they are given. -/
def numberOf (b : Nat) : Event → Bool
  | .ticketNumber _ (some (t, _)) => (b = 0 && t = 7) || (b = 1 && t = 9)
  | _ => true

/-- A value that was given: to the transaction of which broker, by which shard, for
which key and request, and which one. -/
structure Given where
  b : Nat
  i : Nat
  t : Tn
  k : Key
  cb : Nat
  m : Nat
  v : Value
  deriving DecidableEq

/-- The values that are given for the keys of the run. -/
def gives (M : Many) (i : Nat) (op : Op) (s : Parsec.State) (o : Parsec.Out) : List Given :=
  [[1], [2]].flatMap fun k => (o.calls k).flatMap fun c => (queueWith (M.shard i) op k).flatMap fun w =>
    match c.2 with
    | .value v =>
      if w.cb = c.1 ∧ heldOf s k w.ticket = some w.type then
        [0, 1].map fun b => ⟨b, i, w.ticket, k, c.1, epoch w.ticket (M.h b), v⟩
      else []
    | .error _ => []

theorem gives_sound {M : Many} {i : Nat} {op : Op} {s : Parsec.State} {o : Parsec.Out} {g : Given}
    (h : g ∈ gives M i op s o) :
    g.i = i ∧ g.m = epoch g.t (M.h g.b) ∧ Gives (M.shard i) op s o g.t g.k g.cb g.v := by
  simp only [gives, List.mem_flatMap] at h
  obtain ⟨k, _, c, h1, w, h2, h3⟩ := h
  split at h3
  · rename_i v hv
    split at h3
    · rename_i hw
      obtain ⟨b, _, rfl⟩ := List.mem_map.mp h3
      refine ⟨rfl, rfl, ?_, w, h2, rfl, hw.1, holds_iff.mpr hw.2⟩
      dsimp only
      rw [← hv]
      exact h1
    · cases h3
  · cases h3

/-- What happens in a run. -/
inductive Deed
  | event (b : Nat) (e : Event)
  | serve (b i : Nat)

/-- `Granted`, computed. -/
def granted (M : Many) (gs : List Given) (b : Nat) : Event → Bool
  | .locked cb t k i (.value v) => gs.contains ⟨b, i, t, k, cb, epoch t (M.h b), v⟩
  | _ => true

/-- One step of a run. -/
def Many.deed (M : Many) (gs : List Given) : Deed → Option (Many × List Given)
  | .event b e =>
    if plain (M.h b) e && orderly (M.h b) e && justified (M.view b) e && numberOf b e && granted M gs b e then
      match step (M.b b) e with
      | some (s, o) => some (M.event b e s o, gs)
      | none => none
    else none
  | .serve b i =>
    match M.net b i with
    | [] => none
    | r :: rest =>
      match r.call.op b with
      | none => none
      | some op =>
        match exec (M.shard i) op with
        | some (s, o) => some (M.serve b i r rest op s o, gs ++ gives M i op s o)
        | none => none

/-- The values in the list were given. -/
def Sound (M : Many) (gs : List Given) : Prop := ∀ g ∈ gs, M.gave g.b g.i g.t g.k g.cb g.m g.v

theorem deed_sound {M M' : Many} {gs gs' : List Given} {a : Deed} (hg : Sound M gs)
    (h : M.deed gs a = some (M', gs')) : M.Step ownTwo M' ∧ Sound M' gs' := by
  cases a with
  | event b e =>
    simp only [Many.deed] at h
    split at h
    · rename_i hc
      simp only [Bool.and_eq_true] at hc
      split at h
      · rename_i s o hs
        cases h
        refine ⟨.event (plain_sound hc.1.1.1.1) (orderly_sound hc.1.1.1.2) (justified_sound hc.1.1.2) ?_ ?_ hs, hg⟩
        · have := hc.2
          cases e with
          | locked cb t k i r =>
            cases r with
            | error _ => trivial
            | value v =>
              simp only [granted, List.contains_iff_mem] at this
              exact hg _ this
          | _ => trivial
        · rintro cb t m rfl
          simpa [numberOf, ownTwo] using hc.1.2
      · cases h
    · cases h
  | serve b i =>
    simp only [Many.deed] at h
    split at h
    · cases h
    · rename_i r rest hn
      split at h
      · cases h
      · rename_i op hop
        split at h
        · rename_i s o he
          cases h
          refine ⟨.serve hn hop he, ?_⟩
          intro g h1
          rcases List.mem_append.mp h1 with h1 | h1
          · exact .inl (hg g h1)
          · exact .inr (gives_sound h1)
        · cases h

/-- A whole run. -/
def Many.deeds (M : Many) (gs : List Given) : List Deed → Option (Many × List Given)
  | [] => some (M, gs)
  | a :: as =>
    match M.deed gs a with
    | some (M', gs') => M'.deeds gs' as
    | none => none

theorem deeds_sound (as : List Deed) : ∀ {M M' : Many} {gs gs' : List Given}, Sound M gs →
    M.deeds gs as = some (M', gs') → Later ownTwo M M' ∧ Sound M' gs' := by
  induction as with
  | nil =>
    intro M M' gs gs' hg h
    cases h
    exact ⟨.refl _, hg⟩
  | cons a as ih =>
    intro M M' gs gs' hg h
    simp only [Many.deeds] at h
    split at h
    · rename_i M1 gs1 h1
      obtain ⟨h2, h3⟩ := deed_sound hg h1
      obtain ⟨h4, h5⟩ := ih h3 h
      refine ⟨?_, h5⟩
      clear h ih h5
      induction h4 with
      | refl => exact .step (.refl _) h2
      | step _ h6 ih => exact .step ih h6
    · cases h

/-- Brokers and shards without data. -/
def nobody : Many := { b := fun _ => { shards := 2 }, shard := fun _ => fresh }

theorem nobody_runs : ManyRuns 2 ownTwo (fun _ _ => []) nobody :=
  .start ⟨fun _ => rfl, fun _ => rfl, fun _ _ => rfl, fun _ _ => rfl, fun _ => fresh_reach, fun _ _ _ _ => rfl,
    fun _ _ _ _ _ _ _ => id, rfl, fun _ => rfl⟩

/-- The state after a run. -/
def Many.after (M : Many) (gs : List Given) (as : List Deed) : Many × List Given := (M.deeds gs as).getD (M, gs)

theorem later_after {M : Many} {gs : List Given} (hg : Sound M gs) (as : List Deed) :
    Later ownTwo M (M.after gs as).1 ∧ Sound (M.after gs as).1 (M.after gs as).2 := by
  unfold Many.after
  cases h : M.deeds gs as with
  | none => exact ⟨.refl _, hg⟩
  | some x => exact deeds_sound as hg h

/-- Ticket 7 locks a key of shard 0 and is committed; meanwhile ticket 9 waits for this
key, and is given the new value. -/
def firstPart : List Deed :=
  [.event 0 (.ticketNumber 0 (some (7, 8))), .event 1 (.ticketNumber 0 (some (9, 10))),
   .event 0 (.tryLock 1 7 true), .event 0 (.foundKey 1 7 [1] .write (some 0) true), .serve 0 0,
   .event 0 (.locked 1 7 [1] 0 (.value [])),
   .event 1 (.tryLock 1 9 true), .event 1 (.foundKey 1 9 [1] .read (some 0) true), .serve 1 0,
   .event 0 (.commit 3 7 [([1], [11])] none), .serve 0 0, .event 0 (.prepared ⟨3, false⟩ 7 0 none none),
   .serve 0 0, .event 0 (.committed ⟨3, false⟩ 7 0 none none),
   .event 1 (.locked 1 9 [1] 0 (.value [11]))]

/-- Ticket 9 locks a key of shard 1 too, asks again for the value it has, and both shards
prepare. -/
def secondPart : List Deed :=
  [.event 1 (.tryLock 2 9 true), .event 1 (.foundKey 2 9 [2] .write (some 1) true), .serve 1 1,
   .event 1 (.locked 2 9 [2] 1 (.value [])),
   .event 1 (.tryLock 4 9 true), .event 1 (.foundKey 4 9 [1] .read (some 0) true),
   .event 1 (.commit 5 9 [([2], [12])] none), .serve 1 0, .serve 1 1,
   .event 1 (.prepared ⟨5, false⟩ 9 0 none none), .event 1 (.prepared ⟨5, false⟩ 9 1 none none), .serve 1 0]

def first : Many × List Given := nobody.after [] firstPart
def second : Many × List Given := first.1.after first.2 secondPart

theorem first_later : Later ownTwo nobody first.1 ∧ Sound first.1 first.2 :=
  later_after (fun _ h => by cases h) _
theorem second_later : Later ownTwo first.1 second.1 ∧ Sound second.1 second.2 := later_after first_later.2 _

theorem first_runs : ManyRuns 2 ownTwo (fun _ _ => []) first.1 := first_later.1.runs nobody_runs
theorem second_runs : ManyRuns 2 ownTwo (fun _ _ => []) second.1 := second_later.1.runs first_runs

/-- The list, with what the transactions found and wrote. -/
def listing (M : Many) : List (Tn × List (Option Value) × List (Option Value)) :=
  M.order.map fun e => (e.ticket, [e.reads 0 [1], e.reads 1 [2]], [e.writes 0 [1], e.writes 1 [2]])

/-- `C87_serializable` and `C87_inputs`: 9 finds what 7 wrote. -/
example : listing second.1 = [(7, [some [], none], [some [11], none]), (9, [some [11], some []], [none, some [12]])] := by
  decide +kernel

/-- One value is stored, the other one will be. -/
example : (second.1.shard 0).value [1] = [11] ∧ (second.1.shard 1).value [2] = [] ∧
    execute (fun _ _ => []) second.1.order 1 [2] = [12] ∧ pendingWrite (second.1.shard 1) 9 [2] = some [12] := by
  decide +kernel

/-- `C87_inputs`, `C87_outputs` and `C87_complete` apply. -/
example : CommitAsked 9 (second.1.h 1) := any_commits.mp (by decide +kernel)
example : ∃ x ∈ attempt 9 (second.1.h 1), Tells x 9 0 [1] [11] := by
  have h1 : ((attempt 9 (second.1.h 1)).any fun x => match x.1, x.2.said with
    | .foundKey 4 9 [1] .read (some 0) true, [.lock 4 9 (.ok [11])] => true
    | _, _ => false) = true := by decide +kernel
  obtain ⟨⟨e, o⟩, h2, h3⟩ := List.any_eq_true.mp h1
  refine ⟨_, h2, 4, ?_⟩
  dsimp only at h3 ⊢
  split at h3
  · rename_i h4
    rw [h4]
    exact ⟨List.mem_singleton.mpr rfl, .inr ⟨.read, true, rfl⟩⟩
  · cases h3
example : ∀ u, UserCommit 9 (second.1.h 1) u → u = [([2], [12])] := by
  rintro u ⟨x, h1, cb, p, h2⟩
  have h3 : ∀ x ∈ attempt 9 (second.1.h 1), ∀ cb u p, x.1 = .commit cb 9 u p → u = [([2], [12])] := by
    have h4 : ((attempt 9 (second.1.h 1)).all fun x => match x.1 with
      | .commit _ _ u _ => u = [([2], [12])]
      | _ => true) = true := by decide +kernel
    intro x h5 cb u p h6
    have := List.all_eq_true.mp h4 x h5
    rw [h6] at this
    simpa using this
  exact h3 x h1 cb u p h2

/-- `C87_strict` applies: 7 was reported to be committed before 9 was asked to be. -/
example : ∃ cb, ∃ x ∈ first.1.h 0, Said.commit cb 7 none ∈ x.2.said := by
  have h1 : ((first.1.h 0).any fun x => match x.2.said with
    | [.commit 3 7 none] => true
    | _ => false) = true := by decide +kernel
  obtain ⟨x, h2, h3⟩ := List.any_eq_true.mp h1
  refine ⟨3, x, h2, ?_⟩
  split at h3
  · rename_i h4
    rw [h4]
    exact List.mem_singleton.mpr rfl
  · cases h3
example : ∀ b, b < 2 → ((first.1.h b).all fun x => match x.1 with
    | .commit _ t _ _ => t ≠ 9
    | _ => true) = true := by decide +kernel

end Verif.Parsec.Broker.Many
