import Verif.Parsec.CommitProps

/-!
# C85: runs of a broker with two shards

Concrete runs that meet the hypotheses of the theorems, and runs that show what
happens without the order the theorems assume.
-/
namespace Verif.Parsec.Broker

/-- `Orderly`, computed. -/
def orderly (h : Hist) : Event → Bool
  | .foundKey _ t _ _ _ _ => (attempt t h).all fun x => x.2.calls.all fun c => match c with
    | .prepare _ y _ _ => y ≠ t
    | .rollback _ y _ => y ≠ t
    | _ => true
  | .commit _ t _ _ => (attempt t h).all fun x => x.2.calls.all fun c => match c with
    | .rollback _ y _ => y ≠ t
    | _ => true
  | _ => true

theorem orderly_sound {h : Hist} {e : Event} (ho : orderly h e = true) : Orderly h e := by
  cases e with
  | foundKey cb t k ty r ok =>
    simp only [orderly, List.all_eq_true] at ho
    refine ⟨?_, ?_⟩
    · rintro i ⟨u, c, x, hx, hc⟩
      have := ho x hx _ hc
      simp at this
    · rintro ⟨i, c, x, hx, hc⟩
      have := ho x hx _ hc
      simp at this
  | commit cb t u p =>
    simp only [orderly, List.all_eq_true] at ho
    rintro ⟨i, c, x, hx, hc⟩
    have := ho x hx _ hc
    simp at this
  | _ => trivial

/-- `Justified`, computed. -/
def justified (w : World) : Event → Bool
  | .prepared c t i none _ => (w.log i).any fun a => a.result.isNone && (a.req.ep == epoch t w.h) &&
    match a.req.call with
    | .prepare j y _ d => j = i && y = t && d = c
    | _ => false
  | .committed c t i none _ => (w.log i).any fun a => a.result.isNone && a.req = ⟨.commit i t c, epoch t w.h⟩
  | .rolledBack c t i none _ => (w.log i).any fun a => a.result.isNone && a.req = ⟨.rollback i t c, epoch t w.h⟩
  | .finished c t i none => (w.log i).any fun a => a.result.isNone && a.req = ⟨.finish i t c, epoch t w.h⟩
  | _ => true

theorem justified_sound {w : World} {e : Event} (hj : justified w e = true) : Justified w e := by
  cases e with
  | prepared c t i r p =>
    cases r with
    | some e => trivial
    | none =>
      simp only [justified, List.any_eq_true, Bool.and_eq_true, beq_iff_eq, Option.isNone_iff_eq_none] at hj
      obtain ⟨⟨⟨call, ep⟩, res, bf, af⟩, h1, ⟨h2, h3⟩, h4⟩ := hj
      dsimp only at h2 h3 h4
      cases call <;> simp at h4
      obtain ⟨⟨rfl, rfl⟩, rfl⟩ := h4
      exact ⟨_, h1, _, by dsimp only; rw [h3], h2⟩
  | committed c t i r p =>
    cases r with
    | some e => trivial
    | none =>
      simp only [justified, List.any_eq_true, Bool.and_eq_true, decide_eq_true_eq, Option.isNone_iff_eq_none] at hj
      obtain ⟨a, h1, h2, h3⟩ := hj
      exact ⟨a, h1, h3, h2⟩
  | rolledBack c t i r p =>
    cases r with
    | some e => trivial
    | none =>
      simp only [justified, List.any_eq_true, Bool.and_eq_true, decide_eq_true_eq, Option.isNone_iff_eq_none] at hj
      obtain ⟨a, h1, h2, h3⟩ := hj
      exact ⟨a, h1, h3, h2⟩
  | finished c t i r =>
    cases r with
    | some e => trivial
    | none =>
      simp only [justified, List.any_eq_true, Bool.and_eq_true, decide_eq_true_eq, Option.isNone_iff_eq_none] at hj
      obtain ⟨a, h1, h2, h3⟩ := hj
      exact ⟨a, h1, h3, h2⟩
  | _ => trivial

/-- The broker of the runs has the number 0 and the ticket number 7. -/
def ownTicket (t : Tn) : Prop := t = 7

/-- The ticket numbers it is given. -/
def ownNumber : Event → Bool
  | .ticketNumber _ (some (t, _)) => t = 7
  | _ => true

/-- An event, or shard `i` serves the next request. -/
inductive Act
  | event (e : Event)
  | serve (i : Nat)

/-- One step of a run. -/
def World.act (ok : Hist → Event → Bool) (w : World) : Act → Option World
  | .event e =>
    if plain w.h e && ok w.h e && justified w e && ownNumber e then
      match step w.b e with
      | some (s, o) => some (w.event e s o)
      | none => none
    else none
  | .serve i =>
    match w.net i with
    | [] => none
    | r :: rest =>
      match r.call.op 0 with
      | none => none
      | some op =>
        match exec (w.shard i) op with
        | some (s, o) => some (w.serve i r rest s o)
        | none => none

theorem act_sound {okb : Hist → Event → Bool} {ok : Hist → Event → Prop} (hok : ∀ h e, okb h e = true → ok h e)
    {w w' : World} {a : Act} (h : w.act okb a = some w') : w.Step 0 ownTicket ok w' := by
  cases a with
  | event e =>
    simp only [World.act] at h
    split at h
    · rename_i hc
      simp only [Bool.and_eq_true] at hc
      split at h
      · rename_i s o hs
        rw [← Option.some.inj h]
        refine .event (plain_sound hc.1.1.1) (hok _ _ hc.1.1.2) (justified_sound hc.1.2) ?_ hs
        rintro cb t m rfl
        simpa [ownNumber, ownTicket] using hc.2
      · cases h
    · cases h
  | serve i =>
    simp only [World.act] at h
    split at h
    · cases h
    · rename_i r rest hn
      split at h
      · cases h
      · rename_i op hop
        split at h
        · rename_i s o he
          rw [← Option.some.inj h]
          exact .serve hn hop he
        · cases h

/-- A whole run. -/
def World.acts (ok : Hist → Event → Bool) : World → List Act → Option World
  | w, [] => some w
  | w, a :: as =>
    match w.act ok a with
    | some w' => World.acts ok w' as
    | none => none

theorem acts_sound {okb : Hist → Event → Bool} {ok : Hist → Event → Prop} (hok : ∀ h e, okb h e = true → ok h e)
    (as : List Act) : ∀ {w w' : World}, Runs 2 0 ownTicket ok w → w.acts okb as = some w' → Runs 2 0 ownTicket ok w' := by
  induction as with
  | nil =>
    intro w w' hr h
    rw [← Option.some.inj h]
    exact hr
  | cons a as ih =>
    intro w w' hr h
    simp only [World.acts] at h
    split at h
    · rename_i w1 h1
      exact ih (hr.step (act_sound hok h1)) h
    · cases h

/-- Two shards without data. -/
def twoFresh : World := { b := { shards := 2 }, shard := fun _ => fresh }

theorem twoFresh_initial : twoFresh.Initial 2 ownTicket :=
  ⟨rfl, rfl, fun _ => rfl, fun _ => rfl, fun _ => fresh_reach, fun _ _ _ => rfl⟩

/-- The state after a run. -/
def World.after (ok : Hist → Event → Bool) (as : List Act) : World := (twoFresh.acts ok as).getD twoFresh

theorem runs_after {okb : Hist → Event → Bool} {ok : Hist → Event → Prop} (hok : ∀ h e, okb h e = true → ok h e)
    (as : List Act) : Runs 2 0 ownTicket ok (World.after okb as) := by
  unfold World.after
  cases h : twoFresh.acts okb as with
  | none => exact .start twoFresh_initial
  | some w => exact acts_sound hok as (.start twoFresh_initial) h

/-- Locks for a key on each of two shards. -/
def lockBoth : List Act :=
  [.event (.ticketNumber 0 (some (7, 8))),
   .event (.tryLock 1 7 true),
   .event (.foundKey 1 7 [1] .write (some 0) true),
   .serve 0,
   .event (.locked 1 7 [1] 0 (.value [])),
   .event (.tryLock 2 7 true),
   .event (.foundKey 2 7 [2] .write (some 1) true),
   .serve 1,
   .event (.locked 2 7 [2] 1 (.value []))]

/-- Both shards prepare. -/
def prepareBoth : List Act := lockBoth ++
  [.event (.commit 3 7 [([1], [11]), ([2], [21])] none), .serve 0, .serve 1,
   .event (.prepared ⟨3, false⟩ 7 1 none none),
   .event (.prepared ⟨3, false⟩ 7 0 none none)]

/-- Both shards commit, and the user is told. -/
def commitBoth : List Act := prepareBoth ++
  [.serve 0, .event (.committed ⟨3, false⟩ 7 0 none none), .serve 1, .event (.committed ⟨3, false⟩ 7 1 none none)]

/-- One shard commits, the other one did not get the request yet. -/
def half : World := World.after orderly (prepareBoth ++ [.serve 1])

/-- Both shards committed. -/
def whole : World := World.after orderly commitBoth

theorem half_runs : Runs 2 0 ownTicket Orderly half := runs_after (fun _ _ => orderly_sound) _
theorem whole_runs : Runs 2 0 ownTicket Orderly whole := runs_after (fun _ _ => orderly_sound) _

/-- What a served request was and whether it succeeded. -/
def World.served (w : World) (i : Nat) : List (Call × Bool) := (w.log i).map fun a => (a.req.call, a.result.isNone)

theorem mem_served {w : World} {i : Nat} {c : Call} (h : (c, true) ∈ w.served i) :
    ∃ a ∈ w.log i, a.req.call = c ∧ a.result = none := by
  obtain ⟨a, h1, h2⟩ := List.mem_map.mp h
  simp only [Prod.mk.injEq, Option.isNone_iff_eq_none] at h2
  exact ⟨a, h1, h2.1, h2.2⟩

/-- `C85_atomic` applies to `half`: shard 1 committed, shard 0 holds the transaction
prepared. -/
example : Committed half 1 7 ∧ Touched 7 half.h 0 ∧ ¬Committed half 0 7 ∧ isPrepared (half.shard 0) 7 := by
  refine ⟨?_, ⟨[1], .write, true, 1, by decide +kernel⟩, not_committed (by decide +kernel), ?_⟩
  · obtain ⟨a, h1, h2, h3⟩ := mem_served (w := half) (i := 1) (c := .commit 1 7 ⟨3, false⟩) (by decide +kernel)
    exact ⟨a, h1, ⟨_, _, h2⟩, h3⟩
  · rw [← phase_eq_prepared]
    decide +kernel

/-- `C85_committed` and `C85_whole_update` apply to `whole`: the user was told, and
both shards were asked for locks. -/
example : (whole.h.any fun x => x.2.said.any fun y => match y with
    | .commit 3 7 none => true
    | _ => false) = true := by decide +kernel
example : Touched 7 whole.h 0 ∧ Touched 7 whole.h 1 :=
  ⟨⟨[1], .write, true, 1, by decide +kernel⟩, ⟨[2], .write, true, 2, by decide +kernel⟩⟩
example : (whole.shard 0).value [1] = [11] ∧ (whole.shard 1).value [2] = [21] := by decide +kernel

/-- The user gives up after both shards prepared. -/
def rollBoth : List Act := lockBoth ++
  [.event (.commit 3 7 [([1], [11]), ([2], [21])] none), .serve 0, .serve 1,
   .event (.rollback 4 7 none), .serve 1, .event (.rolledBack ⟨4, false⟩ 7 1 none none),
   .serve 0, .event (.rolledBack ⟨4, false⟩ 7 0 none none)]

/-- `C85_rolled_back` applies after this run. -/
example : ∃ e o pre, (World.after orderly rollBoth).h = [] ++ (e, o) :: pre ∧ Said.rollback 4 7 none ∈ o.said :=
  ⟨_, _, _, rfl, by simp⟩

/-! ### Without the order -/

/-- A rollback that stops because the second shard cannot be reached, and another
commit; then the answers to the first request to prepare arrive. -/
def changeOfMind : List Act := lockBoth ++
  [.event (.commit 3 7 [([1], [11]), ([2], [21])] none), .serve 0, .serve 1,
   .event (.rollback 4 7 (some { «at» := 1, before := fun i => i = 0 })), .serve 0,
   .event (.commit 5 7 [([1], [11]), ([2], [21])] none),
   .event (.prepared ⟨3, false⟩ 7 0 none none), .event (.prepared ⟨3, false⟩ 7 1 none none),
   .serve 0, .serve 0, .serve 1, .serve 1]

/-- **C85 is violated** if the user asks to commit after a rollback failed: one shard
commits the transaction, the other one has rolled it back. -/
theorem C85_order_violated : ∃ w, Runs 2 0 ownTicket (fun _ _ => True) w ∧
    Committed w 1 7 ∧ (w.shard 1).value [2] = [21] ∧
    Touched 7 w.h 0 ∧ ¬Committed w 0 7 ∧ (w.shard 0).ticket 7 = none ∧ w.net 0 = [] := by
  refine ⟨World.after (fun _ _ => true) changeOfMind, runs_after (fun _ _ _ => trivial) _, ?_, by decide +kernel,
    ⟨[1], .write, true, 1, by decide +kernel⟩, not_committed (by decide +kernel), ?_, by decide +kernel⟩
  · obtain ⟨a, h1, h2, h3⟩ := mem_served (w := World.after (fun _ _ => true) changeOfMind) (i := 1)
      (c := .commit 1 7 ⟨3, false⟩) (by decide +kernel)
    exact ⟨a, h1, ⟨_, _, h2⟩, h3⟩
  · rw [ticket_of_phase]
    decide +kernel

/-- A commit that stops because the second shard cannot be reached, and another one
with other values. -/
def otherValues : List Act := lockBoth ++
  [.event (.commit 3 7 [([1], [11]), ([2], [21])] (some { «at» := 1, before := fun i => i = 0 })), .serve 0,
   .event (.prepared ⟨3, false⟩ 7 0 none none),
   .event (.commit 5 7 [([1], [12]), ([2], [22])] none), .serve 1,
   .event (.prepared ⟨5, false⟩ 7 1 none none), .serve 0, .serve 1,
   .event (.committed ⟨5, false⟩ 7 0 none none), .event (.committed ⟨5, false⟩ 7 1 none none)]

/-- What `C85_whole_update` assumes is needed: if the user asks to commit with other
values after an error, success is reported though each shard has written the values
of a different request. -/
theorem C85_mixed_violated : ∃ w, Runs 2 0 ownTicket Orderly w ∧
    (w.h.head?.map fun x => x.2.said) = some [.commit 5 7 none] ∧
    UserCommit 7 w.h [([1], [11]), ([2], [21])] ∧ UserCommit 7 w.h [([1], [12]), ([2], [22])] ∧
    (w.shard 0).value [1] = [11] ∧ (w.shard 1).value [2] = [22] := by
  refine ⟨World.after orderly otherValues, runs_after (fun _ _ => orderly_sound) _, rfl, ?_, ?_, by decide +kernel,
    by decide +kernel⟩
  · exact ⟨_, List.mem_of_getElem? (i := 5) rfl, 3, _, rfl⟩
  · exact ⟨_, List.mem_of_getElem? (i := 3) rfl, 5, _, rfl⟩

end Verif.Parsec.Broker
