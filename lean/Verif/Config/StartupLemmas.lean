import Verif.Config.StartupSpec
import Verif.Config.DaemonsProps
/-!
# Lemmas about the start of a system
-/
namespace Verif.Config.Daemon

open Verif.Evm (Outcome)
open Verif.Hex (Text)
open Verif.Http (stoull)

/-- An action that succeeds if these endpoints can be reached. -/
def Possible (there : Endpoint → Prop) : Act → Prop
  | .demand e => there e
  | .await es => ∃ e ∈ es, there e
  | _ => True

/-- The endpoints that a list of actions opens. -/
def serves : List Act → List Endpoint
  | [] => []
  | .serve e :: l => e :: serves l
  | _ :: l => serves l

theorem mem_serves (l : List Act) (e : Endpoint) : e ∈ serves l ↔ Act.serve e ∈ l := by
  induction l with
  | nil => simp [serves]
  | cons a l ih => cases a <;> simp [serves, ih]

theorem served_append (s t : List Proc) : served (s ++ t) = served s ++ served t := by
  simp [served]

theorem modify_last {α : Type} (s : List α) (a : α) (f : α → α) :
    (s ++ [a]).modify s.length f = s ++ [f a] := by
  induction s with
  | nil => rfl
  | cons b s ih => simpa using ih

/-- All the connections of an action last: those of a row, if all of them can be made. -/
def Kept (served : List Endpoint) (up : Endpoint → Bool) : Act → Prop
  | .row es => ∀ e ∈ es, reach served up e = true
  | _ => True

theorem mem_takeWhile {α : Type} {f : α → Bool} {l : List α} (h : ∀ x ∈ l, f x = true) :
    l.takeWhile f = l := by
  induction l with
  | nil => rfl
  | cons a l ih =>
    rw [List.takeWhile_cons, h a (by simp), if_pos rfl, ih fun x hx => h x (by simp [hx])]

/-- A program that needs nobody who is not there does all its actions. -/
theorem drive (s : List Proc) (up : Endpoint → Bool) (todo : List Act) (q : Proc)
    (hq : q.todo = todo)
    (hp : ∀ a ∈ todo, Possible (fun e => reach (served s) up e = true) a) :
    ∃ q', run (s ++ [q]) (List.replicate todo.length (.act s.length true up)) = s ++ [q'] ∧
      q'.todo = [] ∧ q'.alive = q.alive ∧ q'.role = q.role ∧ q'.leading = q.leading ∧
      q'.serving = q.serving ++ serves todo ∧
      (∀ e ∈ q.links, e ∈ q'.links) ∧
      (∀ a ∈ todo, ∀ e ∈ a.called, Kept (served s) up a → e ∈ q'.links) := by
  induction todo generalizing q with
  | nil =>
    exact ⟨q, rfl, hq, rfl, rfl, rfl, by simp [serves], fun e h => h, fun a h => (nomatch h)⟩
  | cons a l ih =>
    have hmono : ∀ e, reach (served s) up e = true → reach (served (s ++ [q])) up e = true := by
      intro e he
      unfold reach at he ⊢
      rw [served_append]
      simp only [Bool.and_eq_true, decide_eq_true_eq, List.mem_append] at he ⊢
      exact ⟨.inl he.1, he.2⟩
    have hstep : run (s ++ [q]) (List.replicate (a :: l).length (.act s.length true up)) =
        run (s ++ [Proc.act (served (s ++ [q])) true up q])
          (List.replicate l.length (.act s.length true up)) := by
      simp only [List.length_cons, List.replicate_succ, run, List.foldl_cons]
      congr 1
      simp only [step]
      rw [modify_last]
    rw [hstep]
    have ha := hp a (by simp)
    have hl : ∀ a ∈ l, Possible (fun e => reach (served s) up e = true) a :=
      fun b hb => hp b (by simp [hb])
    have key : ∀ q2 : Proc, Proc.act (served (s ++ [q])) true up q = q2 → q2.todo = l →
        q2.alive = q.alive → q2.role = q.role → q2.leading = q.leading →
        q2.serving ++ serves l = q.serving ++ serves (a :: l) →
        (∀ e ∈ q.links, e ∈ q2.links) →
        (∀ e ∈ a.called, Kept (served s) up a → e ∈ q2.links) →
        ∃ q', run (s ++ [Proc.act (served (s ++ [q])) true up q])
            (List.replicate l.length (.act s.length true up)) = s ++ [q'] ∧
          q'.todo = [] ∧ q'.alive = q.alive ∧ q'.role = q.role ∧ q'.leading = q.leading ∧
          q'.serving = q.serving ++ serves (a :: l) ∧
          (∀ e ∈ q.links, e ∈ q'.links) ∧
          (∀ b ∈ a :: l, ∀ e ∈ b.called, Kept (served s) up b → e ∈ q'.links) := by
      intro q2 e1 e2 e3 e4 e5 e6 e7 e8
      rw [e1]
      obtain ⟨q', h1, h2, h3, h4, h5, h6, h7, h8⟩ := ih q2 e2 hl
      refine ⟨q', h1, h2, by rw [h3, e3], by rw [h4, e4], by rw [h5, e5], by rw [h6, e6],
        fun e he => h7 e (e7 e he), fun b hb e he hr => ?_⟩
      rcases List.mem_cons.mp hb with rfl | hb
      · exact h7 e (e8 e he hr)
      · exact h8 b hb e he hr
    cases a with
    | store t =>
      exact key { q with todo := l } (by simp [Proc.act, hq]) rfl rfl rfl rfl rfl (fun e h => h)
        (fun e h => (nomatch h))
    | contact es =>
      exact key { q with
          todo := l
          links := q.links ++ es } (by simp [Proc.act, hq]) rfl rfl rfl rfl rfl
        (fun e h => by simp [h]) (fun e h _ => by simp only [Act.called] at h; simp [h])
    | row es =>
      exact key { q with
          todo := l
          links := q.links ++ es.takeWhile (reach (served (s ++ [q])) up) }
        (by simp [Proc.act, hq]) rfl rfl rfl rfl rfl
        (fun e h => by simp [h]) (fun e h hr => by
          simp only [Act.called] at h
          rw [mem_takeWhile fun x hx => hmono x (hr x hx)]
          simp [h])
    | demand e =>
      exact key { q with
          todo := l
          links := q.links ++ [e] } (by simp [Proc.act, hq, hmono e ha]) rfl rfl rfl rfl rfl
        (fun e h => by simp [h]) (fun x h _ => by simp only [Act.called] at h; simp [h])
    | await es =>
      have : es.any (reach (served (s ++ [q])) up) = true := by
        obtain ⟨e, he, hr⟩ := ha
        exact List.any_eq_true.mpr ⟨e, he, hmono e hr⟩
      exact key { q with
          todo := l
          links := q.links ++ es } (by simp only [Proc.act, hq, this, if_true]) rfl rfl rfl rfl rfl
        (fun e h => by simp [h]) (fun x h _ => by simp only [Act.called] at h; simp [h])
    | join m es =>
      exact key { q with todo := l } (by simp [Proc.act, hq]) rfl rfl rfl rfl rfl (fun e h => h)
        (fun e h => (nomatch h))
    | serve e =>
      exact key { q with
          todo := l
          serving := q.serving ++ [e] } (by simp [Proc.act, hq]) rfl rfl rfl rfl
        (by simp [serves]) (fun e h => h) (fun e h => (nomatch h))

theorem run_append (s : List Proc) (l m : List Event) : run s (l ++ m) = run (run s l) m := by
  simp [run]

/-- The actions of a new program: its plan, then what a leader does. -/
def bring (s : List Proc) (r : Role) (up : Endpoint → Bool) : List Event :=
  .launch r :: List.replicate r.plan.length (.act s.length true up)

/-- What happens to a program that becomes the leader. -/
def crown (s : List Proc) (r : Role) (up : Endpoint → Bool) : List Event :=
  .lead s.length :: List.replicate r.leads.length (.act s.length true up)

theorem bring_done (s : List Proc) (r : Role) (up : Endpoint → Bool)
    (hp : ∀ a ∈ r.plan, Possible (fun e => reach (served s) up e = true) a) :
    ∃ q, run s (bring s r up) = s ++ [q] ∧ q.role = r ∧ q.alive = true ∧ q.todo = [] ∧
      q.leading = false ∧ q.serving = serves r.plan ∧
      (∀ a ∈ r.plan, ∀ e ∈ a.called, Kept (served s) up a → e ∈ q.links) := by
  obtain ⟨q, h1, h2, h3, h4, h5, h6, _, h8⟩ := drive s up r.plan { role := r, todo := r.plan } rfl hp
  exact ⟨q, h1, h4, h3, h2, h5, by simpa using h6, h8⟩

theorem crown_done (s : List Proc) (q : Proc) (up : Endpoint → Bool) (ha : q.alive = true)
    (ht : q.todo = []) (hl : q.leading = false)
    (hp : ∀ a ∈ q.role.leads, Possible (fun e => reach (served s) up e = true) a) :
    ∃ q', run (s ++ [q]) (crown s q.role up) = s ++ [q'] ∧ q'.role = q.role ∧ q'.alive = true ∧
      q'.todo = [] ∧ q'.serving = q.serving ++ serves q.role.leads ∧ (∀ e ∈ q.links, e ∈ q'.links) ∧
      (∀ a ∈ q.role.leads, ∀ e ∈ a.called, Kept (served s) up a → e ∈ q'.links) := by
  have e : run (s ++ [q]) (crown s q.role up) = run (s ++ [{ q with
      todo := q.role.leads
      leading := true }]) (List.replicate q.role.leads.length (.act s.length true up)) := by
    simp only [crown, run, List.foldl_cons, step]
    rw [modify_last]
    simp [Proc.lead, ha, ht, hl]
  rw [e]
  obtain ⟨q', h1, h2, h3, h4, _, h6, h7, h8⟩ := drive s up q.role.leads { q with
      todo := q.role.leads
      leading := true } rfl hp
  exact ⟨q', h1, h4, by rw [h3]; exact ha, h2, h6, h7, h8⟩

/-! ### What each program needs -/

/-- The controller behind a program. -/
def control (o : FullOptions) (id node : UInt64) (level : Level) (samples : UInt64) :
    Program → Outcome Role
  | .sentinel => sentinelControl o id.toUInt32 level
  | .shard => shardControl o id.toUInt32 level
  | .archiver => archiverControl o id.toUInt32 level samples
  | .watchtower => watchtowerControl o id.toUInt32 level
  | .atomizer => atomizerControl o id.toUInt32 level
  | .sentinelTwo => sentinelTwoControl o id.toUInt32 level
  | .lockingShard => lockingShardControl o id node level
  | .coordinator => coordinatorControl o id node level

/-- A role comes from a controller with the options of the file. -/
theorem control_of {p : Platform} {file : Text} {o : FullOptions} {r : Role}
    (ho : loadOptions p file = .ok o) (h : RoleOf p file r) :
    ∃ id node level samples, control o id node level samples r.program = .ok r := by
  obtain ⟨args, h⟩ := h
  generalize hd : r.program = d at h
  cases d with
  | sentinel =>
    simp only [start] at h
    unfold sentineld at h
    split at h
    · simp only [Start.reads.injEq] at h
      obtain ⟨i, hi, h⟩ := bind_inv h
      obtain ⟨o', ho', h⟩ := bind_inv h
      rw [ho, Outcome.ok.injEq] at ho'
      subst ho'
      obtain ⟨s, hs, h⟩ := bind_inv h
      exact ⟨i, 0, _, 0, h⟩
    · exact nomatch h
  | sentinelTwo =>
    simp only [start] at h
    unfold sentinelTwod at h
    split at h
    · simp only [Start.reads.injEq] at h
      obtain ⟨i, hi, h⟩ := bind_inv h
      obtain ⟨o', ho', h⟩ := bind_inv h
      rw [ho, Outcome.ok.injEq] at ho'
      subst ho'
      obtain ⟨s, hs, h⟩ := bind_inv h
      exact ⟨i, 0, _, 0, h⟩
    · exact nomatch h
  | shard =>
    simp only [start] at h
    unfold shardd at h
    split at h
    · simp only [Start.reads.injEq] at h
      obtain ⟨i, hi, h⟩ := bind_inv h
      obtain ⟨o', ho', h⟩ := bind_inv h
      rw [ho, Outcome.ok.injEq] at ho'
      subst ho'
      obtain ⟨q, hq, h⟩ := bind_inv h
      obtain ⟨s, hs, h⟩ := bind_inv h
      exact ⟨i, 0, _, 0, h⟩
    · exact nomatch h
  | archiver =>
    simp only [start] at h
    unfold archiverd at h
    split at h
    · simp only [Start.reads.injEq] at h
      obtain ⟨n, hn, h⟩ := bind_inv h
      obtain ⟨o', ho', h⟩ := bind_inv h
      rw [ho, Outcome.ok.injEq] at ho'
      subst ho'
      obtain ⟨i, hi, h⟩ := bind_inv h
      obtain ⟨s, hs, h⟩ := bind_inv h
      exact ⟨i, 0, _, n, h⟩
    · exact nomatch h
  | watchtower =>
    simp only [start] at h
    unfold watchtowerd at h
    split at h
    · simp only [Start.reads.injEq] at h
      obtain ⟨i, hi, h⟩ := bind_inv h
      obtain ⟨o', ho', h⟩ := bind_inv h
      rw [ho, Outcome.ok.injEq] at ho'
      subst ho'
      obtain ⟨s, hs, h⟩ := bind_inv h
      exact ⟨i, 0, _, 0, h⟩
    · exact nomatch h
  | atomizer =>
    simp only [start] at h
    unfold atomizerd at h
    split at h
    · simp only [Start.reads.injEq] at h
      obtain ⟨i, hi, h⟩ := bind_inv h
      obtain ⟨o', ho', h⟩ := bind_inv h
      rw [ho, Outcome.ok.injEq] at ho'
      subst ho'
      obtain ⟨s, hs, h⟩ := bind_inv h
      exact ⟨i, 0, _, 0, h⟩
    · exact nomatch h
  | lockingShard =>
    simp only [start] at h
    unfold lockingShardd at h
    split at h
    · simp only [Start.reads.injEq] at h
      obtain ⟨o', ho', h⟩ := bind_inv h
      rw [ho, Outcome.ok.injEq] at ho'
      subst ho'
      obtain ⟨i, hi, h⟩ := bind_inv h
      obtain ⟨j, hj, h⟩ := bind_inv h
      obtain ⟨v, hv, h⟩ := bind_inv h
      obtain ⟨n, hn, h⟩ := bind_inv h
      obtain ⟨s, hs, h⟩ := bind_inv h
      exact ⟨i, j, _, 0, h⟩
    · exact nomatch h
  | coordinator =>
    simp only [start] at h
    unfold coordinatord at h
    split at h
    · simp only [Start.reads.injEq] at h
      obtain ⟨o', ho', h⟩ := bind_inv h
      rw [ho, Outcome.ok.injEq] at ho'
      subst ho'
      obtain ⟨i, hi, h⟩ := bind_inv h
      obtain ⟨j, hj, h⟩ := bind_inv h
      obtain ⟨v, hv, h⟩ := bind_inv h
      obtain ⟨n, hn, h⟩ := bind_inv h
      exact ⟨i, j, _, 0, h⟩
    · exact nomatch h

theorem client_possible {there : Endpoint → Prop} {es : List Endpoint} {single : Endpoint → Act}
    (h : ∀ e, es = [e] → Possible there (single e)) : ∀ a ∈ client es single, Possible there a := by
  intro a ha
  unfold client at ha
  split at ha
  · next hl =>
    obtain ⟨e, he, rfl⟩ := List.mem_map.mp ha
    cases es with
    | nil => exact nomatch he
    | cons x l =>
      cases l with
      | nil =>
        rw [List.mem_singleton] at he
        subst he
        exact h _ rfl
      | cons y l => simp at hl
  · rw [List.mem_singleton] at ha
    subst ha
    trivial

/-- With what it needs, a program can do all its actions. -/
theorem possible_of {o : FullOptions} {id node : UInt64} {level : Level} {samples : UInt64}
    {d : Program} {r : Role} {there : Endpoint → Prop}
    (h : control o id node level samples d = .ok r) (hn : Needs o r.id there d) :
    ∀ a ∈ r.plan ++ r.leads, Possible there a := by
  intro a ha
  cases d with
  | sentinel =>
    simp only [control] at h
    unfold sentinelControl at h
    split at h
    · exact nomatch h
    · next s hs =>
      split at h
      · exact nomatch h
      · simp only [Outcome.ok.injEq] at h
        subst h
        simp only [List.mem_append, List.mem_map, List.mem_filter, decide_eq_true_eq,
          List.mem_singleton, List.not_mem_nil, or_false] at ha
        rcases ha with (⟨q, _, rfl⟩ | ⟨e, ⟨⟨x, hx, rfl⟩, hne⟩, rfl⟩) | rfl
        · trivial
        · rcases hn x hx with ⟨t, ht, he⟩ | h
          · dsimp only at ht
            rw [hs, Option.some.injEq] at ht
            subst ht
            exact absurd he hne
          · exact h
        · trivial
  | shard =>
    simp only [control] at h
    unfold shardControl at h
    split at h
    · simp only [Outcome.ok.injEq] at h
      subst h
      simp only [List.mem_append, List.mem_cons, List.not_mem_nil, or_false] at ha
      rcases ha with rfl | rfl | rfl | rfl | rfl <;> trivial
    · exact nomatch h
  | archiver =>
    simp only [control] at h
    unfold archiverControl at h
    split at h
    · exact nomatch h
    · simp only [Outcome.ok.injEq] at h
      subst h
      simp only [List.mem_append, List.mem_cons, List.not_mem_nil, or_false] at ha
      rcases ha with rfl | rfl | rfl <;> trivial
  | watchtower =>
    simp only [control] at h
    unfold watchtowerControl at h
    split at h
    · next x w hx hw =>
      simp only [Outcome.ok.injEq] at h
      subst h
      simp only [List.mem_append, List.mem_cons, List.not_mem_nil, or_false] at ha
      obtain ⟨⟨y, hy, h1⟩, h2⟩ := hn
      rcases ha with rfl | rfl | rfl | rfl | rfl
      · trivial
      · trivial
      · trivial
      · exact ⟨_, List.mem_map.mpr ⟨y, hy, rfl⟩, h1⟩
      · exact ⟨_, List.mem_singleton.mpr rfl, h2 _ (by rw [List.head?_eq_getElem?]; exact hx)⟩
    · exact nomatch h
  | atomizer =>
    simp only [control] at h
    unfold atomizerControl at h
    split at h
    · exact nomatch h
    · simp only [Outcome.ok.injEq] at h
      subst h
      simp only [List.mem_append, List.mem_cons, List.not_mem_nil, or_false] at ha
      rcases ha with (rfl | rfl) | rfl <;> trivial
  | sentinelTwo =>
    simp only [control] at h
    unfold sentinelTwoControl at h
    split at h
    · exact nomatch h
    · split at h
      · exact nomatch h
      · split at h
        · exact nomatch h
        · split at h
          · exact nomatch h
          · simp only [Outcome.ok.injEq] at h
            subst h
            simp only [List.mem_append, List.mem_map, List.mem_filter, List.mem_singleton,
              List.not_mem_nil, or_false] at ha
            rcases ha with (ha | ⟨e, _, rfl⟩) | rfl
            · exact client_possible (there := there) (single := fun e => .row [e]) (fun _ _ => trivial) a ha
            · trivial
            · trivial
  | lockingShard =>
    simp only [control] at h
    unfold lockingShardControl at h
    split at h
    · exact nomatch h
    · split at h
      · exact nomatch h
      · split at h
        · exact nomatch h
        · split at h
          · exact nomatch h
          · split at h
            · exact nomatch h
            · simp only [Outcome.ok.injEq] at h
              subst h
              simp only [List.mem_append, List.mem_cons, List.not_mem_nil, or_false] at ha
              rcases ha with (rfl | rfl) | rfl <;> trivial
  | coordinator =>
    simp only [control] at h
    unfold coordinatorControl at h
    split at h
    · exact nomatch h
    · split at h
      · exact nomatch h
      · split at h
        · exact nomatch h
        · split at h
          · exact nomatch h
          · simp only [Outcome.ok.injEq] at h
            subst h
            simp only [List.mem_append, List.mem_flatMap, List.mem_cons, List.not_mem_nil,
              or_false] at ha
            rcases ha with rfl | ⟨c, hc, ha⟩ | rfl
            · trivial
            · refine client_possible (fun e he => ?_) a ha
              cases c with
              | nil => exact nomatch he
              | cons n l =>
                cases l with
                | nil =>
                  simp only [List.map_cons, List.map_nil, List.cons.injEq, and_true] at he
                  subst he
                  exact hn n hc
                | cons y l => simp at he
            · trivial

/-! ### Sentinels wait for each other -/

/-- Before a program listens at one of these endpoints it demands that somebody else does. -/
def Guarded (S : Endpoint → Prop) : List Act → Prop
  | [] => True
  | .demand e :: l => S e ∨ Guarded S l
  | .serve e :: l => ¬ S e ∧ Guarded S l
  | _ :: l => Guarded S l

theorem guarded_of_not {S : Endpoint → Prop} {l : List Act} (h : ∀ e, Act.serve e ∈ l → ¬ S e) :
    Guarded S l := by
  induction l with
  | nil => trivial
  | cons a l ih =>
    have hl := ih fun e he => h e (by simp [he])
    cases a <;> first
      | exact hl
      | exact .inr hl
      | exact ⟨h _ (by simp), hl⟩

theorem guarded_contacts {S : Endpoint → Prop} {α : Type} (f : α → List Endpoint) (m : List α)
    (l : List Act) (h : Guarded S l) : Guarded S (m.map (fun x => .contact (f x)) ++ l) := by
  induction m with
  | nil => exact h
  | cons x m ih => exact ih

/-- Nobody listens at one of these endpoints, or will without demanding that somebody else does. -/
structure Shut (S : Endpoint → Prop) (q : Proc) : Prop where
  serving : ∀ e ∈ q.serving, ¬ S e
  todo : Guarded S q.todo
  leads : Guarded S q.role.leads

theorem shut_ended {S : Endpoint → Prop} {q : Proc} (h : Shut S q) : Shut S q.ended :=
  ⟨fun _ h => (nomatch h), trivial, h.leads⟩

theorem shut_act {S : Endpoint → Prop} {q : Proc} {served : List Endpoint} {fine : Bool}
    {up : Endpoint → Bool} (hs : ∀ e ∈ served, ¬ S e) (h : Shut S q) :
    Shut S (q.act served fine up) := by
  have ht := h.todo
  unfold Proc.act
  split
  · exact h
  · next t l e =>
    rw [e] at ht
    split
    · exact ⟨h.serving, ht, h.leads⟩
    · exact shut_ended h
  · next es l e =>
    rw [e] at ht
    exact ⟨h.serving, ht, h.leads⟩
  · next es l e =>
    rw [e] at ht
    exact ⟨h.serving, ht, h.leads⟩
  · next x l e =>
    rw [e] at ht
    split
    · next hr =>
      unfold reach at hr
      simp only [Bool.and_eq_true, decide_eq_true_eq] at hr
      exact ⟨h.serving, ht.resolve_left (hs x hr.1), h.leads⟩
    · exact shut_ended h
  · next es l e =>
    rw [e] at ht
    split
    · exact ⟨h.serving, ht, h.leads⟩
    · exact h
  · next m es l e =>
    rw [e] at ht
    split
    · exact ⟨h.serving, ht, h.leads⟩
    · exact shut_ended h
  · next x l e =>
    rw [e] at ht
    split
    · refine ⟨fun y hy => ?_, ht.2, h.leads⟩
      rcases List.mem_append.mp hy with hy | hy
      · exact h.serving y hy
      · rw [List.mem_singleton] at hy
        exact hy ▸ ht.1
    · exact shut_ended h

theorem modify_mem {α : Type} {s : List α} {k : Nat} {f : α → α} {P : α → Prop}
    (h : ∀ x ∈ s, P x) (hf : ∀ x ∈ s, P (f x)) : ∀ x ∈ s.modify k f, P x := by
  induction s generalizing k with
  | nil => cases k <;> simp
  | cons a s ih =>
    cases k with
    | zero =>
      simp only [List.modify_zero_cons, List.mem_cons]
      rintro x (rfl | hx)
      · exact hf a (by simp)
      · exact h x (by simp [hx])
    | succ k =>
      simp only [List.modify_succ_cons, List.mem_cons]
      rintro x (rfl | hx)
      · exact h x (by simp)
      · exact ih (fun y hy => h y (by simp [hy])) (fun y hy => hf y (by simp [hy])) x hx

theorem shut_step {S : Endpoint → Prop} {s : List Proc} (h : ∀ q ∈ s, Shut S q) (e : Event)
    (he : ∀ r, e = .launch r → Guarded S r.plan ∧ Guarded S r.leads) :
    ∀ q ∈ step s e, Shut S q := by
  have hserved : ∀ x ∈ served s, ¬ S x := by
    intro x hx
    obtain ⟨q, hq, hx⟩ := List.mem_flatMap.mp hx
    exact (h q hq).serving x hx
  cases e with
  | launch r =>
    intro q hq
    rcases List.mem_append.mp hq with hq | hq
    · exact h q hq
    · rw [List.mem_singleton] at hq
      subst hq
      exact ⟨fun _ h => (nomatch h), (he r rfl).1, (he r rfl).2⟩
  | act k fine up => exact modify_mem h fun q hq => shut_act hserved (h q hq)
  | lead k =>
    refine modify_mem h fun q hq => ?_
    unfold Proc.lead
    split
    · exact ⟨(h q hq).serving, (h q hq).leads, (h q hq).leads⟩
    · exact h q hq
  | follow k =>
    refine modify_mem h fun q hq => ?_
    unfold Proc.follow
    split
    · exact ⟨fun x hx => (h q hq).serving x (List.mem_filter.mp hx).1, trivial, (h q hq).leads⟩
    · exact h q hq
  | stop k => exact modify_mem h fun q hq => shut_ended (h q hq)

theorem shut_run {S : Endpoint → Prop} (l : List Event)
    (hl : ∀ r, Event.launch r ∈ l → Guarded S r.plan ∧ Guarded S r.leads) (s : List Proc)
    (h : ∀ q ∈ s, Shut S q) : ∀ q ∈ run s l, Shut S q := by
  induction l generalizing s with
  | nil => exact h
  | cons e l ih =>
    exact ih (fun r hr => hl r (by simp [hr])) (step s e)
      (shut_step h e fun r hr => hl r (by simp [hr]))

/-- A sentinel demands another one before it listens, if there is another one. -/
theorem sentinel_guarded {o : FullOptions} {id : UInt32} {level : Level} {r : Role}
    (h : sentinelControl o id level = .ok r)
    (h2 : ∃ s ∈ o.sentinels, ∃ t ∈ o.sentinels, s.endpoint ≠ t.endpoint) :
    Guarded (fun e => ∃ s ∈ o.sentinels, e = s.endpoint) r.plan ∧
      Guarded (fun e => ∃ s ∈ o.sentinels, e = s.endpoint) r.leads := by
  unfold sentinelControl at h
  split at h
  · exact nomatch h
  · next s hs =>
    split at h
    · exact nomatch h
    · simp only [Outcome.ok.injEq] at h
      subst h
      refine ⟨?_, trivial⟩
      dsimp only
      rw [List.append_assoc]
      refine guarded_contacts (fun q : Endpoint × Text => [q.1]) _ _ ?_
      cases hl : ((o.sentinels.map (·.endpoint)).filter (· ≠ s.endpoint)) with
      | nil =>
        exfalso
        obtain ⟨x, hx, y, hy, hne⟩ := h2
        have : ∀ z ∈ o.sentinels, z.endpoint = s.endpoint := by
          intro z hz
          have := List.filter_eq_nil_iff.mp hl z.endpoint (List.mem_map.mpr ⟨z, hz, rfl⟩)
          simpa using this
        exact hne ((this x hx).trans (this y hy).symm)
      | cons e l =>
        have he : e ∈ (o.sentinels.map (·.endpoint)).filter (· ≠ s.endpoint) := by
          rw [hl]
          simp
        obtain ⟨x, hx, rfl⟩ := List.mem_map.mp (List.mem_filter.mp he).1
        exact .inl ⟨x, hx, rfl⟩

/-! ### Connections that are never made -/

/-- A program has no connection to this endpoint, and will not make one. -/
def Lost (e : Endpoint) (q : Proc) : Prop :=
  e ∉ q.links ∧ ∀ a ∈ q.todo ++ q.role.leads, e ∉ a.called

theorem lost_ended {e : Endpoint} {q : Proc} (h : Lost e q) : Lost e q.ended :=
  ⟨by simp [Proc.ended], fun a ha => h.2 a (by
    simp only [Proc.ended, List.nil_append] at ha
    simp [ha])⟩

theorem lost_act {e : Endpoint} {q : Proc} {served : List Endpoint} {fine : Bool}
    {up : Endpoint → Bool} (h : Lost e q) : Lost e (q.act served fine up) := by
  have hrest : ∀ a l, q.todo = a :: l → ∀ x ∈ l ++ q.role.leads, e ∉ x.called := by
    intro a l hl x hx
    refine h.2 x ?_
    rw [hl]
    simp only [List.cons_append, List.mem_cons]
    exact .inr hx
  have hfirst : ∀ a l, q.todo = a :: l → e ∉ a.called := by
    intro a l hl
    refine h.2 a ?_
    rw [hl]
    simp
  unfold Proc.act
  split
  · exact h
  · next t l he =>
    split
    · exact ⟨h.1, hrest _ _ he⟩
    · exact lost_ended h
  · next es l he =>
    refine ⟨fun hx => ?_, hrest _ _ he⟩
    exact (List.mem_append.mp hx).elim h.1 (hfirst _ _ he)
  · next es l he =>
    refine ⟨fun hx => ?_, hrest _ _ he⟩
    exact (List.mem_append.mp hx).elim h.1 fun hx =>
      hfirst _ _ he ((List.takeWhile_sublist _).subset hx)
  · next x l he =>
    split
    · refine ⟨fun hx => ?_, hrest _ _ he⟩
      exact (List.mem_append.mp hx).elim h.1 (hfirst _ _ he)
    · exact lost_ended h
  · next es l he =>
    split
    · refine ⟨fun hx => ?_, hrest _ _ he⟩
      exact (List.mem_append.mp hx).elim h.1 (hfirst _ _ he)
    · exact h
  · next m es l he =>
    split
    · exact ⟨h.1, hrest _ _ he⟩
    · exact lost_ended h
  · next x l he =>
    split
    · exact ⟨h.1, hrest _ _ he⟩
    · exact lost_ended h

theorem modify_at {α : Type} {s : List α} {i k : Nat} {f : α → α} {P : α → Prop}
    (h : ∀ x, s[i]? = some x → P x) (hf : ∀ x, P x → P (f x)) :
    ∀ x, (s.modify k f)[i]? = some x → P x := by
  intro x hx
  rw [List.getElem?_modify] at hx
  cases hs : s[i]? with
  | none =>
    rw [hs] at hx
    simp at hx
  | some y =>
    rw [hs] at hx
    have hy := h y hs
    split at hx
    · simp only [Option.map_eq_map, Option.map_some, Option.some.injEq] at hx
      exact hx ▸ hf y hy
    · simp only [Option.map_eq_map, Option.map_some, id_eq, Option.some.injEq] at hx
      exact hx ▸ hy

theorem lost_step {e : Endpoint} {s : List Proc} {i : Nat} (hi : i < s.length)
    (h : ∀ q, s[i]? = some q → Lost e q) (v : Event) :
    i < (step s v).length ∧ ∀ q, (step s v)[i]? = some q → Lost e q := by
  cases v with
  | launch r =>
    refine ⟨by simp [step]; omega, fun q hq => h q ?_⟩
    simp only [step] at hq
    rwa [List.getElem?_append_left hi] at hq
  | act k fine up =>
    exact ⟨by simpa [step] using hi, modify_at h fun q hq => lost_act hq⟩
  | lead k =>
    refine ⟨by simpa [step] using hi, modify_at h fun q hq => ?_⟩
    unfold Proc.lead
    split
    · refine ⟨hq.1, fun a ha => hq.2 a ?_⟩
      simp only [List.mem_append, or_self] at ha
      simp [ha]
    · exact hq
  | follow k =>
    refine ⟨by simpa [step] using hi, modify_at h fun q hq => ?_⟩
    unfold Proc.follow
    split
    · refine ⟨hq.1, fun a ha => hq.2 a ?_⟩
      simp only [List.nil_append] at ha
      simp [ha]
    · exact hq
  | stop k => exact ⟨by simpa [step] using hi, modify_at h fun q hq => lost_ended hq⟩

theorem lost_run {e : Endpoint} (l : List Event) (s : List Proc) {i : Nat} (hi : i < s.length)
    (h : ∀ q, s[i]? = some q → Lost e q) : ∀ q, (run s l)[i]? = some q → Lost e q := by
  induction l generalizing s with
  | nil => exact h
  | cons v l ih =>
    obtain ⟨h1, h2⟩ := lost_step hi h v
    exact ih (step s v) h1 h2

/-- Only shards, atomizers and sentinels of the two-phase architecture give up connections. -/
theorem row_only {o : FullOptions} {id node : UInt64} {level : Level} {samples : UInt64}
    {d : Program} {r : Role} {es : List Endpoint}
    (h : control o id node level samples d = .ok r) (ha : Act.row es ∈ r.plan ++ r.leads) :
    d ∈ [Program.shard, .atomizer, .sentinelTwo] := by
  cases d with
  | shard => simp
  | atomizer => simp
  | sentinelTwo => simp
  | sentinel =>
    simp only [control] at h
    unfold sentinelControl at h
    split at h
    · exact nomatch h
    · split at h
      · exact nomatch h
      · simp only [Outcome.ok.injEq] at h
        subst h
        simp at ha
  | archiver =>
    simp only [control] at h
    unfold archiverControl at h
    split at h
    · exact nomatch h
    · simp only [Outcome.ok.injEq] at h
      subst h
      simp at ha
  | watchtower =>
    simp only [control] at h
    unfold watchtowerControl at h
    split at h
    · simp only [Outcome.ok.injEq] at h
      subst h
      simp at ha
    · exact nomatch h
  | lockingShard =>
    simp only [control] at h
    unfold lockingShardControl at h
    split at h
    · exact nomatch h
    · split at h
      · exact nomatch h
      · split at h
        · exact nomatch h
        · split at h
          · exact nomatch h
          · split at h
            · exact nomatch h
            · simp only [Outcome.ok.injEq] at h
              subst h
              simp at ha
  | coordinator =>
    simp only [control] at h
    unfold coordinatorControl at h
    split at h
    · exact nomatch h
    · split at h
      · exact nomatch h
      · split at h
        · exact nomatch h
        · split at h
          · exact nomatch h
          · simp only [Outcome.ok.injEq] at h
            subst h
            exfalso
            simp only [List.mem_append, List.mem_singleton, reduceCtorEq, false_or, List.mem_flatMap,
              or_false] at ha
            obtain ⟨c, _, hc⟩ := ha
            exact client_not _ _ _ (fun x => by simp) (fun l => by simp) hc

end Verif.Config.Daemon
