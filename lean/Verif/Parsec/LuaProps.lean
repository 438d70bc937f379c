import Verif.Parsec.Lua
import Mathlib.Data.List.Nodup

/-! Property C103: what running a Lua contract comes to. -/
namespace Verif.Parsec.Lua

open Verif.Serial

/-! ### Specification -/

/-- A table with string keys only, no key twice. -/
def StringKeys (t : List (Val × Val)) : Prop := (∀ e ∈ t, ∃ s, e.1 = .str s) ∧ (t.map Prod.fst).Nodup

/-- The updates such a table asks for: `none` if a value is neither a string nor a number. -/
def asked (text : Nat → Bytes) : List (Val × Val) → Option Updates
  | [] => some []
  | (k, v) :: es =>
    match stackString text k, stackString text v, asked text es with
    | some k, some v, some u => some ((k, v) :: u)
    | _, _, _ => none

/-- The meaning of a contract, told without the runner: the keys it reads in order and what it comes to, when every key
has the value that `store` gives. -/
inductive Means {vm : Type} (I : Interp vm) (store : Bytes → Bytes) : vm → Bytes → List Bytes → Report → Prop where
  | read {m next : vm} {input k : Bytes} {v : Val} {ks : List Bytes} {r : Report} :
      I.resume m input = .yield [v] next → stackString I.text v = some k → Means I store next (store k) ks r →
      Means I store m input (k :: ks) r
  | updates {m : vm} {input : Bytes} {t : List (Val × Val)} {u : Updates} :
      I.resume m input = .done [.table t] → StringKeys t → asked I.text t = some u → Means I store m input [] (.updates u)
  | badValue {m : vm} {input : Bytes} {t : List (Val × Val)} :
      I.resume m input = .done [.table t] → StringKeys t → asked I.text t = none →
      Means I store m input [] (.error .resultValueType)
  | noTable {m : vm} {input : Bytes} {v : Val} :
      I.resume m input = .done [.val v] → Means I store m input [] (.error .resultType)
  | results {m : vm} {input : Bytes} {rs : List Ret} :
      I.resume m input = .done rs → rs.length ≠ 1 → Means I store m input [] (.error .resultCount)
  | yields {m next : vm} {input : Bytes} {vs : List Val} :
      I.resume m input = .yield vs next → vs.length ≠ 1 → Means I store m input [] (.error .yieldCount)
  | badKey {m next : vm} {input : Bytes} {v : Val} :
      I.resume m input = .yield [v] next → stackString I.text v = none → Means I store m input [] (.error .yieldType)
  | fails {m : vm} {input : Bytes} : I.resume m input = .fail → Means I store m input [] (.error .execError)

/-- What a table comes to, told by its first entry that is not a string with a value: a number as a key ends the
process. -/
def verdict (text : Nat → Bytes) : List (Val × Val) → Updates → Loop
  | [], u => .updates u
  | (.other, _) :: _, _ => .error .resultKeyType
  | (_, .other) :: _, _ => .error .resultValueType
  | (.num _, _) :: _, _ => .abort
  | (.str k, v) :: es, u => verdict text es (u ++ [(k, (stackString text v).getD [])])

/-! ### Proofs -/

theorem after_mem {k : Val} {t : List (Val × Val)} (h : k ∈ t.map Prod.fst) : ∃ r, after k t = some r := by
  induction t with
  | nil => simp at h
  | cons e t ih =>
    unfold after
    by_cases he : e.1 = k
    · exact ⟨t, by rw [if_pos he]⟩
    · rw [if_neg he]
      exact ih (by simpa [Ne.symm he] using h)

theorem after_absent {k : Val} {t : List (Val × Val)} (h : k ∉ t.map Prod.fst) : after k t = none := by
  induction t with
  | nil => rfl
  | cons e t ih =>
    simp only [List.map_cons, List.mem_cons, not_or] at h
    unfold after
    rw [if_neg (Ne.symm h.1)]
    exact ih h.2

/-- The next entry of a table is the one behind. -/
theorem after_append {t a b : List (Val × Val)} {e : Val × Val} (hn : (t.map Prod.fst).Nodup) (ht : t = a ++ e :: b) :
    after e.1 t = some b := by
  subst ht
  induction a with
  | nil => simp [after]
  | cons x a ih =>
    simp only [List.cons_append, List.map_cons, List.nodup_cons] at hn
    simp only [List.cons_append, after]
    rw [if_neg]
    · exact ih hn.2
    · intro he
      exact hn.1 (by simp [he])

theorem emplace_new {u : Updates} {k v : Bytes} (h : k ∉ u.map Prod.fst) : emplace u k v = u ++ [(k, v)] := by
  unfold emplace
  rw [if_neg]
  simp only [List.any_eq_true, beq_iff_eq, not_exists, not_and]
  intro p hp he
  exact h (List.mem_map.mpr ⟨p, hp, he⟩)

/-- The loop agrees with the verdict when no string among the keys is the text of a number among them. -/
theorem loop_verdict (text : Nat → Bytes) (t : List (Val × Val)) (hn : (t.map Prod.fst).Nodup)
    (hd : ∀ n, .num n ∈ t.map Prod.fst → .str (text n) ∉ t.map Prod.fst) (b : List (Val × Val)) :
    ∀ (a : List (Val × Val)) (u : Updates) (turns : Nat), t = a ++ b → b.length ≤ turns →
      (∀ k ∈ u.map Prod.fst, .str k ∈ a.map Prod.fst) → loop text t turns b u = verdict text b u := by
  induction b with
  | nil => intro a u turns _ _ _; cases turns <;> rfl
  | cons e b ih =>
    intro a u turns ht hl hu
    obtain ⟨k, v⟩ := e
    cases turns with
    | zero => simp at hl
    | succ turns =>
      have haft := after_append hn ht
      cases k with
      | other => rfl
      | num n =>
        cases v with
        | other => rfl
        | str w =>
          simp only [loop, stackString, keyLeft]
          rw [after_absent (hd n (by rw [ht]; simp))]
          rfl
        | num w =>
          simp only [loop, stackString, keyLeft]
          rw [after_absent (hd n (by rw [ht]; simp))]
          rfl
      | str s =>
        have hnew : s ∉ u.map Prod.fst := by
          intro hs
          have h1 := hu s hs
          rw [ht, List.map_append] at hn
          exact (List.nodup_append.mp hn).2.2 _ h1 _ (by simp) rfl
        have step : ∀ w, loop text t turns b (u ++ [(s, w)]) = verdict text b (u ++ [(s, w)]) := fun w =>
          ih (a ++ [(.str s, v)]) _ turns (by simp [ht]) (by simpa using hl) (by
            intro k hk
            simp only [List.map_append, List.mem_append] at hk ⊢
            rcases hk with hk | hk
            · exact .inl (hu k hk)
            · simp at hk; subst hk; exact .inr (by simp))
        cases v with
        | other => rfl
        | str w =>
          simp only [loop, stackString, keyLeft, haft, emplace_new hnew]
          exact step w
        | num w =>
          simp only [loop, stackString, keyLeft, haft, emplace_new hnew]
          exact step (text w)

theorem verdict_asked (text : Nat → Bytes) (t : List (Val × Val)) (hs : ∀ e ∈ t, ∃ s, e.1 = .str s) :
    ∀ u, verdict text t u = match asked text t with
      | some w => .updates (u ++ w)
      | none => .error .resultValueType := by
  induction t with
  | nil => intro u; simp [verdict, asked]
  | cons e t ih =>
    intro u
    obtain ⟨k, v⟩ := e
    obtain ⟨s, hk⟩ := hs (k, v) (by simp)
    simp only at hk
    subst hk
    have ih := ih fun e he => hs e (by simp [he])
    cases v with
    | other => simp [verdict, asked, stackString]
    | str w =>
      simp only [verdict, asked, stackString, Option.getD_some, ih]
      cases asked text t <;> simp
    | num w =>
      simp only [verdict, asked, stackString, Option.getD_some, ih]
      cases asked text t <;> simp

/-- How a state and what was sent go together. -/
def Fits {vm : Type} (s : State vm) (o : List Out) : Prop :=
  ∃ ks : List Bytes, match s with
    | .finished => ∃ r, o = ks.map Out.lock ++ [.report r]
    | _ => o = ks.map Out.lock

theorem epilogue_fits {vm : Type} (text : Nat → Bytes) (turns : Nat) (rs : List Ret) :
    Fits (epilogue (vm := vm) text turns rs).1 (epilogue (vm := vm) text turns rs).2 := by
  unfold epilogue
  split
  · split
    · exact ⟨[], _, rfl⟩
    · split
      · exact ⟨[], _, rfl⟩
      · exact ⟨[], _, rfl⟩
      · exact ⟨[], rfl⟩
      · exact ⟨[], rfl⟩
  · exact ⟨[], _, rfl⟩

theorem schedule_fits {vm : Type} (I : Interp vm) (granted : Bytes → Bool) (turns : Nat) (m : vm) (input : Bytes) :
    Fits (schedule I granted turns m input).1 (schedule I granted turns m input).2 := by
  unfold schedule
  split
  · split
    · split
      · exact ⟨[], _, rfl⟩
      · rename_i k _
        split
        · exact ⟨[k], rfl⟩
        · exact ⟨[k], _, rfl⟩
    · exact ⟨[], _, rfl⟩
  · exact ⟨[], _, rfl⟩
  · exact epilogue_fits _ _ _
  · exact ⟨[], rfl⟩

theorem run_fits {vm : Type} (I : Interp vm) (granted : Bytes → Bool) (turns : Nat) (function param : Bytes) :
    Fits (run I granted turns function param).1 (run I granted turns function param).2 := by
  unfold run
  split
  · exact ⟨[], _, rfl⟩
  · exact schedule_fits _ _ _ _ _

theorem fits_append {vm : Type} {m : vm} {o : List Out} (h : Fits (.waiting m) o) {s : State vm} {o' : List Out}
    (h' : Fits s o') : Fits s (o ++ o') := by
  obtain ⟨ks, hk⟩ := h
  simp only at hk
  subst hk
  obtain ⟨ks', hk'⟩ := h'
  cases s with
  | finished =>
    obtain ⟨r, rfl⟩ := hk'
    exact ⟨ks ++ ks', r, by simp⟩
  | waiting _ => exact ⟨ks ++ ks', by simp_all⟩
  | aborted => exact ⟨ks ++ ks', by simp_all⟩
  | forever => exact ⟨ks ++ ks', by simp_all⟩

theorem answers_fits {vm : Type} (I : Interp vm) (granted : Bytes → Bool) (turns : Nat) (as : List Answer) :
    ∀ (s : State vm) (o : List Out), Fits s o →
      Fits (answers I granted turns s as).1 (o ++ (answers I granted turns s as).2) := by
  induction as with
  | nil => intro s o h; simpa [answers] using h
  | cons a as ih =>
    intro s o h
    simp only [answers, ← List.append_assoc]
    apply ih
    cases s with
    | waiting m =>
      apply fits_append h
      cases a with
      | value v => exact schedule_fits _ _ _ _ _
      | brokerError => exact ⟨[], _, rfl⟩
      | shardError w => exact ⟨[], _, rfl⟩
    | finished => simpa [answer] using h
    | aborted => simpa [answer] using h
    | forever => simpa [answer] using h

/-! ### C103 -/

/-- **C103.** Whatever the contract does and whatever the broker answers, a run asks for locks and then reports at most
once: it has reported exactly when it is finished, and asks for nothing afterwards. -/
theorem C103_once {vm : Type} (I : Interp vm) (granted : Bytes → Bool) (turns : Nat) (function param : Bytes)
    (as : List Answer) : ∃ ks : List Bytes,
    ((whole I granted turns function param as).1 = .finished ∧
      ∃ r, (whole I granted turns function param as).2 = ks.map Out.lock ++ [.report r]) ∨
    ((whole I granted turns function param as).1 ≠ .finished ∧
      (whole I granted turns function param as).2 = ks.map Out.lock) := by
  have h := answers_fits I granted turns as _ _ (run_fits I granted turns function param)
  obtain ⟨ks, hk⟩ := h
  refine ⟨ks, ?_⟩
  simp only [whole]
  cases hs : (answers I granted turns (run I granted turns function param).1 as).1 with
  | finished => rw [hs] at hk; exact .inl ⟨rfl, hk⟩
  | waiting _ => rw [hs] at hk; exact .inr ⟨by simp, hk⟩
  | aborted => rw [hs] at hk; exact .inr ⟨by simp, hk⟩
  | forever => rw [hs] at hk; exact .inr ⟨by simp, hk⟩

/-- **C103.** When every lock is granted and answered with the value the key has, the run locks exactly the keys that
the contract reads, in order, and reports exactly what the contract means: the updates of the table it returns or
the error it makes. `turns` only bounds the loop over the table, and every number that is large enough will do. -/
theorem C103_means_partial {vm : Type} (I : Interp vm) (store : Bytes → Bytes) (function param : Bytes) (m : vm) (hl : I.load function = some m) (ks : List Bytes) (r : Report)
    (hm : Means I store m param ks r) : ∃ enough, ∀ turns, enough ≤ turns →
    whole I (fun _ => true) turns function param (ks.map fun k => .value (store k)) =
      (.finished, ks.map Out.lock ++ [.report r]) := by
  have key : ∀ (m : vm) (input : Bytes) (ks : List Bytes) (r : Report), Means I store m input ks r →
      ∃ enough, ∀ turns, enough ≤ turns →
      let s := schedule I (fun _ => true) turns m input
      let s' := answers I (fun _ => true) turns s.1 (ks.map fun k => .value (store k))
      s'.1 = .finished ∧ s.2 ++ s'.2 = ks.map Out.lock ++ [.report r] := by
    intro m input ks r h
    induction h with
    | @read m next input k v ks r h1 h2 _ ih =>
      obtain ⟨enough, ih⟩ := ih
      refine ⟨enough, fun turns ht => ?_⟩
      obtain ⟨i1, i2⟩ := ih turns ht
      have hs : schedule I (fun _ => true) turns m input = (.waiting next, [.lock k]) := by
        simp [schedule, h1, h2]
      rw [hs]
      simp only [List.map_cons, answers, answer]
      exact ⟨i1, by simpa using i2⟩
    | updates h1 h2 h3 =>
      rename_i t u
      refine ⟨t.length, fun turns ht => ?_⟩
      have hv := loop_verdict I.text t h2.2 (by
        intro n hn
        obtain ⟨e, he, hx⟩ := List.mem_map.mp hn
        obtain ⟨s, hs⟩ := h2.1 e he
        rw [hs] at hx
        cases hx) t [] [] turns rfl ht (by simp)
      rw [verdict_asked _ _ h2.1, h3] at hv
      simp [schedule, h1, epilogue, hv, answers]
    | badValue h1 h2 h3 =>
      rename_i t
      refine ⟨t.length, fun turns ht => ?_⟩
      have hv := loop_verdict I.text t h2.2 (by
        intro n hn
        obtain ⟨e, he, hx⟩ := List.mem_map.mp hn
        obtain ⟨s, hs⟩ := h2.1 e he
        rw [hs] at hx
        cases hx) t [] [] turns rfl ht (by simp)
      rw [verdict_asked _ _ h2.1, h3] at hv
      simp [schedule, h1, epilogue, hv, answers]
    | noTable h1 => exact ⟨0, fun turns _ => by simp [schedule, h1, epilogue, answers]⟩
    | results h1 h2 =>
      rename_i rs
      refine ⟨0, fun turns _ => ?_⟩
      have : epilogue (vm := vm) I.text turns rs = (.finished, [.report (.error .resultCount)]) := by
        unfold epilogue
        split
        · simp at h2
        · rfl
      simp [schedule, h1, this, answers]
    | yields h1 h2 =>
      rename_i next _ vs
      refine ⟨0, fun turns _ => ?_⟩
      match vs with
      | [] => simp [schedule, h1, answers]
      | [v] => simp at h2
      | _ :: _ :: _ => simp [schedule, h1, answers]
    | badKey h1 h2 => exact ⟨0, fun turns _ => by simp [schedule, h1, h2, answers]⟩
    | fails h1 => exact ⟨0, fun turns _ => by simp [schedule, h1, answers]⟩
  obtain ⟨enough, key⟩ := key m param ks r hm
  refine ⟨enough, fun turns ht => ?_⟩
  obtain ⟨k1, k2⟩ := key turns ht
  simp only [whole, run, hl]
  exact Prod.ext k1 k2

/-- C103. The meaning is a function: the same code with the same parameter and the same values of the keys comes to
the same thing. -/
theorem C103_deterministic {vm : Type} (I : Interp vm) (store : Bytes → Bytes) (m : vm) (input : Bytes) (ks ks' : List Bytes)
    (r r' : Report) (h : Means I store m input ks r) : Means I store m input ks' r' → ks = ks' ∧ r = r' := by
  intro h'
  induction h generalizing ks' r' with
  | read h1 h2 _ ih =>
    cases h' with
    | read g1 g2 g3 =>
      rw [h1] at g1
      cases g1
      rw [h2] at g2
      cases g2
      obtain ⟨e1, e2⟩ := ih _ _ g3
      exact ⟨by rw [e1], e2⟩
    | badKey g1 g2 => rw [h1] at g1; cases g1; rw [h2] at g2; cases g2
    | yields g1 g2 => rw [h1] at g1; cases g1; simp at g2
    | updates g1 _ _ => rw [h1] at g1; cases g1
    | badValue g1 _ _ => rw [h1] at g1; cases g1
    | noTable g1 => rw [h1] at g1; cases g1
    | results g1 _ => rw [h1] at g1; cases g1
    | fails g1 => rw [h1] at g1; cases g1
  | updates h1 h2 h3 =>
    cases h' with
    | updates g1 _ g3 => rw [h1] at g1; cases g1; rw [h3] at g3; cases g3; exact ⟨rfl, rfl⟩
    | badValue g1 _ g3 => rw [h1] at g1; cases g1; rw [h3] at g3; cases g3
    | results g1 g2 => rw [h1] at g1; cases g1; simp at g2
    | read g1 _ _ => rw [h1] at g1; cases g1
    | badKey g1 _ => rw [h1] at g1; cases g1
    | yields g1 _ => rw [h1] at g1; cases g1
    | noTable g1 => rw [h1] at g1; cases g1
    | fails g1 => rw [h1] at g1; cases g1
  | badValue h1 h2 h3 =>
    cases h' with
    | updates g1 _ g3 => rw [h1] at g1; cases g1; rw [h3] at g3; cases g3
    | badValue g1 _ g3 => exact ⟨rfl, rfl⟩
    | results g1 g2 => rw [h1] at g1; cases g1; simp at g2
    | read g1 _ _ => rw [h1] at g1; cases g1
    | badKey g1 _ => rw [h1] at g1; cases g1
    | yields g1 _ => rw [h1] at g1; cases g1
    | noTable g1 => rw [h1] at g1; cases g1
    | fails g1 => rw [h1] at g1; cases g1
  | noTable h1 =>
    cases h' with
    | noTable g1 => exact ⟨rfl, rfl⟩
    | results g1 g2 => rw [h1] at g1; cases g1; simp at g2
    | updates g1 _ _ => rw [h1] at g1; cases g1
    | badValue g1 _ _ => rw [h1] at g1; cases g1
    | read g1 _ _ => rw [h1] at g1; cases g1
    | badKey g1 _ => rw [h1] at g1; cases g1
    | yields g1 _ => rw [h1] at g1; cases g1
    | fails g1 => rw [h1] at g1; cases g1
  | results h1 h2 =>
    cases h' with
    | results g1 g2 => exact ⟨rfl, rfl⟩
    | noTable g1 => rw [h1] at g1; cases g1; simp at h2
    | updates g1 _ _ => rw [h1] at g1; cases g1; simp at h2
    | badValue g1 _ _ => rw [h1] at g1; cases g1; simp at h2
    | read g1 _ _ => rw [h1] at g1; cases g1
    | badKey g1 _ => rw [h1] at g1; cases g1
    | yields g1 _ => rw [h1] at g1; cases g1
    | fails g1 => rw [h1] at g1; cases g1
  | yields h1 h2 =>
    cases h' with
    | yields g1 g2 => exact ⟨rfl, rfl⟩
    | read g1 _ _ => rw [h1] at g1; cases g1; simp at h2
    | badKey g1 _ => rw [h1] at g1; cases g1; simp at h2
    | updates g1 _ _ => rw [h1] at g1; cases g1
    | badValue g1 _ _ => rw [h1] at g1; cases g1
    | noTable g1 => rw [h1] at g1; cases g1
    | results g1 _ => rw [h1] at g1; cases g1
    | fails g1 => rw [h1] at g1; cases g1
  | badKey h1 h2 =>
    cases h' with
    | badKey g1 g2 => exact ⟨rfl, rfl⟩
    | read g1 g2 _ => rw [h1] at g1; cases g1; rw [h2] at g2; cases g2
    | yields g1 g2 => rw [h1] at g1; cases g1; simp at g2
    | updates g1 _ _ => rw [h1] at g1; cases g1
    | badValue g1 _ _ => rw [h1] at g1; cases g1
    | noTable g1 => rw [h1] at g1; cases g1
    | results g1 _ => rw [h1] at g1; cases g1
    | fails g1 => rw [h1] at g1; cases g1
  | fails h1 =>
    cases h' with
    | fails g1 => exact ⟨rfl, rfl⟩
    | read g1 _ _ => rw [h1] at g1; cases g1
    | badKey g1 _ => rw [h1] at g1; cases g1
    | yields g1 _ => rw [h1] at g1; cases g1
    | updates g1 _ _ => rw [h1] at g1; cases g1
    | badValue g1 _ _ => rw [h1] at g1; cases g1
    | noTable g1 => rw [h1] at g1; cases g1
    | results g1 _ => rw [h1] at g1; cases g1

/-- C103. A lock that is refused or fails ends the run with an error: nothing is asked to be written. -/
theorem C103_lock_fails {vm : Type} (I : Interp vm) (granted : Bytes → Bool) (turns : Nat) (m : vm) (a : Answer)
    (ha : ∀ v, a ≠ .value v) : ∃ e, answer I granted turns (.waiting m) a = (.finished, [.report (.error e)]) ∧
      (e = .wounded ↔ a = .shardError true) := by
  cases a with
  | value v => exact absurd rfl (ha v)
  | brokerError => exact ⟨_, rfl, by simp⟩
  | shardError w => cases w <;> exact ⟨_, rfl, by simp⟩

/-- C103. What a table comes to if no string among its keys is the text of a number among them, exactly: the first
entry with a key or value of the wrong type decides, and the agent process ends if it is a number as a key. -/
theorem C103_table (text : Nat → Bytes) (t : List (Val × Val)) (hn : (t.map Prod.fst).Nodup)
    (hd : ∀ n, .num n ∈ t.map Prod.fst → .str (text n) ∉ t.map Prod.fst) (turns : Nat) (hl : t.length ≤ turns) :
    loop text t turns t [] = verdict text t [] :=
  loop_verdict text t hn hd t [] [] turns rfl hl (by simp)

/-- **C103 (violated).** A contract that returns a list, such as `return {"x"}`, ends the agent process instead of being
refused: the number that is the key is turned into a string, and `lua_next` does not find it. Whatever the
interpreter, the parameter and the value. -/
theorem C103_abort_violated {vm : Type} (I : Interp vm) (granted : Bytes → Bool) (turns : Nat) (function param v : Bytes)
    (m : vm) (n : Nat) (hl : I.load function = some m)
    (hr : I.resume m param = .done [.table [(.num n, .str v)]]) (as : List Answer) :
    whole I granted (turns + 1) function param as = (.aborted, []) := by
  have h : run I granted (turns + 1) function param = (.aborted, []) := by
    simp [run, hl, schedule, hr, epilogue, loop, stackString, keyLeft, after]
  have h2 : answers I granted (turns + 1) (.aborted : State vm) as = (.aborted, []) := by
    induction as with
    | nil => rfl
    | cons a as ih => simp [answers, answer, ih]
  simp [whole, h, h2]

/-- **C103 (violated).** A table that has a number behind its own text, such as `{["1.5"]="a", [1.5]="b"}` in that order,
makes the runner go round for ever. -/
theorem C103_loop_violated (text : Nat → Bytes) (n : Nat) (a b : Bytes) (turns : Nat) :
    let t : List (Val × Val) := [(.str (text n), .str a), (.num n, .str b)]
    loop text t turns t [] = .running := by
  have key : ∀ turns u, loop text [(.str (text n), .str a), (.num n, .str b)] turns [(.num n, .str b)] u = .running := by
    intro turns
    induction turns with
    | zero => intro u; rfl
    | succ k ih =>
      intro u
      simp only [loop, stackString, keyLeft, after, if_true]
      exact ih _
  cases turns with
  | zero => rfl
  | succ k =>
    simp only [loop, stackString, keyLeft, after, if_true]
    exact key k _

/-- C103. Of a number and the string with its text, the one that comes first is kept. -/
example : loop (fun _ => [49]) [(.num 1, .str [7]), (.str [49], .str [8])] 5 [(.num 1, .str [7]), (.str [49], .str [8])] [] =
    .updates [([49], [7])] := by decide

/-- C103. `check_sig` lets a contract go on exactly when it is given a public key, a signature and a message of which
the signature, of the hash of the message, is good. -/
theorem C103_check_sig (text : Nat → Bytes) (sha : Bytes → Bytes) (parse : Bytes → Bool)
    (verify : Bytes → Bytes → Bytes → Bool) (args : List Val) :
    checkSig text sha parse verify args = .ok ↔
      ∃ a b c key sig msg, args = [a, b, c] ∧ stackString text a = some key ∧ stackString text b = some sig ∧
        stackString text c = some msg ∧ key.length = 32 ∧ sig.length = 64 ∧ parse key = true ∧
        verify sig (sha msg) key = true := by
  constructor
  · intro h
    unfold checkSig at h
    split at h
    · cases h
    · rename_i h3
      have h3 : args.length = 3 := Classical.not_not.mp h3
      match args, h3 with
      | [a, b, c], _ =>
        split at h
        · cases h
        · rename_i hs
          simp only [List.any_cons, List.any_nil, Bool.or_false, Bool.or_eq_true, not_or, Option.isNone_iff_eq_none] at hs
          obtain ⟨key, hk⟩ := Option.ne_none_iff_exists'.mp hs.1
          obtain ⟨sig, hg⟩ := Option.ne_none_iff_exists'.mp hs.2.1
          obtain ⟨msg, hm⟩ := Option.ne_none_iff_exists'.mp hs.2.2
          simp [hk, hg, hm] at h
          refine ⟨a, b, c, key, sig, msg, rfl, hk, hg, hm, ?_⟩
          by_cases h1 : key.length = 32 <;> by_cases h2 : sig.length = 64 <;> simp [h1, h2] at h ⊢
          cases h4 : parse key <;> cases h5 : verify sig (sha msg) key <;> simp [h4, h5] at h ⊢
  · rintro ⟨a, b, c, key, sig, msg, rfl, h1, h2, h3, h4, h5, h6, h7⟩
    simp [checkSig, h1, h2, h3, h4, h5, h6, h7]

/-! #### Examples -/

/-- An interpreter of three contracts. Code 1 adds a byte to the value of the key it gets as its parameter; code 2
returns a list; code 3 yields a table. -/
def tiny : Interp (Nat × Bytes) where
  load f := match f with
    | [1] => some (1, [])
    | [2] => some (2, [])
    | [3] => some (3, [])
    | _ => none
  resume m x := match m.1 with
    | 1 => .yield [.str x] (4, x)
    | 2 => .done [.table [(.num 1, .str x)]]
    | 3 => .yield [.other] (3, [])
    | 4 => .done [.table [(.str m.2, .str (x ++ [33]))]]
    | _ => .fail
  text n := [48 + UInt8.ofNat n]

example : whole tiny (fun _ => true) 3 [1] [107] [.value [5]] =
    (.finished, [.lock [107], .report (.updates [([107], [5, 33])])]) := rfl

example : Means tiny (fun _ => [5]) (1, []) [107] [[107]] (.updates [([107], [5, 33])]) :=
  .read rfl rfl (.updates rfl ⟨by simp, by simp⟩ rfl)

/-- Wounded while it waits. -/
example : whole tiny (fun _ => true) 3 [1] [107] [.shardError true, .value [5]] =
    (.finished, [.lock [107], .report (.error .wounded)]) := rfl

example : (whole tiny (fun _ => true) 3 [2] [107] []).1 = .aborted := rfl

example : whole tiny (fun _ => true) 3 [3] [107] [] = (.finished, [.report (.error .yieldType)]) := rfl

example : whole tiny (fun _ => false) 3 [1] [107] [] =
    (.finished, [.lock [107], .report (.error .internalError)]) := rfl

example : checkSig (fun _ => []) id (fun _ => true) (fun _ _ _ => true)
    [.str (List.replicate 32 1), .str (List.replicate 64 2), .str [3]] = .ok := by decide

end Verif.Parsec.Lua
