import Verif.Parsec.AgentAgain

/-!
# An agent that runs again asks first for the locks it had asked for (C127)
-/
namespace Verif.Parsec.Agent

/-- **C127** while the broker takes all requests for locks: when a runner starts, each lock that was asked for in an
earlier attempt has been asked for again in this one, and at least as strong. -/
theorem C127_again_partial {cfg : Config} {h : Trace} {a : Agent} {p : Can} (r : Reaching cfg h a) (alive : Alive h)
    (hp : ∀ k, p.lock k = true) {e : Event} {i v k : Nat} {w : Bool}
    (hs : .start i v ∈ (step cfg p a e).2) (ha : Asked (before h) k w) :
    ∃ w', AskedAgain (since h) k w' ∧ (w = true → w' = true) := by
  rcases step_start hp r.known.well (r.run.rest alive) hs with hf | hl
  · exact r.known.again hf k w ha
  · obtain ⟨w', hm, _⟩ := r.known.covers k w (ha.mono (before_sub h))
    rw [hl] at hm
    cases hm

/-- **C127.** No other locks are asked for then, none more strongly than it was, and each once. -/
theorem C127_only_partial {cfg : Config} {h : Trace} {a : Agent} {p : Can} (r : Reaching cfg h a) (alive : Alive h)
    (hp : ∀ k, p.lock k = true) {e : Event} {id t k : Nat} {w : Bool}
    (ho : .lock (.again id) t k w ∈ (step cfg p a e).2) :
    Asked h k w ∧ (step cfg p a e).2.count (.lock (.again id) t k w) = 1 ∧
      ∀ w', .lock (.again id) t k w' ∈ (step cfg p a e).2 → w' = w := by
  cases step_locks (p := p) hp r.known.well (r.run.rest alive) e with
  | keeps hk => cases hk.none _ _ _ _ ho
  | asked r q k t w _ _ ho' => rw [ho'] at ho; simp at ho
  | again id' t' _ _ ho' =>
    have hn := r.known.well.nodup
    rw [ho'] at ho ⊢
    obtain ⟨x, hx, he⟩ := List.mem_map.mp ho
    simp only [Out.lock.injEq, Cont.again.injEq] at he
    obtain ⟨rfl, rfl, rfl, rfl⟩ := he
    refine ⟨r.known.only _ _ hx, ?_, fun w' hm => ?_⟩
    · have hd : (a.locks.map fun e => Out.lock (.again id') t' e.1 e.2).Nodup := by
        refine List.Pairwise.map _ ?_ (List.pairwise_map.mp hn)
        intro x y hxy he
        simp only [Out.lock.injEq] at he
        exact hxy he.2.2.1
      have h1 := List.nodup_iff_count.mp hd (.lock (.again id') t' x.1 x.2)
      have h2 := List.count_pos_iff.mpr ho
      omega
    · obtain ⟨y, hy, he⟩ := List.mem_map.mp hm
      simp only [Out.lock.injEq, true_and] at he
      obtain ⟨h1, rfl⟩ := he
      exact mem_unique hn (h1 ▸ hy) hx

/-! ### Concrete runs -/

theorem play_reaching (cfg : Config) (l : List (Can × Event)) (hl : ∀ x ∈ l, ∀ k, x.1.lock k = true)
    (h : aliveB (play cfg l.tail).1 = true) : Reaching cfg (play cfg l).1 (play cfg l).2 := by
  induction l with
  | nil => exact .start
  | cons x l ih =>
    refine .step (ih (fun y hy => hl y (List.mem_cons_of_mem _ hy)) ?_) (aliveB_sound h) x.1
      (hl x List.mem_cons_self) x.2
    cases l with
    | nil => rfl
    | cons y l =>
      simp only [List.tail_cons] at h ⊢
      simp only [play, aliveB, List.all_cons, Bool.and_eq_true] at h
      exact h.2

/-- Two locks are asked for, one of them twice; the transaction is wounded, starts again and waits for the second of
the locks; newest event first. -/
def upgraded : List (Can × Event) :=
  [({}, .locked (.again 0) (.value 1)), ({}, .locked .function (.value 9)),
   ({}, .exec), ({}, .rolledBack true), ({}, .ran .wounded), ({}, .locked (.runner 0 2) .wounded),
   ({}, .request 0 2 5 true), ({}, .request 0 1 6 false), ({}, .request 0 0 5 false),
   ({}, .locked .function (.value 9)), ({}, .begun (some 3)), ({}, .exec)]

/-- The hypotheses of `C127_again_partial`: the next answer starts the runner, and the write lock on 5 of the first
attempt is the one that is asked for again. -/
example : Reaching cfg7 (play cfg7 upgraded).1 (play cfg7 upgraded).2 ∧ Alive (play cfg7 upgraded).1 ∧
    .start 1 9 ∈ (step cfg7 {} (play cfg7 upgraded).2 (.locked (.again 0) (.value 2))).2 ∧
    Asked (before (play cfg7 upgraded).1) 5 true ∧ Asked (before (play cfg7 upgraded).1) 6 false ∧
    (since (play cfg7 upgraded).1).flatMap (·.2) =
      [.lock (.again 0) 3 5 true, .lock (.again 0) 3 6 false, .lock .function 3 7 false,
       .result (.error .retry)] := by
  refine ⟨play_reaching _ _ ?_ (by decide), aliveB_sound (by decide), by decide, ?_, ?_, by decide⟩
  · intro x hx k
    simp only [upgraded, List.mem_cons, List.not_mem_nil, or_false] at hx
    rcases hx with h | h | h | h | h | h | h | h | h | h | h | h <;> subst h <;> rfl
  · exact ⟨(.request 0 2 5 true, [.lock (.runner 0 2) 3 5 true]), by decide, .runner 0 2, 3, by decide, by decide⟩
  · exact ⟨(.request 0 1 6 false, [.lock (.runner 0 1) 3 6 false]), by decide, .runner 0 1, 3, by decide, by decide⟩

/-- Two locks are asked for in the first attempt.  In the second the request for the first of them cannot be sent.  In
the third the first is acquired again; newest event first. -/
def forgotten : List (Can × Event) :=
  [({}, .locked .function (.value 9)),
   ({}, .exec), ({}, .rolledBack true),
   ({ lock := fun k => k ≠ 5 }, .locked .function (.value 9)),
   ({}, .exec), ({}, .rolledBack true), ({}, .ran .wounded),
   ({}, .request 0 1 6 false), ({}, .request 0 0 5 false),
   ({}, .locked .function (.value 9)), ({}, .begun (some 3)), ({}, .exec)]

/-- **C127 is violated** when the broker does not take a request: the locks whose turn had not come are forgotten,
and the next runner starts without them (src/parsec/agent/impl.cpp:257, 293-300). -/
theorem C127_violated : ∃ h a, Run cfg7 h a ∧ Alive h ∧
    (∃ i v, .start i v ∈ (step cfg7 {} a (.locked (.again 1) (.value 2))).2) ∧
    Asked (before h) 6 false ∧ ∀ w, ¬ AskedAgain h 6 w := by
  refine ⟨_, _, play_run cfg7 forgotten (by decide), aliveB_sound (by decide), ⟨1, 9, by decide⟩, ?_, ?_⟩
  · exact ⟨(.request 0 1 6 false, [.lock (.runner 0 1) 3 6 false]), by decide, .runner 0 1, 3, by decide, by decide⟩
  · rintro w ⟨x, hx, id, t, hm⟩
    have : ∀ x ∈ (play cfg7 forgotten).1, ∀ y ∈ x.2, (match y with
        | .lock (.again _) _ 6 _ => false
        | _ => true) = true := by decide
    exact absurd (this x hx _ hm) (by simp)

end Verif.Parsec.Agent
