import Verif.LockingShard.Cluster
import Verif.LockingShard.Props

/-! Property C105: the replicas of a shard are one shard. -/
namespace Verif.LockingShard.Cluster

open Verif.Tx

/-! ### Specification -/

/-- One object that is given the entries, and its answers. `none`: the process ended. -/
def single {S Q R : Type} (M : Machine S Q R) (s : S) : List (Option Q) → Option (S × List (Option R))
  | [] => some (s, [])
  | none :: es => (single M s es).map fun r => (r.1, none :: r.2)
  | some q :: es =>
    match M.step s q with
    | none => none
    | some (s', r) => (single M s' es).map fun t => (t.1, some r :: t.2)

/-! ### Proofs -/

theorem single_snoc {S Q R : Type} (M : Machine S Q R) (s : S) (es : List (Option Q)) (e : Option Q) :
    single M s (es ++ [e]) = (single M s es).bind fun r => (M.commit r.1 e).map fun t => (t.1, r.2 ++ [t.2]) := by
  induction es generalizing s with
  | nil =>
    cases e with
    | none => simp [single, Machine.commit]
    | some q =>
      simp only [List.nil_append, single, Machine.commit, Option.bind_some, Option.map_map]
      cases M.step s q <;> simp
  | cons x es ih =>
    cases x with
    | none =>
      simp only [List.cons_append, single, ih]
      cases single M s es with
      | none => rfl
      | some r => cases h : M.commit r.1 e <;> simp [h]
    | some q =>
      simp only [List.cons_append, single]
      cases M.step s q with
      | none => rfl
      | some p =>
        simp only [ih]
        cases single M p.1 es with
        | none => rfl
        | some r => cases h : M.commit r.1 e <;> simp [h]

theorem single_length {S Q R : Type} (M : Machine S Q R) (s : S) (es : List (Option Q)) (r : S × List (Option R))
    (h : single M s es = some r) : r.2.length = es.length := by
  induction es generalizing s r with
  | nil => cases h; rfl
  | cons x es ih =>
    cases x with
    | none =>
      simp only [single, Option.map_eq_some_iff] at h
      obtain ⟨t, ht, rfl⟩ := h
      simp [ih s t ht]
    | some q =>
      simp only [single] at h
      split at h
      · cases h
      · simp only [Option.map_eq_some_iff] at h
        obtain ⟨t, ht, rfl⟩ := h
        simp [ih _ t ht]

/-- Where one object has come to an end, longer lists do too. -/
theorem single_none {S Q R : Type} (M : Machine S Q R) (s : S) (es es' : List (Option Q)) (h : single M s es = none) :
    single M s (es ++ es') = none := by
  induction es generalizing s with
  | nil => cases h
  | cons x es ih =>
    cases x with
    | none =>
      simp only [single, Option.map_eq_none_iff] at h
      simp [single, ih s h]
    | some q =>
      simp only [single] at h
      simp only [List.cons_append, single]
      split
      · rfl
      · rename_i hst
        rw [hst] at h
        simp only [Option.map_eq_none_iff] at h
        simp [ih _ h]

/-- What holds at any time. -/
structure Inv {S Q R : Type} (M : Machine S Q R) (s : Sys S Q R) : Prop where
  bound : ∀ n x, (s.replicas n).object = some x → (s.replicas n).applied ≤ s.log.length
  object : ∀ n x, (s.replicas n).object = some x →
    ∃ rs, single M M.start (s.log.take (s.replicas n).applied) = some (x, rs)
  replies : ∀ i r, (i, r) ∈ s.replies → i < s.log.length ∧
    ∃ x rs, single M M.start (s.log.take (i + 1)) = some (x, rs) ∧ rs[i]? = some r
  reads : ∀ len x, (len, x) ∈ s.reads → len ≤ s.log.length ∧
    ∃ k, k ≤ len ∧ ∃ rs, single M M.start (s.log.take k) = some (x, rs)

theorem inv_new {S Q R : Type} (M : Machine S Q R) : Inv M (new S Q R) :=
  ⟨by simp [new], by simp [new], by simp [new], by simp [new]⟩

theorem inv_set_down {S Q R : Type} (M : Machine S Q R) {s : Sys S Q R} (h : Inv M s) (n : Nat) :
    Inv M (s.set n ⟨none, 0⟩) := by
  refine ⟨?_, ?_, h.replies, h.reads⟩
  · intro i x hx
    simp only [Sys.set] at hx ⊢
    by_cases hi : i = n
    · simp [hi] at hx
    · simp only [if_neg hi] at hx ⊢; exact h.bound i x hx
  · intro i x hx
    simp only [Sys.set] at hx ⊢
    by_cases hi : i = n
    · simp [hi] at hx
    · simp only [if_neg hi] at hx ⊢; exact h.object i x hx

theorem take_log {Q : Type} (l : List (Option Q)) (k : Nat) (e : Option Q) (h : k ≤ l.length) :
    (l ++ [e]).take k = l.take k := List.take_append_of_le_length h

theorem inv_step {S Q R : Type} (M : Machine S Q R) {s : Sys S Q R} (h : Inv M s) (e : Ev Q) : Inv M (step M s e) := by
  cases e with
  | agree e =>
    refine ⟨?_, ?_, ?_, ?_⟩
    · intro n x hx
      have := h.bound n x hx
      simp only [step, List.length_append, List.length_singleton]
      omega
    · intro n x hx
      simp only [step]
      rw [take_log _ _ _ (h.bound n x hx)]
      exact h.object n x hx
    · intro i r hr
      obtain ⟨h1, h2⟩ := h.replies i r hr
      simp only [step, List.length_append, List.length_singleton]
      refine ⟨by omega, ?_⟩
      rw [take_log _ _ _ (by omega)]
      exact h2
    · intro len x hx
      obtain ⟨h1, k, h2, h3⟩ := h.reads len x hx
      simp only [step, List.length_append, List.length_singleton]
      refine ⟨by omega, k, h2, ?_⟩
      rw [take_log _ _ _ (by omega)]
      exact h3
  | execute n answers =>
    simp only [step]
    split
    · rename_i x e hx he
      split
      · exact inv_set_down M h n
      · rename_i x' r hc
        obtain ⟨rs, hs⟩ := h.object n x hx
        have hlt : (s.replicas n).applied < s.log.length := by
          rcases Nat.lt_or_ge (s.replicas n).applied s.log.length with h1 | h1
          · exact h1
          · rw [List.getElem?_eq_none h1] at he; cases he
        have htake : s.log.take ((s.replicas n).applied + 1) = s.log.take (s.replicas n).applied ++ [e] := by
          rw [List.take_add_one, he]; rfl
        have hnext : single M M.start (s.log.take ((s.replicas n).applied + 1)) = some (x', rs ++ [r]) := by
          rw [htake, single_snoc, hs]
          simp [hc]
        have hlen := single_length M _ _ _ hs
        simp only [List.length_take] at hlen
        have base : Inv M (s.set n ⟨some x', (s.replicas n).applied + 1⟩) := by
          refine ⟨?_, ?_, h.replies, h.reads⟩
          · intro i y hy
            simp only [Sys.set] at hy ⊢
            by_cases hi : i = n
            · simp only [hi, if_true]; omega
            · simp only [if_neg hi] at hy ⊢; exact h.bound i y hy
          · intro i y hy
            simp only [Sys.set] at hy ⊢
            by_cases hi : i = n
            · simp only [hi, if_true, Option.some.injEq] at hy ⊢
              subst hy
              exact ⟨_, hnext⟩
            · simp only [if_neg hi] at hy ⊢; exact h.object i y hy
        split
        · refine ⟨base.bound, base.object, ?_, base.reads⟩
          intro i r' hr
          rcases List.mem_append.mp hr with hr | hr
          · exact base.replies i r' hr
          · simp only [List.mem_singleton, Prod.mk.injEq] at hr
            obtain ⟨rfl, rfl⟩ := hr
            refine ⟨hlt, x', _, hnext, ?_⟩
            rw [List.getElem?_append_right (by omega)]
            have : (s.replicas n).applied - rs.length = 0 := by omega
            simp [this]
        · exact base
    · exact h
  | kill n => exact inv_set_down M h n
  | start n =>
    simp only [step]
    split
    · exact h
    · refine ⟨?_, ?_, h.replies, h.reads⟩
      · intro i y hy
        simp only [Sys.set] at hy ⊢
        by_cases hi : i = n
        · simp [hi]
        · simp only [if_neg hi] at hy ⊢; exact h.bound i y hy
      · intro i y hy
        simp only [Sys.set] at hy ⊢
        by_cases hi : i = n
        · simp only [hi, if_true, Option.some.injEq] at hy ⊢
          subst hy
          exact ⟨[], rfl⟩
        · simp only [if_neg hi] at hy ⊢; exact h.object i y hy
  | read n =>
    simp only [step]
    split
    · rename_i x hx
      refine ⟨h.bound, h.object, h.replies, ?_⟩
      intro len y hy
      rcases List.mem_append.mp hy with hy | hy
      · exact h.reads len y hy
      · simp only [List.mem_singleton, Prod.mk.injEq] at hy
        obtain ⟨rfl, rfl⟩ := hy
        exact ⟨Nat.le_refl _, _, h.bound n y hx, h.object n y hx⟩
    · exact h

theorem inv_run {S Q R : Type} (M : Machine S Q R) (evs : List (Ev Q)) (s : Sys S Q R) (h : Inv M s) :
    Inv M (run M s evs) := by
  induction evs generalizing s with
  | nil => exact h
  | cons e evs ih => exact ih _ (inv_step M h e)

theorem run_append {S Q R : Type} (M : Machine S Q R) (s : Sys S Q R) (a b : List (Ev Q)) :
    run M s (a ++ b) = run M (run M s a) b := List.foldl_append ..

theorem log_step {S Q R : Type} (M : Machine S Q R) (s : Sys S Q R) (e : Ev Q) : s.log <+: (step M s e).log := by
  cases e with
  | agree e => exact ⟨[e], rfl⟩
  | execute n a =>
    simp only [step]
    split
    · split
      · exact List.prefix_refl _
      · split <;> exact List.prefix_refl _
    · exact List.prefix_refl _
  | kill n => exact List.prefix_refl _
  | start n => simp only [step]; split <;> exact List.prefix_refl _
  | read n => simp only [step]; split <;> exact List.prefix_refl _

theorem log_run {S Q R : Type} (M : Machine S Q R) (evs : List (Ev Q)) (s : Sys S Q R) : s.log <+: (run M s evs).log := by
  induction evs generalizing s with
  | nil => exact List.prefix_refl _
  | cons e evs ih => exact (log_step M s e).trans (ih _)

/-! ### C105 -/

/-- **C105.** Every answer to a request, whichever replica gave it and whatever happened to the replicas, is the one that a
single shard gives to the entries agreed on up to that one. -/
theorem C105_replies {S Q R : Type} (M : Machine S Q R) (evs : List (Ev Q)) (i : Nat) (r : Option R)
    (h : (i, r) ∈ (run M (new S Q R) evs).replies) :
    ∃ x rs, single M M.start ((run M (new S Q R) evs).log.take (i + 1)) = some (x, rs) ∧ rs[i]? = some r :=
  ((inv_run M evs _ (inv_new M)).replies i r h).2

/-- C105. Two replicas never answer a request differently. -/
theorem C105_agree {S Q R : Type} (M : Machine S Q R) (evs : List (Ev Q)) (i : Nat) (r r' : Option R)
    (h : (i, r) ∈ (run M (new S Q R) evs).replies) (h' : (i, r') ∈ (run M (new S Q R) evs).replies) : r = r' := by
  obtain ⟨x, rs, h1, h2⟩ := C105_replies M evs i r h
  obtain ⟨x', rs', h1', h2'⟩ := C105_replies M evs i r' h'
  rw [h1] at h1'
  cases h1'
  rw [h2] at h2'
  exact Option.some.inj h2'

/-- **C105.** Every question about status is answered as a single shard would have answered it at some moment, now or
earlier. -/
theorem C105_reads {S Q R : Type} (M : Machine S Q R) (evs : List (Ev Q)) (len : Nat) (x : S)
    (h : (len, x) ∈ (run M (new S Q R) evs).reads) :
    ∃ k, k ≤ len ∧ ∃ rs, single M M.start ((run M (new S Q R) evs).log.take k) = some (x, rs) :=
  ((inv_run M evs _ (inv_new M)).reads len x h).2

/-- **C105.** A replica that starts again and executes what was agreed on is where a single shard is: nothing is lost with a
process, as long as the entries do not end it. -/
theorem C105_catches_up {S Q R : Type} (M : Machine S Q R) (evs : List (Ev Q)) (n : Nat) (x : S) (rs : List (Option R))
    (h : single M M.start (run M (new S Q R) evs).log = some (x, rs)) :
    let s := run M (new S Q R) (evs ++ .kill n :: .start n ::
      List.replicate (run M (new S Q R) evs).log.length (.execute n false))
    (s.replicas n).object = some x ∧ s.log = (run M (new S Q R) evs).log := by
  have key : ∀ (k : Nat) (s : Sys S Q R), s.log = (run M (new S Q R) evs).log → Inv M s →
      (s.replicas n).object ≠ none → s.log.length ≤ (s.replicas n).applied + k →
      let t := run M s (List.replicate k (.execute n false))
      (t.replicas n).object = some x ∧ t.log = (run M (new S Q R) evs).log := by
    intro k
    induction k with
    | zero =>
      intro s hlog hi hup hlen
      obtain ⟨y, hy⟩ := Option.ne_none_iff_exists'.mp hup
      obtain ⟨rs', hs⟩ := hi.object n y hy
      rw [List.take_of_length_le (by omega), hlog, h] at hs
      cases hs
      exact ⟨hy, hlog⟩
    | succ k ih =>
      intro s hlog hi hup hlen
      obtain ⟨y, hy⟩ := Option.ne_none_iff_exists'.mp hup
      have hrun : run M s (List.replicate (k + 1) (.execute n false)) =
          run M (step M s (.execute n false)) (List.replicate k (.execute n false)) := by
        simp [run, List.replicate_succ]
      simp only [hrun]
      have hinv := inv_step M hi (.execute n false)
      by_cases hend : s.log.length ≤ (s.replicas n).applied
      · have hst : step M s (.execute n false) = s := by
          simp only [step, hy, List.getElem?_eq_none hend]
        rw [hst]
        exact ih s hlog hi hup (by omega)
      · have hlt : (s.replicas n).applied < s.log.length := by omega
        obtain ⟨rs', hs⟩ := hi.object n y hy
        have he := List.getElem?_eq_getElem hlt
        cases hc : M.commit y s.log[(s.replicas n).applied] with
        | none =>
          exfalso
          have htake : s.log.take ((s.replicas n).applied + 1) =
              s.log.take (s.replicas n).applied ++ [s.log[(s.replicas n).applied]] := by
            rw [List.take_add_one, he]; rfl
          have hn : single M M.start (s.log.take ((s.replicas n).applied + 1)) = none := by
            rw [htake, single_snoc, hs]
            simp [hc]
          have := single_none M M.start _ (s.log.drop ((s.replicas n).applied + 1)) hn
          rw [List.take_append_drop, hlog, h] at this
          cases this
        | some p =>
          have hst : step M s (.execute n false) = s.set n ⟨some p.1, (s.replicas n).applied + 1⟩ := by
            simp only [step, hy, he, hc, Bool.false_eq_true, if_false]
          rw [hst] at hinv ⊢
          exact ih _ hlog hinv (by simp [Sys.set]) (by simp only [Sys.set, if_true]; omega)
  simp only
  rw [run_append]
  have hi := inv_run M evs _ (inv_new M)
  generalize hg : run M (new S Q R) evs = s0 at *
  have h1 : run M s0 (.kill n :: .start n :: List.replicate s0.log.length (.execute n false)) =
      run M (step M (step M s0 (.kill n)) (.start n)) (List.replicate s0.log.length (.execute n false)) := rfl
  rw [h1]
  refine key _ _ ?_ (inv_step M (inv_step M hi _) _) ?_ ?_
  · simp [step, Sys.set]
  · simp [step, Sys.set]
  · simp [step, Sys.set]

/-- **C105.** An entry that ends the process ends it in every replica and after every start: it is in the log for good. No
replica ever gets beyond it and nothing agreed on later is ever answered. -/
theorem C105_poison {S Q R : Type} (M : Machine S Q R) (evs more : List (Ev Q)) (k : Nat)
    (hk : single M M.start ((run M (new S Q R) evs).log.take (k + 1)) = none) :
    (∀ n x, ((run M (new S Q R) (evs ++ more)).replicas n).object = some x →
      ((run M (new S Q R) (evs ++ more)).replicas n).applied ≤ k) ∧
    ∀ i r, (i, r) ∈ (run M (new S Q R) (evs ++ more)).replies → i < k := by
  have hpre : (run M (new S Q R) evs).log <+: (run M (new S Q R) (evs ++ more)).log := by
    rw [run_append]; exact log_run M more _
  have hi := inv_run M (evs ++ more) _ (inv_new M)
  -- any list that begins with the entries up to `k` ends the process
  have hbad : ∀ m, k + 1 ≤ m → single M M.start ((run M (new S Q R) (evs ++ more)).log.take m) = none := by
    intro m hm
    obtain ⟨t, ht⟩ := hpre
    rw [← ht]
    have : ∃ u, ((run M (new S Q R) evs).log ++ t).take m = (run M (new S Q R) evs).log.take (k + 1) ++ u := by
      refine ⟨(((run M (new S Q R) evs).log ++ t).take m).drop ((run M (new S Q R) evs).log.take (k + 1)).length, ?_⟩
      have hp : (run M (new S Q R) evs).log.take (k + 1) <+: ((run M (new S Q R) evs).log ++ t).take m := by
        rcases Nat.lt_or_ge (run M (new S Q R) evs).log.length m with h1 | h1
        · rw [List.take_append, List.take_of_length_le (Nat.le_of_lt h1)]
          exact (List.take_prefix _ _).trans (List.prefix_append _ _)
        · rw [List.take_append_of_le_length h1]
          exact List.take_prefix_take_left hm
      obtain ⟨u, hu⟩ := hp
      rw [← hu]
      simp
    obtain ⟨u, hu⟩ := this
    rw [hu]
    exact single_none M _ _ u hk
  constructor
  · intro n x hx
    obtain ⟨rs, hs⟩ := hi.object n x hx
    rcases Nat.lt_or_ge k ((run M (new S Q R) (evs ++ more)).replicas n).applied with hgt | hle
    · rw [hbad _ (by omega)] at hs
      cases hs
    · exact hle
  · intro i r hr
    obtain ⟨_, x, rs, hs, _⟩ := hi.replies i r hr
    rcases Nat.lt_or_ge i k with hlt | hge
    · exact hlt
    · rw [hbad _ (by omega)] at hs
      cases hs

/-- C105. For a locking shard the single object is that of C11-C15 and C59: it is given the requests among the entries. -/
theorem C105_shard (c : Cfg) (uhs : HSet) (es : List (Option Req)) (s : State) :
    (single (shard c uhs) s es).map (fun r => (r.1, r.2.filterMap id)) = LockingShard.run c s (es.filterMap id) := by
  induction es generalizing s with
  | nil => rfl
  | cons e es ih =>
    cases e with
    | none =>
      rw [List.filterMap_cons_none rfl, ← ih s]
      simp only [single, Option.map_map]
      rfl
    | some q =>
      have hfm : (some q :: es).filterMap id = q :: es.filterMap id := rfl
      rw [hfm]
      simp only [single, LockingShard.run]
      cases hst : LockingShard.step c s q with
      | none => simp [shard, hst]
      | some p =>
        have hst' : (shard c uhs).step s q = some p := hst
        rw [hst']
        have hp := ih p.1
        simp only [Option.map_map, Option.bind_eq_bind, Option.bind_some, ← hp]
        cases single (shard c uhs) p.1 es <;> rfl

/-- **C105 (violated).** One `apply` for a batch the shard does not know, such as a late one after `discard`, or one sent by
anybody who can connect, ends the shard for good: whatever is done to the replicas, nothing is answered from then on. -/
theorem C105_poison_violated (c : Cfg) (uhs : HSet) (flags : List Bool) (d : Hash) (more : List (Ev Req)) :
    let s := run (shard c uhs) (new State Req Resp) (.agree (some (.apply flags d)) :: more)
    s.replies = [] ∧ ∀ n x, (s.replicas n).object = some x → (s.replicas n).applied = 0 := by
  have h := C105_poison (shard c uhs) [.agree (some (.apply flags d))] more 0 (by
    simp [run, step, new, single, shard, LockingShard.step, applyOutputs, State.init])
  refine ⟨?_, fun n x hx => Nat.le_zero.mp (h.1 n x hx)⟩
  apply List.eq_nil_iff_forall_not_mem.mpr
  rintro ⟨i, r⟩ hm
  exact absurd (h.2 i r hm) (Nat.not_lt_zero _)

/-- What the status server answers: `check_unspent`. -/
def unspentReads (s : Sys State Req Resp) (x : Hash) : List Bool := s.reads.map fun r => checkUnspent r.2 x

/-- **C105 (violated).** Answers about status can go back in time: a coin that was spent is unspent again when the next question
goes to another replica, although nothing happened in between. -/
theorem C105_stale_violated : ∃ (c : Cfg) (uhs : HSet) (x : Hash) (evs : List (Ev Req)),
    unspentReads (run (shard c uhs) (new State Req Resp) (evs ++ [.read 0, .read 1])) x = [false, true] ∧
    x ∈ tA.inputs ∧ (run (shard c uhs) (new State Req Resp) evs).replies.length = 2 := by
  refine ⟨exCfg, exUhs, (tA.inputs.headD dA), [.start 0, .start 1, .agree (some (.lock [tA] dA)),
    .agree (some (.apply [true] dA)), .execute 0 true, .execute 0 true], ?_, ?_, ?_⟩ <;> decide

/-! #### Examples -/

/-- Two replicas; the first answers, is killed, and the second answers the rest. -/
example : (run (shard exCfg exUhs) (new State Req Resp) [.start 0, .start 1, .agree none, .agree (some (.lock [tA] dA)),
    .execute 0 true, .execute 0 true, .kill 0, .agree (some (.apply [true] dA)), .execute 1 false, .execute 1 false,
    .execute 1 true]).replies = [(0, none), (1, some (.lock (some [true]))), (2, some (.apply true))] := by decide

/-- The entries of that run do not end the process. -/
example : (single (shard exCfg exUhs) (State.init exCfg exUhs)
    [none, some (.lock [tA] dA), some (.apply [true] dA)]).isSome = true := by decide

end Verif.LockingShard.Cluster
