import Verif.Parsec.ManyLink

/-!
# The decided transactions in the order of the decisions
-/
namespace Verif.Parsec.Broker.Many

theorem execute_append (data : Nat → Key → Value) (l l' : List Txn) :
    execute data (l ++ l') = execute (execute data l) l' := by
  induction l generalizing data with
  | nil => rfl
  | cons e l ih => exact ih _

theorem serial_append {data : Nat → Key → Value} {l l' : List Txn} :
    Serial data (l ++ l') ↔ Serial data l ∧ Serial (execute data l) l' := by
  induction l generalizing data with
  | nil => simp [Serial, execute]
  | cons e l ih => simp only [List.cons_append, Serial, execute, ih, and_assoc]

/-- The tickets in the list. -/
def Decided (M : Many) (t : Tn) : Prop := ∃ e ∈ M.order, e.ticket = t

structure OrderInv (base : Nat → Key → Value) (M : Many) : Prop where
  nodup : (M.order.map (·.ticket)).Nodup
  decided : ∀ t, Decided M t ↔ ∃ b, CommitAsked t (M.h b)
  serial : Serial base M.order
  pending : ∀ e ∈ M.order, ∀ i k v, pendingWrite (M.shard i) e.ticket k = some v → execute base M.order i k = v
  stored : ∀ i k, (∀ e ∈ M.order, pendingWrite (M.shard i) e.ticket k = none) →
    (M.shard i).value k = execute base M.order i k

theorem OrderInv.start {n : Nat} {own : Nat → Tn → Prop} {base : Nat → Key → Value} {M : Many}
    (h : M.Initial n own base) : OrderInv base M where
  nodup := by rw [h.order]; exact .nil
  decided := by
    intro t
    constructor
    · rintro ⟨e, h1, _⟩
      rw [h.order] at h1
      cases h1
    · rintro ⟨b, x, h1, _⟩
      rw [h.hist] at h1
      cases h1
  serial := by rw [h.order]; trivial
  pending := by
    intro e h1
    rw [h.order] at h1
    cases h1
  stored := by
    intro i k _
    rw [h.base, h.order]
    rfl

/-- The writes of two transactions on the same key do not wait at the same time. -/
theorem pending_unique {s : Parsec.State} (hr : Reach s) {t t' : Tn} {k : Key} {v : Value} {ty : LockType}
    (h : pendingWrite s t k = some v) (h' : Holds s t' k ty) : t = t' :=
  C39_exclusion hr (pending_held hr h) h'

theorem hist_event_same (M : Many) (b : Nat) (e : Event) (s : State) (o : Out) :
    (M.event b e s o).h b = (e, o) :: M.h b := put_same _ _ _

theorem hist_event_other (M : Many) {b b' : Nat} (hb : b' ≠ b) (e : Event) (s : State) (o : Out) :
    (M.event b e s o).h b' = M.h b' := put_other _ _ hb

/-- Which transactions are decided after an event at one of the brokers. -/
theorem decided_many {n : Nat} {own : Nat → Tn → Prop} {M : Many}
    (hv : ∀ b, Runs n b (own b) Orderly (M.view b)) {b : Nat} {e : Event} {s : State} {o : Out}
    (hp : Plain (M.h b) e) (hs : step (M.b b) e = some (s, o)) (t : Tn) :
    (∃ a, CommitAsked t ((M.event b e s o).h a)) ↔ (∃ a, CommitAsked t (M.h a)) ∨ decides (M.h b) o = some t := by
  have key := decided_event (hv b) hp hs t
  constructor
  · rintro ⟨a, h1⟩
    by_cases ha : a = b
    · subst ha
      rw [hist_event_same] at h1
      rcases key.mp h1 with h2 | h2
      · exact .inl ⟨a, h2⟩
      · exact .inr h2
    · rw [hist_event_other M ha] at h1
      exact .inl ⟨a, h1⟩
  · rintro (⟨a, h1⟩ | h1)
    · refine ⟨a, ?_⟩
      by_cases ha : a = b
      · subst ha
        rw [hist_event_same]
        exact h1.mono
      · rw [hist_event_other M ha]
        exact h1
    · refine ⟨b, ?_⟩
      rw [hist_event_same]
      exact key.mpr (.inr h1)

/-- A transaction that is decided now was not before. -/
theorem decides_new {n : Nat} {own : Nat → Tn → Prop} (hd : Disjoint own) {M : Many}
    (hv : ∀ b, Runs n b (own b) Orderly (M.view b)) {b : Nat} {e : Event} {s : State} {o : Out}
    (hp : Plain (M.h b) e) (ho : Orderly (M.h b) e) (hj : Justified (M.view b) e)
    (hn : ∀ cb t m, e = .ticketNumber cb (some (t, m)) → own b t) (hs : step (M.b b) e = some (s, o)) {t : Tn}
    (hdec : decides (M.h b) o = some t) (a : Nat) : ¬CommitAsked t (M.h a) := by
  intro h1
  obtain ⟨h2, i, c, h3⟩ := decides_some hdec
  have h4 : own a t := h1.own (hv a).link
  have h5 : Runs n b (own b) Orderly ((M.view b).event e s o) := .step (hv b) (.event hp ho hj hn hs)
  have h6 : own b t := CommitAsked.own h5.link ⟨_, List.mem_cons_self, i, c, h3⟩
  have := hd _ _ _ h4 h6
  subst this
  exact h2 h1

theorem OrderInv.event {n : Nat} {own : Nat → Tn → Prop} {base : Nat → Key → Value} (hd : Disjoint own) {M : Many}
    (hv : ∀ b, Runs n b (own b) Orderly (M.view b)) (hi : OrderInv base M) {b : Nat} {e : Event} {s : State} {o : Out}
    (hp : Plain (M.h b) e) (ho : Orderly (M.h b) e) (hj : Justified (M.view b) e)
    (hn : ∀ cb t m, e = .ticketNumber cb (some (t, m)) → own b t) (hs : step (M.b b) e = some (s, o)) :
    OrderInv base (M.event b e s o) := by
  have hdm := decided_many hv hp hs
  have horder : (M.event b e s o).order = M.order ++ (decides (M.h b) o).toList.map (snapshot M.shard) := rfl
  have hshard : (M.event b e s o).shard = M.shard := rfl
  cases hdec : decides (M.h b) o with
  | none =>
    rw [hdec] at horder
    simp only [Option.toList_none, List.map_nil, List.append_nil] at horder
    refine ⟨?_, ?_, ?_, ?_, ?_⟩
    · rw [horder]; exact hi.nodup
    · intro t
      rw [hdm]
      unfold Decided
      rw [horder, hdec]
      simp only [reduceCtorEq, or_false]
      exact hi.decided t
    · rw [horder]; exact hi.serial
    · rw [horder, hshard]; exact hi.pending
    · rw [horder, hshard]; exact hi.stored
  | some t =>
    rw [hdec] at horder
    simp only [Option.toList_some, List.map_cons, List.map_nil] at horder
    have hnew : ¬Decided M t := by
      rw [hi.decided]
      rintro ⟨a, h1⟩
      exact decides_new hd hv hp ho hj hn hs hdec a h1
    have hne : ∀ x ∈ M.order, x.ticket ≠ t := fun x h1 h2 => hnew ⟨x, h1, h2⟩
    have hreach : ∀ i, Reach (M.shard i) := fun i => ((hv b).held i).reach
    have hexec : ∀ i k, execute base (M.order ++ [snapshot M.shard t]) i k =
        (pendingWrite (M.shard i) t k).getD (execute base M.order i k) := by
      intro i k
      rw [execute_append]
      rfl
    refine ⟨?_, ?_, ?_, ?_, ?_⟩
    · rw [horder, List.map_append, List.nodup_append]
      refine ⟨hi.nodup, by simp, ?_⟩
      intro x h1 y h2
      obtain ⟨z, h3, rfl⟩ := List.mem_map.mp h1
      simp only [List.map_cons, List.map_nil, List.mem_singleton] at h2
      subst h2
      exact hne z h3
    · intro t'
      rw [hdm, hdec, ← hi.decided]
      unfold Decided
      rw [horder]
      constructor
      · rintro ⟨x, h1, h2⟩
        rcases List.mem_append.mp h1 with h1 | h1
        · exact .inl ⟨x, h1, h2⟩
        · rw [List.mem_singleton] at h1
          subst h1
          exact .inr (by rw [← h2]; rfl)
      · rintro (⟨x, h1, h2⟩ | h1)
        · exact ⟨x, List.mem_append_left _ h1, h2⟩
        · cases h1
          exact ⟨_, List.mem_append_right _ (List.mem_singleton.mpr rfl), rfl⟩
    · rw [horder, serial_append]
      refine ⟨hi.serial, ?_, trivial⟩
      intro i k v h1
      simp only [snapshot, lockedValues, Option.map_eq_some_iff] at h1
      obtain ⟨ty, h2, rfl⟩ := h1
      refine (hi.stored i k fun x h3 => ?_).symm
      cases h4 : pendingWrite (M.shard i) x.ticket k with
      | none => rfl
      | some v => exact absurd (pending_unique (hreach i) h4 (holds_iff.mpr h2)) (hne x h3)
    · rw [horder, hshard]
      intro x h1 i k v h2
      rw [hexec]
      rcases List.mem_append.mp h1 with h1 | h1
      · cases h3 : pendingWrite (M.shard i) t k with
        | none => exact hi.pending x h1 i k v h2
        | some v' => exact absurd (pending_unique (hreach i) h2 (pending_held (hreach i) h3)) (hne x h1)
      · rw [List.mem_singleton] at h1
        subst h1
        rw [show pendingWrite (M.shard i) t k = some v from h2]
        rfl
    · rw [horder, hshard]
      intro i k h1
      have h3 : pendingWrite (M.shard i) t k = none :=
        h1 (snapshot M.shard t) (List.mem_append_right _ (List.mem_singleton.mpr rfl))
      rw [hexec, h3]
      exact hi.stored i k fun x h2 => h1 x (List.mem_append_left _ h2)

/-- A transaction which a shard commits is decided. -/
theorem commit_decided {n : Nat} {own : Nat → Tn → Prop} {base : Nat → Key → Value} {M : Many}
    (hv : ∀ b, Runs n b (own b) Orderly (M.view b)) (hi : OrderInv base M) {b i : Nat} {r : Request} {rest : List Request}
    {t : Tn} (hn : M.net b i = r :: rest) (ho : r.call.op b = some (.commit t)) : Decided M t := by
  rw [hi.decided]
  refine ⟨b, ?_⟩
  obtain ⟨x, h1, h2⟩ := (serve_ticket (hv b) hn ho).1.asked
  have h3 : ∃ j c, r.call = .commit j t c := by
    cases hc : r.call <;> rw [hc] at ho <;> simp [Call.op] at ho
    subst ho
    exact ⟨_, _, rfl⟩
  obtain ⟨j, c, h3⟩ := h3
  rw [h3] at h2
  exact ⟨x, h1, j, c, h2⟩

/-- Serving a request: what the decided transactions are going to write. -/
theorem serve_pending {n : Nat} {own : Nat → Tn → Prop} {M : Many}
    (hv : ∀ b, Runs n b (own b) Orderly (M.view b)) {b i : Nat} {r : Request} {rest : List Request} {op : Op}
    {s : Parsec.State} {o : Parsec.Out} (hd : Disjoint own) (hn : M.net b i = r :: rest) (ho : r.call.op b = some op)
    (he : exec (M.shard i) op = some (s, o)) {t : Tn} {a : Nat} (hc : CommitAsked t (M.h a)) :
    (∀ k, pendingWrite s t k = pendingWrite (M.shard i) t k) ∨
      (op = .commit t ∧ o.result = none ∧ ∀ k, pendingWrite s t k = none) := by
  by_cases ht : t = op.ticket
  · have h1 : own a t := hc.own (hv a).link
    have h2 := (serve_ticket (hv b) hn ho).2
    rw [← ht] at h2
    have := hd _ _ _ h1 h2
    subst this
    exact decided_pending (hv a) hc hn ho he
  · exact .inl (pending_other ((hv b).held i).reach he ht)

theorem OrderInv.serve {n : Nat} {own : Nat → Tn → Prop} {base : Nat → Key → Value} (hd : Disjoint own) {M : Many}
    (hv : ∀ b, Runs n b (own b) Orderly (M.view b)) (hi : OrderInv base M) {b i : Nat} {r : Request}
    {rest : List Request} {op : Op} {s : Parsec.State} {o : Parsec.Out} (hn : M.net b i = r :: rest)
    (ho : r.call.op b = some op) (he : exec (M.shard i) op = some (s, o)) :
    OrderInv base (M.serve b i r rest op s o) := by
  have hreach : Reach (M.shard i) := ((hv b).held i).reach
  have horder : (M.serve b i r rest op s o).order = M.order := rfl
  have hshard : (M.serve b i r rest op s o).shard = put M.shard i s := rfl
  have hhist : (M.serve b i r rest op s o).h = M.h := by
    funext a
    show put M.h b (M.h b) a = M.h a
    by_cases ha : a = b
    · subst ha; rw [put_same]
    · rw [put_other _ _ ha]
  have hstep : ∀ e ∈ M.order, (∀ k, pendingWrite s e.ticket k = pendingWrite (M.shard i) e.ticket k) ∨
      (op = .commit e.ticket ∧ o.result = none ∧ ∀ k, pendingWrite s e.ticket k = none) := by
    intro e h1
    obtain ⟨a, h2⟩ := (hi.decided e.ticket).mp ⟨e, h1, rfl⟩
    exact serve_pending hv hd hn ho he h2
  refine ⟨?_, ?_, ?_, ?_, ?_⟩
  · rw [horder]; exact hi.nodup
  · intro t
    unfold Decided
    rw [horder, hhist]
    exact hi.decided t
  · rw [horder]; exact hi.serial
  · rw [horder, hshard]
    intro e h1 j k v
    by_cases hj : j = i
    · subst hj
      rw [put_same]
      intro h2
      rcases hstep e h1 with h3 | ⟨_, _, h3⟩
      · rw [h3] at h2
        exact hi.pending e h1 j k v h2
      · rw [h3] at h2; cases h2
    · rw [put_other _ _ hj]
      exact hi.pending e h1 j k v
  · rw [horder, hshard]
    intro j k
    by_cases hj : j = i
    · subst hj
      rw [put_same]
      intro h2
      by_cases hcm : ∃ t, op = .commit t ∧ o.result = none
      · obtain ⟨t, rfl, hres⟩ := hcm
        obtain ⟨tk, h3, h4, h5⟩ := C43_commit_writes t he hres
        obtain ⟨e, h6, rfl⟩ := commit_decided hv hi hn ho
        have h7 : ∀ x, pendingWrite (M.shard j) e.ticket x = tk.update.lookup x := by
          intro x
          unfold pendingWrite
          rw [h3]
          simp [h4]
        rw [h5]
        cases h8 : tk.update.lookup k with
        | some v =>
          rw [← h7] at h8
          exact (hi.pending e h6 j k v h8).symm
        | none =>
          refine hi.stored j k fun x h9 => ?_
          rcases hstep x h9 with h10 | ⟨h10, _⟩
          · rw [← h10]; exact h2 x h9
          · injection h10 with h10
            rw [← h10, h7, h8]
      · have hval : s.value k = (M.shard j).value k := by
          apply Classical.byContradiction
          intro hne
          obtain ⟨t, _, h3, h4, _⟩ := C43_only_commit hreach he hne
          exact hcm ⟨t, h3, h4⟩
        rw [hval]
        refine hi.stored j k fun x h3 => ?_
        rcases hstep x h3 with h4 | ⟨h4, h5, _⟩
        · rw [← h4]; exact h2 x h3
        · exact absurd ⟨_, h4, h5⟩ hcm
    · rw [put_other _ _ hj]
      exact hi.stored j k

theorem orderInv {n : Nat} {own : Nat → Tn → Prop} {base : Nat → Key → Value} (hd : Disjoint own) {M : Many}
    (hr : ManyRuns n own base M) : OrderInv base M := by
  induction hr with
  | start h => exact .start h
  | @step M M' hr h ih =>
    have hv := view_runs hd hr
    cases h with
    | event hp ho hj hg hn hs => exact ih.event hd hv hp ho hj hn hs
    | serve hn ho he => exact ih.serve hd hv hn ho he
    | lose hl => exact ⟨ih.nodup, ih.decided, ih.serial, ih.pending, ih.stored⟩

end Verif.Parsec.Broker.Many
