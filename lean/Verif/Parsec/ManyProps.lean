import Verif.Parsec.ManyOut

/-!
# C87: the committed transactions of all brokers can be executed one after the other

The statements are about the states any number of brokers with common shards can
reach (`ManyRuns`), for users who keep the order of the calls (`Orderly`).  The
specification is in `ManySys`: a transaction is what it had locked and what it
writes (`Txn`), and transactions are executed one after the other by `execute`; they
are `Serial` if each then finds the values it had locked.  The list is `M.order`.
-/
namespace Verif.Parsec.Broker.Many

/-- **C87.** There is a list of transactions, each with another number, which contains
exactly those which some broker has asked a shard to commit.  Executed one after the
other, each finds the values it had locked, and at the end they leave behind what the
shards store, except for values which one of them is going to write and for which it
holds the write lock. -/
theorem C87_serializable {n : Nat} {own : Nat → Tn → Prop} {base : Nat → Key → Value} {M : Many} (hd : Disjoint own)
    (hr : ManyRuns n own base M) :
    (M.order.map (·.ticket)).Nodup ∧ (∀ t, (∃ e ∈ M.order, e.ticket = t) ↔ ∃ b, CommitAsked t (M.h b)) ∧
      Serial base M.order ∧ ∀ i k, (M.shard i).value k = execute base M.order i k ∨
        ∃ e ∈ M.order, Holds (M.shard i) e.ticket k .write ∧ ∃ tk, (M.shard i).ticket e.ticket = some tk ∧
          tk.state = .prepared ∧ tk.update.lookup k = some (execute base M.order i k) := by
  have hi := orderInv hd hr
  refine ⟨hi.nodup, hi.decided, hi.serial, fun i k => ?_⟩
  by_cases h : ∀ e ∈ M.order, pendingWrite (M.shard i) e.ticket k = none
  · exact .inl (hi.stored i k h)
  · right
    simp only [Classical.not_forall] at h
    obtain ⟨e, h1, h2⟩ := h
    obtain ⟨v, h3⟩ := Option.ne_none_iff_exists'.mp h2
    have hreach : Reach (M.shard i) := ((view_runs hd hr 0).held i).reach
    obtain ⟨tk, h4, h5, h6⟩ := pending_some h3
    refine ⟨e, h1, pending_held hreach h3, tk, h4, h5, ?_⟩
    rw [hi.pending e h1 i k v h3]
    exact h6

/-- **C87.** What a shard committed, and what a user was told to be committed, is in the
list. -/
theorem C87_complete {n : Nat} {own : Nat → Tn → Prop} {base : Nat → Key → Value} {M : Many} (hd : Disjoint own)
    (hr : ManyRuns n own base M) {b : Nat} {t : Tn}
    (hc : (∃ i, Committed (M.view b) i t) ∨ ∃ cb, ∃ x ∈ M.h b, Said.commit cb t none ∈ x.2.said) :
    ∃ e ∈ M.order, e.ticket = t := by
  have hv := view_runs hd hr
  rw [(C87_serializable hd hr).2.1]
  refine ⟨b, ?_⟩
  rcases hc with ⟨i, hc⟩ | ⟨cb, x, hx, hc⟩
  · obtain ⟨c, h1⟩ := hc.asked (hv b).link
    exact asked_commit h1
  · have key : ∀ {h : Hist} {s : State}, Run n h s → ∀ x ∈ h, Said.commit cb t none ∈ x.2.said → CommitAsked t h := by
      intro h s hr
      induction hr with
      | start => intro x hx; cases hx
      | @step h s s' e o hrun hp hs ih =>
        intro x hx hc
        rcases List.mem_cons.mp hx with rfl | hx
        · obtain ⟨_, tk', _, _, h3, h4⟩ := success_said hp hs hc
          exact committed_asked (hrun.step hp hs) t tk' h3 h4
        · exact (ih x hx hc).mono
    exact key (hv b).link.run x hx hc

/-- **C87.** What the user was told, in the attempt that ended with the commit, about the
value of a key is what the transaction finds when the list is executed. -/
theorem C87_inputs {n : Nat} {own : Nat → Tn → Prop} {base : Nat → Key → Value} {M : Many} (hd : Disjoint own)
    (hr : ManyRuns n own base M) {e : Txn} (he : e ∈ M.order) {b : Nat} (hb : CommitAsked e.ticket (M.h b))
    {x : Event × Out} (hx : x ∈ attempt e.ticket (M.h b)) {i : Nat} {k : Key} {v : Value}
    (ht : Tells x e.ticket i k v) : e.reads i k = some v := by
  obtain ⟨cb, h1⟩ := told_gave hd hr b e.ticket i k v ⟨x, hx, ht⟩
  exact readInv hd hr e he b i k cb v (hb.own (view_runs hd hr b).link) h1

/-- **C87.** If the user asked to commit with one update only, the transaction writes
exactly what this update says, each key on the shards that were asked to lock it, and no
key of the update is left out. -/
theorem C87_outputs {n : Nat} {own : Nat → Tn → Prop} {base : Nat → Key → Value} {M : Many} (hd : Disjoint own)
    (hr : ManyRuns n own base M) {e : Txn} (he : e ∈ M.order) {b : Nat} (hb : CommitAsked e.ticket (M.h b))
    {u : List (Key × Value)} (hu : ∀ u', UserCommit e.ticket (M.h b) u' → u' = u) :
    (∀ i k, (KeyAsked e.ticket (M.h b) i k → e.writes i k = u.lookup k) ∧
      (¬KeyAsked e.ticket (M.h b) i k → e.writes i k = none)) ∧
    ∀ q ∈ u, ∃ i, KeyAsked e.ticket (M.h b) i q.1 ∧ e.writes i q.1 = u.lookup q.1 := by
  have hw := outInv hd hr e he b hb
  have h1 : ∀ i k, (KeyAsked e.ticket (M.h b) i k → e.writes i k = u.lookup k) ∧
      (¬KeyAsked e.ticket (M.h b) i k → e.writes i k = none) := by
    intro i k
    by_cases hi : Touched e.ticket (M.h b) i
    · obtain ⟨u', h2, _, h3⟩ := hw.touched i hi
      rw [hu u' h2] at h3
      exact h3 k
    · refine ⟨fun ⟨ty, f, cb, h2⟩ => absurd ⟨k, ty, f, cb, h2⟩ hi, fun _ => hw.other i hi k⟩
  refine ⟨h1, fun q hq => ?_⟩
  obtain ⟨u', h2, h3⟩ := decided_user (view_runs hd hr b).link hb
  have h4 : UserCommit e.ticket (M.h b) u' := h2
  rw [hu u' h4] at h3
  obtain ⟨j, h5⟩ := h3 q hq
  exact ⟨j, h5, (h1 j q.1).1 h5⟩

/-- `M'` can be reached from `M`. -/
inductive Later (own : Nat → Tn → Prop) : Many → Many → Prop
  | refl (M : Many) : Later own M M
  | step {M M' M'' : Many} (hl : Later own M M') (h : M'.Step own M'') : Later own M M''

theorem Later.runs {n : Nat} {own : Nat → Tn → Prop} {base : Nat → Key → Value} {M M' : Many}
    (hr : ManyRuns n own base M) (hl : Later own M M') : ManyRuns n own base M' := by
  induction hl with
  | refl => exact hr
  | step _ h ih => exact .step ih h

theorem Later.order {own : Nat → Tn → Prop} {M M' : Many} (hl : Later own M M') : ∃ l, M'.order = M.order ++ l := by
  induction hl with
  | refl => exact ⟨[], by simp⟩
  | @step M' M'' _ h ih =>
    obtain ⟨l, ih⟩ := ih
    cases h with
    | @event b e s o hp ho hj hg hn hs =>
      refine ⟨l ++ (decides (M'.h b) o).toList.map (snapshot M'.shard), ?_⟩
      rw [← List.append_assoc, ← ih]
      rfl
    | serve hn ho he => exact ⟨l, ih⟩
    | lose hl => exact ⟨l, ih⟩

/-- **C87.** The order respects time: if the user of `t` was told that it is committed
before the user of `t'` asked to commit, `t` comes before `t'`. -/
theorem C87_strict {n : Nat} {own : Nat → Tn → Prop} {base : Nat → Key → Value} {M M' : Many} (hd : Disjoint own)
    (hr : ManyRuns n own base M) {b : Nat} {t t' : Tn} (hc : ∃ cb, ∃ x ∈ M.h b, Said.commit cb t none ∈ x.2.said)
    (hn : ∀ b, ∀ x ∈ M.h b, ∀ cb u p, x.1 ≠ .commit cb t' u p) (hl : Later own M M') {e' : Txn}
    (he : e' ∈ M'.order) (ht : e'.ticket = t') :
    ∃ pre e mid post, M'.order = pre ++ e :: mid ++ e' :: post ∧ e.ticket = t := by
  obtain ⟨l, h1⟩ := hl.order
  obtain ⟨e, h2, h3⟩ := C87_complete hd hr (.inr hc)
  obtain ⟨pre, rest, h4⟩ := List.append_of_mem h2
  have h5 : e' ∈ l := by
    rw [h1] at he
    rcases List.mem_append.mp he with h6 | h6
    · exfalso
      obtain ⟨a, h7⟩ := ((C87_serializable hd hr).2.1 t').mp ⟨e', h6, ht⟩
      obtain ⟨u, ⟨x, h8, cb, p, h9⟩, _⟩ := decided_user (view_runs hd hr a).link h7
      exact hn a x (attempt_subset h8) cb u p h9
    · exact h6
  obtain ⟨mid, post, h6⟩ := List.append_of_mem h5
  refine ⟨pre, e, rest ++ mid, post, ?_, h3⟩
  rw [h1, h4, h6]
  simp

end Verif.Parsec.Broker.Many
