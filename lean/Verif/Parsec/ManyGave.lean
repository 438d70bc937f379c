import Verif.Parsec.ManyOrder

/-!
# The values the shards gave to a transaction
-/
namespace Verif.Parsec.Broker.Many

/-- Locks are given to transactions which are neither prepared nor committed. -/
theorem gives_active {s s' : Parsec.State} (hr : Reach s) {op : Op} {o : Parsec.Out} (he : exec s op = some (s', o))
    {t : Tn} {k : Key} {cb : Nat} {v : Value} (hg : Gives s op s' o t k cb v) :
    phaseOf s t = some .active ∨ phaseOf s' t = some .active := by
  obtain ⟨hv, w, hw, ht, hc, hh⟩ := hg
  have inv := hr.inv
  have queued : w ∈ (s.lock k).queue → phaseOf s t = some .active := by
    intro h1
    have h2 : queuedOf s k t := by
      apply Classical.byContradiction
      intro h3
      exact inv.not_in_queue h3 w h1 ht
    cases h3 : s.ticket t with
    | none => simp [queuedOf, h3] at h2
    | some tk =>
      rw [queuedOf_some h3] at h2
      have hq : tk.queued ≠ [] := by
        intro h4
        rw [h4] at h2
        cases h2
      unfold phaseOf
      rw [h3]
      cases h4 : tk.state with
      | begun => simp [Parsec.Ticket.phase, h4]
      | wounded => simp [Parsec.Ticket.phase, h4]
      | prepared => exact absurd (inv.prep t tk h3 h4).1 hq
      | committed => exact absurd (inv.idle t tk h3 (.inr h4)).2 hq
  cases op with
  | tryLock t' b k' ty f cb' =>
    simp only [queueWith] at hw
    by_cases hk : k' = k
    · rw [if_pos hk] at hw
      rcases List.mem_cons.mp hw with rfl | hw
      · have h1 : t' = t := ht
        subst h1 hk
        rcases tryLock_cases he with ⟨e, h2⟩ | ⟨h2, _, _⟩
        · unfold refuse at h2
          simp only [Prod.mk.injEq] at h2
          rw [h2.2] at hv
          simp at hv
        · have h3 := (lockError_none h2).1
          cases h4 : s.ticket t' with
          | some tk =>
            rw [h4] at h3
            left
            unfold phaseOf
            rw [h4]
            simp only [Option.getD_some] at h3
            simp [Parsec.Ticket.phase, h3]
          | none =>
            right
            have h5 : heldOf s' k' t' ≠ none := by
              rw [holds_iff] at hh
              rw [hh]
              simp
            obtain ⟨hr', h6, h7⟩ := held_active (hr.step he).inv h5
            have h8 : phaseOf s t' = none := by simp [phaseOf, h4]
            rcases h7 with h7 | h7
            · unfold phaseOf
              rw [h6]
              simp [Parsec.Ticket.phase, h7]
            · have h9 : phaseOf s' t' = some .prepared := phase_eq_prepared.mpr ⟨_, h6, h7⟩
              rw [exec_phase inv he] at h9
              unfold phaseStep at h9
              simp only [Op.ticket, ne_eq, not_true_eq_false, if_false] at h9
              split at h9
              · cases h9
              · rw [h8] at h9
                cases h9
      · exact .inl (queued hw)
    · rw [if_neg hk] at hw
      exact .inl (queued hw)
  | prepare t' u => exact .inl (queued hw)
  | commit t' => exact .inl (queued hw)
  | rollback t' => exact .inl (queued hw)
  | finish t' => exact .inl (queued hw)

/-- In the current attempt shard `i` served a commit or rollback of `t`. -/
def Over (M : Many) (b i : Nat) (t : Tn) : Prop :=
  ∃ a ∈ M.log b i, a.req.ep = epoch t (M.h b) ∧ ∃ j c, a.req.call = .commit j t c ∨ a.req.call = .rollback j t c

structure GaveInv (own : Nat → Tn → Prop) (M : Many) : Prop where
  old : ∀ b i t k cb m v, M.gave b i t k cb m v → m ≤ epoch t (M.h b)
  now : ∀ b i t k cb v, own b t → M.gave b i t k cb (epoch t (M.h b)) v →
    Over M b i t ∨ isWounded (M.shard i) t ∨ (heldOf (M.shard i) k t ≠ none ∧ (M.shard i).value k = v)

theorem GaveInv.start {n : Nat} {own : Nat → Tn → Prop} {base : Nat → Key → Value} {M : Many}
    (h : M.Initial n own base) : GaveInv own M where
  old := fun b i t k cb m v h1 => absurd h1 (h.gave b i t k cb m v)
  now := fun b i t k cb v _ h1 => absurd h1 (h.gave b i t k cb _ v)

theorem GaveInv.event {own : Nat → Tn → Prop} {M : Many} (hi : GaveInv own M) (b : Nat) (e : Event) (s : State) (o : Out) :
    GaveInv own (M.event b e s o) where
  old := by
    intro a i t k cb m v h1
    have h2 := hi.old a i t k cb m v h1
    by_cases ha : a = b
    · subst ha
      rw [hist_event_same]
      exact Nat.le_trans h2 (epoch_le _ _ _)
    · rw [hist_event_other M ha]
      exact h2
  now := by
    intro a i t k cb v h0 h1
    have hshard : (M.event b e s o).shard = M.shard := rfl
    have hlog : (M.event b e s o).log a i = M.log a i := by
      show put M.log b (M.log b) a i = M.log a i
      by_cases ha : a = b
      · subst ha; rw [put_same]
      · rw [put_other _ _ ha]
    have h1 : M.gave a i t k cb (epoch t ((M.event b e s o).h a)) v := h1
    have h2 := hi.old a i t k cb _ v h1
    have h3 : epoch t ((M.event b e s o).h a) = epoch t (M.h a) := by
      by_cases ha : a = b
      · subst ha
        rw [hist_event_same] at h2 ⊢
        have := epoch_le t (M.h a) (e, o)
        omega
      · rw [hist_event_other M ha]
    rw [h3] at h1
    rcases hi.now a i t k cb v h0 h1 with ⟨x, h4, h5, h6⟩ | h4
    · exact .inl ⟨x, by rw [hlog]; exact h4, by rw [h3]; exact h5, h6⟩
    · rw [hshard]
      exact .inr h4

theorem hist_serve (M : Many) (b i : Nat) (r : Request) (rest : List Request) (op : Op) (s : Parsec.State)
    (o : Parsec.Out) : (M.serve b i r rest op s o).h = M.h := by
  funext a
  show put M.h b (M.h b) a = M.h a
  by_cases ha : a = b
  · subst ha; rw [put_same]
  · rw [put_other _ _ ha]

theorem log_serve (M : Many) (b i : Nat) (r : Request) (rest : List Request) (op : Op) (s : Parsec.State)
    (o : Parsec.Out) :
    (M.serve b i r rest op s o).log b i = M.log b i ++ [⟨r, o.result, (M.shard i).value, s.value⟩] := by
  show put M.log b (put (M.log b) i _) b i = _
  rw [put_same, put_same]
  rfl

theorem log_serve_mono (M : Many) (b i : Nat) (r : Request) (rest : List Request) (op : Op) (s : Parsec.State)
    (o : Parsec.Out) (a j : Nat) {x : Served} (hx : x ∈ M.log a j) : x ∈ (M.serve b i r rest op s o).log a j := by
  by_cases ha : a = b
  · subst ha
    by_cases hj : j = i
    · subst hj
      rw [log_serve]
      exact List.mem_append_left _ hx
    · show x ∈ put M.log a (put (M.log a) i _) a j
      rw [put_same, put_other _ _ hj]
      exact hx
  · show x ∈ put M.log b _ a j
    rw [put_other _ _ ha]
    exact hx

theorem GaveInv.serve {n : Nat} {own : Nat → Tn → Prop} (hd : Disjoint own) {M : Many}
    (hv : ∀ b, Runs n b (own b) Orderly (M.view b)) (hi : GaveInv own M) {b i : Nat} {r : Request}
    {rest : List Request} {op : Op} {s : Parsec.State} {o : Parsec.Out} (hn : M.net b i = r :: rest)
    (ho : r.call.op b = some op) (he : exec (M.shard i) op = some (s, o)) :
    GaveInv own (M.serve b i r rest op s o) := by
  have hhist := hist_serve M b i r rest op s o
  have hreach : Reach (M.shard i) := ((hv b).held i).reach
  have hshard : (M.serve b i r rest op s o).shard = put M.shard i s := rfl
  constructor
  · intro a j t k cb m v h1
    rw [hhist]
    rcases h1 with h1 | ⟨_, rfl, _⟩
    · exact hi.old a j t k cb m v h1
    · exact Nat.le_refl _
  · intro a j t k cb v h0 h1
    rw [hshard]
    have h1 : M.gave a j t k cb (epoch t ((M.serve b i r rest op s o).h a)) v ∨
      (j = i ∧ epoch t ((M.serve b i r rest op s o).h a) = epoch t (M.h a) ∧ Gives (M.shard i) op s o t k cb v) := h1
    rw [hhist] at h1
    have over : Over M a j t → Over (M.serve b i r rest op s o) a j t := by
      rintro ⟨x, h2, h3, h4⟩
      exact ⟨x, log_serve_mono M b i r rest op s o a j h2, by rw [hhist]; exact h3, h4⟩
    rcases h1 with h1 | ⟨rfl, _, h1⟩
    · rcases hi.now a j t k cb v h0 h1 with h2 | h2
      · exact .inl (over h2)
      · by_cases hj : j = i
        · subst hj
          rw [put_same]
          have ended : (op = .commit t ∨ op = .rollback t) → Over (M.serve b j r rest op s o) a j t := by
            intro h3
            have h4 : op.ticket = t := by rcases h3 with rfl | rfl <;> rfl
            obtain ⟨hor, hown⟩ := serve_ticket (hv b) hn ho
            rw [h4] at hor hown
            have := hd _ _ _ h0 hown
            subst this
            have hne : (M.shard j).ticket t ≠ none := by
              rcases h2 with ⟨tk, h5, _⟩ | ⟨h5, _⟩
              · rw [h5]; simp
              · obtain ⟨tk, h6, _⟩ := held_active hreach.inv h5
                rw [h6]; simp
            have h5 := serve_now (hv a) h0 hne (r := r) (by
              show r ∈ M.net a j
              rw [hn]; exact List.mem_cons_self) hor.ticket
            refine ⟨_, by rw [log_serve]; exact List.mem_append_right _ (List.mem_singleton.mpr rfl), ?_, ?_⟩
            · rw [hhist]; exact h5
            · show ∃ j c, r.call = .commit j t c ∨ r.call = .rollback j t c
              cases hc : r.call <;> rw [hc] at ho <;> simp only [Call.op, Option.some.injEq, reduceCtorEq] at ho <;>
                subst ho
              · rcases h3 with h3 | h3 <;> cases h3
              · rcases h3 with h3 | h3 <;> cases h3
              · rcases h3 with h3 | h3 <;> cases h3
                exact ⟨_, _, .inl rfl⟩
              · rcases h3 with h3 | h3 <;> cases h3
                exact ⟨_, _, .inr rfl⟩
              · rcases h3 with h3 | h3 <;> cases h3
          rcases h2 with h2 | ⟨h2, h3⟩
          · rcases exec_wounded hreach.inv he h2 with h4 | ⟨h4, _⟩
            · exact .inr (.inl h4)
            · exact .inl (ended (.inr h4))
          · rcases exec_keeps hreach.inv he h2 with h4 | h4 | ⟨h4, _⟩
            · exact .inr (.inr ⟨h4, (exec_locked_value hreach he h2 h4).trans h3⟩)
            · exact .inr (.inl h4)
            · exact .inl (ended h4)
        · rw [put_other _ _ hj]
          exact .inr h2
    · rw [put_same]
      obtain ⟨h2, w, h3, h4, h5, h6⟩ := h1
      refine .inr (.inr ⟨?_, (C43_granted_value hreach he h2).1.symm⟩)
      rw [holds_iff] at h6
      rw [h6]
      simp

theorem gaveInv {n : Nat} {own : Nat → Tn → Prop} {base : Nat → Key → Value} (hd : Disjoint own) {M : Many}
    (hr : ManyRuns n own base M) : GaveInv own M := by
  induction hr with
  | start h => exact .start h
  | @step M M' hr h ih =>
    have hv := view_runs hd hr
    cases h with
    | event hp ho hj hg hn hs => exact ih.event _ _ _ _
    | serve hn ho he => exact ih.serve hd hv hn ho he
    | lose hl => exact ⟨ih.old, ih.now⟩

/-- What a decided transaction was given is what it had locked. -/
def ReadInv (own : Nat → Tn → Prop) (M : Many) : Prop :=
  ∀ e ∈ M.order, ∀ b i k cb v, own b e.ticket → M.gave b i e.ticket k cb (epoch e.ticket (M.h b)) v →
    e.reads i k = some v

/-- At the moment of the decision the values are still locked. -/
theorem decided_reads {n : Nat} {own : Nat → Tn → Prop} (hd : Disjoint own) {M : Many}
    (hv : ∀ b, Runs n b (own b) Orderly (M.view b)) (hi : GaveInv own M) {b : Nat} {e : Event} {s : State} {o : Out}
    (hp : Plain (M.h b) e) (ho : Orderly (M.h b) e) (hj : Justified (M.view b) e)
    (hn : ∀ cb t m, e = .ticketNumber cb (some (t, m)) → own b t) (hs : step (M.b b) e = some (s, o)) {t : Tn}
    (hdec : decides (M.h b) o = some t) {a i : Nat} {k : Key} {cb : Nat} {v : Value} (hown : own a t)
    (hg : M.gave a i t k cb (epoch t (M.h a)) v) : lockedValues (M.shard i) t k = some v := by
  obtain ⟨h2, i', c', h3⟩ := decides_some hdec
  have h5 : Runs n b (own b) Orderly ((M.view b).event e s o) := .step (hv b) (.event hp ho hj hn hs)
  have hca : CommitAsked t ((M.view b).event e s o).h := ⟨_, List.mem_cons_self, i', c', h3⟩
  have h6 : own b t := hca.own h5.link
  have := hd _ _ _ hown h6
  subst this
  have hep := decided_epoch (hv a) hp hs hca
  rcases hi.now a i t k cb v hown hg with ⟨x, h7, h8, j, c, h9⟩ | h7 | ⟨h7, h8⟩
  · exfalso
    have hor := (hv a).link.origin i x.req (log_seq (w := M.view a) h7)
    obtain ⟨t', hor⟩ := hor
    have ht := hor.ticket
    have htt : t' = t := by
      rcases h9 with h9 | h9 <;> rw [h9] at ht <;> cases ht <;> rfl
    subst htt
    have hak := hor.now h8
    rcases h9 with h9 | h9 <;> rw [h9] at hak
    · exact h2 (asked_commit hak)
    · exact (h5.link.decided t' hca).1 (RollbackAsked.mono hep ⟨j, c, hak⟩)
  · exfalso
    obtain ⟨tk, h8, h9⟩ := h7
    apply decided_phase h5 hca i
    show phaseOf (M.shard i) t = _
    unfold phaseOf
    rw [h8]
    simp [Parsec.Ticket.phase, h9]
  · unfold lockedValues
    obtain ⟨ty, h9⟩ := Option.ne_none_iff_exists'.mp h7
    rw [h9, ← h8]
    rfl

theorem readInv {n : Nat} {own : Nat → Tn → Prop} {base : Nat → Key → Value} (hd : Disjoint own) {M : Many}
    (hr : ManyRuns n own base M) : ReadInv own M := by
  induction hr with
  | start h =>
    intro e h1
    rw [h.order] at h1
    cases h1
  | @step M M' hr h ih =>
    have hv := view_runs hd hr
    have hv' := view_runs hd (.step hr h)
    have horder := orderInv hd hr
    have hgave := gaveInv hd hr
    cases h with
    | @event b e s o hp ho hj hg hn hs =>
      intro x hx a i k cb v hown hga
      have hga : M.gave a i x.ticket k cb (epoch x.ticket ((M.event b e s o).h a)) v := hga
      have h2 := hgave.old a i x.ticket k cb _ v hga
      have h3 : epoch x.ticket ((M.event b e s o).h a) = epoch x.ticket (M.h a) := by
        by_cases ha : a = b
        · subst ha
          rw [hist_event_same] at h2 ⊢
          have := epoch_le x.ticket (M.h a) (e, o)
          omega
        · rw [hist_event_other M ha]
      rw [h3] at hga
      rcases List.mem_append.mp (show x ∈ M.order ++ (decides (M.h b) o).toList.map (snapshot M.shard) from hx)
        with hx | hx
      · exact ih x hx a i k cb v hown hga
      · obtain ⟨t, h4, rfl⟩ := List.mem_map.mp hx
        rw [Option.mem_toList] at h4
        exact decided_reads hd hv hgave hp ho hj hn hs h4 hown hga
    | @serve b i r rest op s o hn ho he =>
      intro x hx a j k cb v hown hga
      have hhist := hist_serve M b i r rest op s o
      have hga : M.gave a j x.ticket k cb (epoch x.ticket ((M.serve b i r rest op s o).h a)) v ∨
        (j = i ∧ epoch x.ticket ((M.serve b i r rest op s o).h a) = epoch x.ticket (M.h a) ∧
          Gives (M.shard i) op s o x.ticket k cb v) := hga
      rw [hhist] at hga
      rcases hga with hga | ⟨rfl, _, hga⟩
      · exact ih x hx a j k cb v hown hga
      · exfalso
        have hreach : Reach (M.shard j) := ((hv b).held j).reach
        obtain ⟨a', h1⟩ := (horder.decided x.ticket).mp ⟨x, hx, rfl⟩
        have h2 := decided_phase (hv a') h1 j
        have h3 : CommitAsked x.ticket ((M.serve b j r rest op s o).view a').h := by
          show CommitAsked x.ticket ((M.serve b j r rest op s o).h a')
          rw [hhist]
          exact h1
        have h4 := decided_phase (hv' a') h3 j
        have h5 : ((M.serve b j r rest op s o).view a').shard j = s := put_same _ _ _
        rw [h5] at h4
        rcases gives_active hreach he hga with h6 | h6
        · exact h2 h6
        · exact h4 h6
    | lose hl => exact ih

end Verif.Parsec.Broker.Many
