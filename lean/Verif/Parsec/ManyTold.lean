import Verif.Parsec.ManyGave

/-!
# What the users are told when they ask for locks
-/
namespace Verif.Parsec.Broker

/-- The locked keys of `l'` are those of `l`. -/
def Keeps (l l' : List (Nat × Sh)) : Prop :=
  ∀ e ∈ l', ∀ q ∈ e.2.keys, q.2.locked = true → ∃ e0 ∈ l, e0.1 = e.1 ∧ q ∈ e0.2.keys

theorem Like.keeps {l l' : List (Nat × Sh)} (h : Like l l') : Keeps l l' := by
  intro e h1 q h2 _
  rcases h.back e h1 with ⟨e', h3, h4, h5⟩ | h3
  · exact ⟨e', h3, h4, by rw [h5]; exact h2⟩
  · rw [h3] at h2; cases h2

theorem Keeps.refl (l : List (Nat × Sh)) : Keeps l l := (Like.refl l).keeps

/-- Where the locked keys of a ticket come from. -/
theorem next_keys {e : Event} {tk tk' : Ticket} (hn : (next e (some tk)).1 = some tk') :
    Keeps tk.shards tk'.shards ∨ ∃ cb t k i v, e = .locked cb t k i (.value v) ∧
      ∀ e' ∈ tk'.shards, ∀ q ∈ e'.2.keys, q.2.locked = true →
        (∃ e0 ∈ tk.shards, e0.1 = e'.1 ∧ q ∈ e0.2.keys) ∨ (q.1 = k ∧ e'.1 = i ∧ q.2.value = some v) := by
  have same : tk' = tk → Keeps tk.shards tk'.shards := by
    rintro rfl
    exact Keeps.refl _
  cases e with
  | ticketNumber cb r =>
    left
    refine same ?_
    cases r <;> simp [next, stay] at hn <;> exact hn.symm
  | tryLock cb t ok =>
    left
    simp only [next, stay, Option.some.injEq] at hn
    split at hn
    · rw [← hn]
      intro e h1
      cases h1
    · exact same hn.symm
  | foundKey cb t k ty r ok =>
    left
    cases r with
    | none => exact same (by simp [next, stay] at hn; exact hn.symm)
    | some i =>
      simp only [next] at hn
      by_cases hb : tk.state = .begun
      · rw [if_pos hb] at hn
        by_cases hca : (cached ((touch tk.shards i).lookup i |>.getD {}) k ty).isSome
        · rw [if_pos hca] at hn
          simp only [stay, Option.some.injEq] at hn
          rw [← hn]
          exact (like_touch _ _).keeps
        · rw [if_neg hca] at hn
          simp only [Option.some.injEq] at hn
          rw [← hn]
          intro e h2 q h3 h4
          dsimp only at h2
          rcases mem_update h2 with ⟨_, h5⟩ | ⟨h5, sh, h6, h7⟩
          · exact (like_touch tk.shards i).keeps e h5 q h3 h4
          · rw [h7] at h3
            obtain ⟨e0, h8, h9, h10⟩ := (like_touch tk.shards i).keeps (i, sh) h6 q (mem_locking h3 h4) h4
            exact ⟨e0, h8, by rw [h9, h5], h10⟩
      · rw [if_neg hb] at hn
        exact same (by simp [stay] at hn; exact hn.symm)
  | locked cb t k i r =>
    cases r with
    | error e => exact .inl (same (by simp [next, stay] at hn; exact hn.symm))
    | value v =>
      simp only [next] at hn
      cases hk : ((touch tk.shards i).lookup i |>.getD {}).keys.lookup k with
      | none =>
        simp only [hk, stay, Option.some.injEq] at hn
        rw [← hn]
        exact .inl (like_touch _ _).keeps
      | some q =>
        simp only [hk] at hn
        by_cases hq : q.locked = true
        · simp only [if_pos hq, stay, Option.some.injEq] at hn
          rw [← hn]
          exact .inl (like_touch _ _).keeps
        · rw [if_neg hq] at hn
          simp only [stay, Option.some.injEq] at hn
          refine .inr ⟨cb, t, k, i, v, rfl, ?_⟩
          rw [← hn]
          intro e h2 q' h3 h4
          dsimp only at h2
          rcases mem_update h2 with ⟨_, h5⟩ | ⟨h5, sh, h6, h7⟩
          · exact .inl ((like_touch tk.shards i).keeps e h5 q' h3 h4)
          · rw [h7] at h3
            obtain ⟨a, h8, h9⟩ := List.mem_map.mp h3
            split at h9
            · right
              rw [← h9]
              exact ⟨rfl, h5, rfl⟩
            · rw [h9] at h8
              obtain ⟨e0, h10, h11, h12⟩ := (like_touch tk.shards i).keeps (i, sh) h6 q' h8 h4
              exact .inl ⟨e0, h10, by rw [h11, h5], h12⟩
  | commit cb t u p =>
    left
    simp only [next, Ticket.commit, Option.some.injEq] at hn
    cases hce : tk.commitError u with
    | some e => exact same (by simp only [hce] at hn; exact hn.symm)
    | none =>
      simp only [hce] at hn
      rw [← hn]
      split
      · simp only [Ticket.doCommit]
        exact (like_mark _ _ _ _).keeps
      · simp only [Ticket.doPrepare]
        exact (like_mark _ _ _ _).keeps
  | prepared c t i r p =>
    left
    simp only [next] at hn
    split at hn
    · simp only [Option.some.injEq] at hn
      rw [← hn]
      unfold Ticket.handlePrepare
      simp only
      repeat' split
      all_goals first
        | exact (like_touch _ _).keeps
        | exact Keeps.refl _
        | exact ((like_touch _ _).trans (like_setState _ _ _)).keeps
        | (simp only [Ticket.doCommit]
           exact (((like_touch _ _).trans (like_setState _ _ _)).trans (like_mark _ _ _ _)).keeps)
    · exact same (by simp [stay] at hn; exact hn.symm)
  | committed c t i r p =>
    left
    simp only [next] at hn
    repeat' split at hn
    all_goals
      simp only [stay, Option.some.injEq] at hn
      rw [← hn]
      first
        | exact (like_touch _ _).keeps
        | exact Keeps.refl _
        | exact ((like_touch _ _).trans (like_setState _ _ _)).keeps
  | rollback cb t p =>
    left
    simp only [next] at hn
    repeat' split at hn
    · simp only [Option.some.injEq] at hn
      rw [← hn]
      exact Keeps.refl _
    · simp only [Option.some.injEq] at hn
      rw [← hn]
      simp only [Ticket.rollback]
      exact (like_mark _ _ _ _).keeps
    · exact same (by simp [stay] at hn; exact hn.symm)
  | rolledBack c t i r p =>
    left
    have key : Keeps tk.shards (update (touch tk.shards i) i fun _ => { state := .rolledBack, keys := [] }) := by
      intro e h2 q h3 h4
      rcases mem_update h2 with ⟨_, h5⟩ | ⟨h5, sh, h6, h7⟩
      · exact (like_touch tk.shards i).keeps e h5 q h3 h4
      · rw [h7] at h3; cases h3
    simp only [next] at hn
    repeat' split at hn
    all_goals
      simp only [stay, Option.some.injEq] at hn
      rw [← hn]
      first
        | exact (like_touch _ _).keeps
        | exact Keeps.refl _
        | exact key
  | finish cb t p =>
    left
    simp only [next] at hn
    split at hn
    · cases hn
    · simp only [Option.some.injEq] at hn
      rw [← hn]
      simp only [Ticket.finish]
      exact (like_mark _ _ _ _).keeps
    · exact same (by simp [stay] at hn; exact hn.symm)
  | finished c t i r =>
    left
    simp only [next] at hn
    repeat' split at hn
    all_goals
      simp only [stay, Option.some.injEq, reduceCtorEq] at hn
      try rw [← hn]
      try first
        | exact (like_touch _ _).keeps
        | exact Keeps.refl _
        | exact ((like_touch _ _).trans (like_setState _ _ _)).keeps
  | recover cb => exact .inl (same (by simp [next, stay] at hn; exact hn.symm))
  | gotTickets cb i r p => exact .inl (same (by simp [next, stay] at hn; exact hn.symm))

/-- An aborted ticket stays aborted or starts again without shards. -/
theorem next_aborted {e : Event} {tk tk' : Ticket} (ha : tk.state = .aborted) (hn : (next e (some tk)).1 = some tk') :
    tk'.state = .aborted ∨ tk'.shards = [] := by
  have same : tk' = tk → tk'.state = .aborted ∨ tk'.shards = [] := by
    rintro rfl
    exact .inl ha
  cases e with
  | ticketNumber cb r =>
    refine same ?_
    cases r <;> simp [next, stay] at hn <;> exact hn.symm
  | tryLock cb t ok =>
    simp only [next, stay, if_pos ha, Option.some.injEq] at hn
    rw [← hn]
    exact .inr rfl
  | foundKey cb t k ty r ok => exact same (by cases r <;> simp [next, stay, ha] at hn <;> exact hn.symm)
  | locked cb t k i r =>
    left
    cases r with
    | error e => simp [next, stay] at hn; rw [← hn]; exact ha
    | value v =>
      simp only [next] at hn
      repeat' split at hn
      all_goals
        simp only [stay, Option.some.injEq] at hn
        rw [← hn]
        exact ha
  | commit cb t u p =>
    left
    simp only [next, Option.some.injEq] at hn
    rw [← hn, Ticket.commit_state]
    exact ha
  | prepared c t i r p => exact same (by simp [next, stay, ha] at hn; exact hn.symm)
  | committed c t i r p => exact same (by simp [next, stay, ha] at hn; exact hn.symm)
  | rollback cb t p => exact same (by simp [next, stay, ha] at hn; exact hn.symm)
  | rolledBack c t i r p => exact same (by simp [next, stay, ha] at hn; exact hn.symm)
  | finish cb t p => simp [next, stay, ha] at hn
  | finished c t i r => exact same (by simp [next, stay, ha] at hn; exact hn.symm)
  | recover cb => exact same (by simp [next, stay] at hn; exact hn.symm)
  | gotTickets cb i r p => exact same (by simp [next, stay] at hn; exact hn.symm)

/-- In the event `x` the user's request for a lock for `t` on the key `k` of shard `i` is
answered with `v`. -/
def Tells (x : Event × Out) (t : Tn) (i : Nat) (k : Key) (v : Value) : Prop :=
  ∃ cb, Said.lock cb t (.ok v) ∈ x.2.said ∧
    ((∃ r, x.1 = .locked cb t k i r) ∨ ∃ ty ok, x.1 = .foundKey cb t k ty (some i) ok)

theorem lookup_nat_mem {β : Type} {l : List (Nat × β)} {i : Nat} {x : β} (h : l.lookup i = some x) : (i, x) ∈ l := by
  induction l with
  | nil => cases h
  | cons a l ih =>
    rw [List.lookup_cons] at h
    split at h
    · rename_i h1
      have : i = a.1 := by simpa using h1
      cases h
      rw [this]
      exact List.mem_cons_self
    · exact List.mem_cons_of_mem _ (ih h)

theorem lookup_key_mem {β : Type} {l : List (Key × β)} {i : Key} {x : β} (h : l.lookup i = some x) : (i, x) ∈ l := by
  induction l with
  | nil => cases h
  | cons a l ih =>
    rw [List.lookup_cons] at h
    split at h
    · rename_i h1
      have : i = a.1 := by simpa using h1
      cases h
      rw [this]
      exact List.mem_cons_self
    · exact List.mem_cons_of_mem _ (ih h)

/-- Where the answers to lock requests come from. -/
theorem tells_cases {s s' : State} {e : Event} {o : Out} (hs : step s e = some (s', o)) {t : Tn} {i : Nat} {k : Key}
    {v : Value} (h : Tells (e, o) t i k v) : (∃ cb, e = .locked cb t k i (.value v)) ∨
      ∃ tk, s.tickets.lookup t = some tk ∧ tk.state ≠ .aborted ∧ ∃ e0 ∈ tk.shards, e0.1 = i ∧ ∃ q ∈ e0.2.keys, q.1 = k ∧
        q.2.locked = true ∧ q.2.value.getD [] = v := by
  obtain ⟨cb, h1, ⟨r, h2⟩ | ⟨ty, ok, h2⟩⟩ := h
  · left
    dsimp only at h1 h2
    subst h2
    refine ⟨cb, ?_⟩
    simp only [step, Option.some.injEq] at hs
    cases r with
    | error e =>
      simp only [handleLock, Prod.mk.injEq] at hs
      rw [← hs.2] at h1
      simp at h1
    | value v' =>
      simp only [handleLock] at hs
      repeat' split at hs
      all_goals
        simp only [Prod.mk.injEq] at hs
        rw [← hs.2] at h1
        simp at h1
      rw [h1]
  · right
    dsimp only at h1 h2
    subst h2
    simp only [step, handleFindKey, Option.some.injEq] at hs
    split at hs
    · simp only [Prod.mk.injEq] at hs
      rw [← hs.2] at h1
      simp at h1
    · rename_i tk hl
      split at hs
      · simp only [Prod.mk.injEq] at hs
        rw [← hs.2] at h1
        simp at h1
      · simp only [Prod.mk.injEq] at hs
        rw [← hs.2] at h1
        simp at h1
      · simp only [Prod.mk.injEq] at hs
        rw [← hs.2] at h1
        simp at h1
      · rename_i hb
        split at hs
        · rename_i v' hca
          simp only [Prod.mk.injEq] at hs
          rw [← hs.2] at h1
          simp only [List.mem_singleton, Said.lock.injEq, Except.ok.injEq, true_and] at h1
          subst h1
          unfold cached at hca
          split at hca
          · cases hca
          · rename_i q hq
            split at hca
            · rename_i hlk
              simp only [Bool.and_eq_true] at hlk
              cases hca
              cases hsh : (touch tk.shards i).lookup i with
              | none => rw [hsh] at hq; cases hq
              | some sh =>
                rw [hsh] at hq
                obtain ⟨e0, h3, h4, h5⟩ := (like_touch tk.shards i).keeps _ (lookup_nat_mem hsh) _
                  (lookup_key_mem hq) hlk.1
                exact ⟨tk, hl, by rw [hb]; simp, e0, h3, h4, _, h5, rfl, hlk.1, rfl⟩
            · cases hca
        · split at hs
          · simp only [Prod.mk.injEq] at hs
            rw [← hs.2] at h1
            simp at h1
          · simp only [Prod.mk.injEq] at hs
            rw [← hs.2] at h1
            simp at h1

namespace Many

/-- The values in the tickets were given by the shards. -/
def CacheInv (M : Many) : Prop :=
  ∀ b t tk, (M.b b).tickets.lookup t = some tk → tk.state ≠ .aborted → ∀ e ∈ tk.shards, ∀ q ∈ e.2.keys,
    q.2.locked = true → ∃ v cb, q.2.value = some v ∧ M.gave b e.1 t q.1 cb (epoch t (M.h b)) v

theorem CacheInv.event {n : Nat} {own : Nat → Tn → Prop} {M : Many}
    (hv : ∀ b, Runs n b (own b) Orderly (M.view b)) (hi : CacheInv M) {b : Nat} {e : Event} {s : State} {o : Out}
    (hp : Plain (M.h b) e) (hg : Granted M b e) (hs : step (M.b b) e = some (s, o)) :
    CacheInv (M.event b e s o) := by
  intro a t tk' hl' hna x hx q hq hlk
  have hgave : (M.event b e s o).gave = M.gave := rfl
  rw [hgave]
  have hl' : (put M.b b s a).tickets.lookup t = some tk' := hl'
  by_cases ha : a = b
  · subst ha
    rw [put_same] at hl'
    rw [hist_event_same]
    have old : s.tickets.lookup t = (M.b a).tickets.lookup t → o.said.any (Said.aborts t) = false →
        ∃ v cb, q.2.value = some v ∧ M.gave a x.1 t q.1 cb (epoch t ((e, o) :: M.h a)) v := by
      intro h1 h2
      rw [epoch_cons h2]
      exact hi a t tk' (by rw [← h1]; exact hl') hna x hx q hq hlk
    have hrun : Run n (M.h a) (M.b a) := (hv a).link.run
    cases ht : e.ticket with
    | none =>
      obtain ⟨h1, _, h3⟩ := no_ticket hrun.inv hp ht hs
      exact old (by rw [h1]) (h3 t)
    | some t0 =>
      have hst := step_next hp.plain ht hs
      by_cases hne : t = t0
      · subst hne
        have hown := hst.own
        dsimp only at hown
        rw [hl'] at hown
        cases hl : (M.b a).tickets.lookup t with
        | none =>
          rw [hl] at hown
          rcases (next_none e).2.2 with h1 | ⟨_, _, _, h1⟩
          · rw [h1] at hown; cases hown
          · rw [h1] at hown
            cases hown
            cases hx
        | some tk =>
          rw [hl] at hown
          have hab : tk.state ≠ .aborted := by
            intro h1
            rcases next_aborted h1 hown.symm with h2 | h2
            · exact hna h2
            · rw [h2] at hx; cases hx
          have hep : o.said.any (Said.aborts t) = false := by
            rw [hst.said, hl]
            cases hb : (next e (some tk)).2.2 with
            | false => rfl
            | true =>
              exfalso
              obtain ⟨_, _, tk'', h2, h3, _⟩ := next_abort hb
              rw [← hown] at h2
              cases h2
              exact hna h3
          rw [epoch_cons hep]
          have keep : (∃ e0 ∈ tk.shards, e0.1 = x.1 ∧ q ∈ e0.2.keys) →
              ∃ v cb, q.2.value = some v ∧ M.gave a x.1 t q.1 cb (epoch t (M.h a)) v := by
            rintro ⟨e0, h1, h2, h3⟩
            have := hi a t tk hl hab e0 h1 q h3 hlk
            rw [h2] at this
            exact this
          rcases next_keys hown.symm with h1 | ⟨cb, t', k, i, v, rfl, h1⟩
          · exact keep (h1 x hx q hq hlk)
          · rcases h1 x hx q hq hlk with h2 | ⟨rfl, rfl, h2⟩
            · exact keep h2
            · cases ht
              exact ⟨v, cb, h2, hg⟩
      · exact old (hst.other t hne) (hst.saidOther t hne)
  · rw [put_other _ _ ha] at hl'
    rw [hist_event_other M ha]
    exact hi a t tk' hl' hna x hx q hq hlk

theorem cacheInv {n : Nat} {own : Nat → Tn → Prop} {base : Nat → Key → Value} (hd : Disjoint own) {M : Many}
    (hr : ManyRuns n own base M) : CacheInv M := by
  induction hr with
  | start h =>
    intro b t tk h1
    rw [h.broker] at h1
    cases h1
  | @step M M' hr h ih =>
    have hv := view_runs hd hr
    cases h with
    | event hp ho hj hg hn hs => exact ih.event hv hp hg hs
    | @serve b i r rest op s o hn ho he =>
      intro a t tk h1 h2 e h3 q h4 h5
      rw [hist_serve]
      have h1 : (put M.b b (M.b b) a).tickets.lookup t = some tk := h1
      have h6 : put M.b b (M.b b) a = M.b a := by
        by_cases ha : a = b
        · subst ha; rw [put_same]
        · rw [put_other _ _ ha]
      rw [h6] at h1
      obtain ⟨v, cb, h7, h8⟩ := ih a t tk h1 h2 e h3 q h4 h5
      exact ⟨v, cb, h7, .inl h8⟩
    | lose hl => exact ih

/-- What the users were told in the current attempts was given by the shards. -/
theorem told_gave {n : Nat} {own : Nat → Tn → Prop} {base : Nat → Key → Value} (hd : Disjoint own) {M : Many}
    (hr : ManyRuns n own base M) : ∀ b t i k v, (∃ x ∈ attempt t (M.h b), Tells x t i k v) →
      ∃ cb, M.gave b i t k cb (epoch t (M.h b)) v := by
  induction hr with
  | start h =>
    rintro b t i k v ⟨x, h1, _⟩
    rw [h.hist] at h1
    cases h1
  | @step M M' hr h ih =>
    have hv := view_runs hd hr
    have hc := cacheInv hd hr
    cases h with
    | @event b e s o hp ho hj hg hn hs =>
      rintro a t i k v ⟨x, h1, h2⟩
      have hgave : (M.event b e s o).gave = M.gave := rfl
      rw [hgave]
      by_cases ha : a = b
      · subst ha
        rw [hist_event_same] at h1 ⊢
        obtain ⟨h3, h4⟩ := mem_attempt_cons h1
        rw [epoch_cons h3]
        rcases h4 with rfl | h4
        · rcases tells_cases hs h2 with ⟨cb, rfl⟩ | ⟨tk, h5, h6, e0, h7, h8, q, h9, h10, h11, h12⟩
          · exact ⟨cb, hg⟩
          · obtain ⟨v', cb, h13, h14⟩ := hc a t tk h5 h6 e0 h7 q h9 h11
            rw [h13] at h12
            have : v' = v := h12
            subst this
            rw [h8, h10] at h14
            exact ⟨cb, h14⟩
        · exact ih a t i k v ⟨x, h4, h2⟩
      · rw [hist_event_other M ha] at h1 ⊢
        exact ih a t i k v ⟨x, h1, h2⟩
    | @serve b i r rest op s o hn ho he =>
      rintro a t j k v hx
      rw [hist_serve] at hx ⊢
      obtain ⟨cb, h1⟩ := ih a t j k v hx
      exact ⟨cb, .inl h1⟩
    | lose hl => exact ih

end Many
end Verif.Parsec.Broker
