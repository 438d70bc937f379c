import Verif.Rpc.Model
/-!
# Invariants of the RPC client
-/
namespace Verif.Rpc

variable {Q P : Type}

theorem getElem?_mod {α : Type} (l : List α) (n m : Nat) (f : α → α) :
    (l.modify n f)[m]? = if n = m then l[m]?.map f else l[m]? := by
  rw [List.getElem?_modify]
  by_cases h : n = m <;> simp [h]

/-- Whether the promise of call `n` is set. -/
def isSet (s : Client Q P) (n : Nat) : Nat :=
  match s.calls[n]? with
  | some c => if c.promise.isSome then 1 else 0
  | none => 0

/-- How often the action of call `n` occurs: waiting, taken out, or carried out. -/
def tokens (s : Client Q P) (n : Nat) : Nat :=
  s.pending.countP (fun p => p.2 == n) + s.held.countP (fun p => p.1 == n) +
    s.runs.countP (fun p => p.1 == n) + isSet s n

/-- Whether call `n` has put its action into the map. -/
def begun (s : Client Q P) (n : Nat) : Prop :=
  ∃ c, s.calls[n]? = some c ∧ c.phase ≠ .made

/-- A response with payload `p` for call `n` arrived after its registration. -/
def Wit (s : Client Q P) (tr : List (Event Q P)) (n : Nat) (p : Option P) : Prop :=
  ∃ a b c, s.calls[n]? = some c ∧ tr = a ++ .reply c.id p :: b ∧ .register n ∈ a

structure Inv (tr : List (Event Q P)) (s : Client Q P) : Prop where
  cur : s.cur = s.calls.length % 2 ^ 64
  ids : ∀ (n : Nat) (c : Call Q P), s.calls[n]? = some c → c.id = n % 2 ^ 64
  one : ∀ n, tokens s n ≤ 1
  fresh : ∀ n, ¬ begun s n → tokens s n = 0
  keys : ∀ p ∈ s.pending, ∃ c, s.calls[p.2]? = some c ∧ c.id = p.1 ∧
    .register p.2 ∈ tr
  held : ∀ p ∈ s.held, ∀ v, p.2 = some v → Wit s tr p.1 v
  runs : ∀ p ∈ s.runs, Wit s tr p.1 p.2
  prom : ∀ (n : Nat) (c : Call Q P) (v : Option P), s.calls[n]? = some c →
    c.promise = some (some v) → Wit s tr n v
  ret : ∀ (n : Nat) (c : Call Q P) (v : P), s.calls[n]? = some c →
    c.phase = .returned (.value (some v)) → Wit s tr n (some v)

/-! ### How the parts change -/

theorem setPhase_calls (s : Client Q P) (n m : Nat) (p : Phase P) :
    (s.setPhase n p).calls[m]? =
      if n = m then s.calls[m]?.map (fun c => { c with phase := p })
      else s.calls[m]? := getElem?_mod _ _ _ _

/-- The calls are the same up to phases and promises. -/
def SameIds (s s' : Client Q P) : Prop :=
  ∀ (n : Nat) (c : Call Q P), s.calls[n]? = some c →
    ∃ c', s'.calls[n]? = some c' ∧ c'.id = c.id ∧ c'.kind = c.kind ∧ c'.req = c.req

theorem Wit.mono {s s' : Client Q P} {tr : List (Event Q P)} {n : Nat}
    {p : Option P} (h : Wit s tr n p) (hs : SameIds s s') (e : Event Q P) :
    Wit s' (tr ++ [e]) n p := by
  obtain ⟨a, b, c, h1, h2, h3⟩ := h
  obtain ⟨c', h4, h5, _⟩ := hs n c h1
  exact ⟨a, b ++ [e], c', h4, by rw [h2, h5]; simp, h3⟩

theorem SameIds.setPhase (s : Client Q P) (n : Nat) (p : Phase P) :
    SameIds s (s.setPhase n p) := by
  intro m c hm
  rw [setPhase_calls, hm]
  by_cases h : n = m
  · exact ⟨{ c with phase := p }, by rw [if_pos h]; rfl, rfl, rfl, rfl⟩
  · exact ⟨c, by rw [if_neg h], rfl, rfl, rfl⟩

theorem SameIds.trans {a b c : Client Q P} (h : SameIds a b) (h' : SameIds b c) :
    SameIds a c := by
  intro n x hx
  obtain ⟨y, h1, h2, h3, h4⟩ := h n x hx
  obtain ⟨z, g1, g2, g3, g4⟩ := h' n y h1
  exact ⟨z, g1, g2.trans h2, g3.trans h3, g4.trans h4⟩

theorem isSet_setPhase (s : Client Q P) (n m : Nat) (p : Phase P) :
    isSet (s.setPhase n p) m = isSet s m := by
  unfold isSet
  rw [setPhase_calls]
  by_cases h : n = m
  · rw [if_pos h]
    cases s.calls[m]? <;> rfl
  · rw [if_neg h]

theorem tokens_setPhase (s : Client Q P) (n m : Nat) (p : Phase P) :
    tokens (s.setPhase n p) m = tokens s m := by
  unfold tokens
  rw [isSet_setPhase]
  rfl

theorem begun_setPhase {s : Client Q P} {n m : Nat} {p : Phase P} (hp : p ≠ .made)
    (h : begun s m) : begun (s.setPhase n p) m := by
  obtain ⟨c, h1, h2⟩ := h
  unfold begun
  rw [setPhase_calls, h1]
  by_cases h : n = m
  · exact ⟨_, by rw [if_pos h]; rfl, hp⟩
  · exact ⟨c, by rw [if_neg h], h2⟩

/-- Changing the phase of a call, the rest of the state untouched. -/
theorem Inv.setPhase {tr : List (Event Q P)} {s : Client Q P} (h : Inv tr s)
    (n : Nat) (p : Phase P) (hp : p ≠ .made) (e : Event Q P)
    (hr : ∀ v, p = .returned (.value (some v)) → Wit s tr n (some v)) :
    Inv (tr ++ [e]) (s.setPhase n p) := by
  have hsame := SameIds.setPhase s n p
  refine ⟨?_, ?_, ?_, ?_, ?_, ?_, ?_, ?_, ?_⟩
  · show s.cur = (s.calls.modify n _).length % 2 ^ 64
    rw [List.length_modify]
    exact h.cur
  · intro m c hc
    rw [setPhase_calls] at hc
    by_cases hm : n = m
    · rw [if_pos hm] at hc
      cases hx : s.calls[m]? with
      | none => rw [hx] at hc; cases hc
      | some x =>
        rw [hx] at hc
        simp only [Option.map_some, Option.some.injEq] at hc
        subst hc
        exact h.ids m x hx
    · rw [if_neg hm] at hc
      exact h.ids m c hc
  · intro m
    rw [tokens_setPhase]
    exact h.one m
  · intro m hm
    rw [tokens_setPhase]
    exact h.fresh m fun hb => hm (begun_setPhase hp hb)
  · intro q hq
    obtain ⟨c, h1, h2, h3⟩ := h.keys q hq
    obtain ⟨c', g1, g2, _⟩ := hsame q.2 c h1
    exact ⟨c', g1, g2.trans h2, List.mem_append_left _ h3⟩
  · intro q hq v hv
    exact (h.held q hq v hv).mono hsame e
  · intro q hq
    exact (h.runs q hq).mono hsame e
  · intro m c v hc hv
    rw [setPhase_calls] at hc
    by_cases hm : n = m
    · rw [if_pos hm] at hc
      cases hx : s.calls[m]? with
      | none => rw [hx] at hc; cases hc
      | some x =>
        rw [hx] at hc
        simp only [Option.map_some, Option.some.injEq] at hc
        subst hc
        exact (h.prom m x v hx hv).mono hsame e
    · rw [if_neg hm] at hc
      exact (h.prom m c v hc hv).mono hsame e
  · intro m c v hc hv
    rw [setPhase_calls] at hc
    by_cases hm : n = m
    · rw [if_pos hm] at hc
      cases hx : s.calls[m]? with
      | none => rw [hx] at hc; cases hc
      | some x =>
        rw [hx] at hc
        simp only [Option.map_some, Option.some.injEq] at hc
        subst hc
        subst hm
        exact (hr v hv).mono hsame e
    · rw [if_neg hm] at hc
      exact (h.ret m c v hc hv).mono hsame e

theorem countP_filter_le {α : Type} (l : List α) (p q : α → Bool) :
    (l.filter q).countP p ≤ l.countP p :=
  List.Sublist.countP_le List.filter_sublist

theorem countP_filter_lt {α : Type} (l : List α) (p q : α → Bool) (a : α)
    (ha : a ∈ l) (hp : p a = true) (hq : q a = false) :
    (l.filter q).countP p < l.countP p := by
  induction l with
  | nil => cases ha
  | cons x l ih =>
    rcases List.mem_cons.mp ha with rfl | hx
    · rw [List.filter_cons_of_neg (by rw [hq]; decide), List.countP_cons_of_pos hp]
      have := countP_filter_le l p q
      omega
    · have := ih hx
      by_cases hqx : q x = true
      · rw [List.filter_cons_of_pos hqx, List.countP_cons, List.countP_cons]
        omega
      · rw [List.filter_cons_of_neg hqx, List.countP_cons]
        omega

/-- Erasing an id from the map. -/
theorem Inv.erase {tr : List (Event Q P)} {s : Client Q P} (h : Inv tr s) (id : Nat) :
    Inv tr { s with pending := s.pending.filter fun p => p.1 != id } := by
  have ht : ∀ n, tokens { s with pending := s.pending.filter fun p => p.1 != id } n ≤
      tokens s n := by
    intro n
    unfold tokens
    have := countP_filter_le s.pending (fun p => p.2 == n) (fun p => p.1 != id)
    show _ + _ + _ + isSet s n ≤ _
    simp only
    omega
  refine ⟨h.cur, h.ids, ?_, ?_, ?_, h.held, h.runs, h.prom, h.ret⟩
  · intro n
    exact Nat.le_trans (ht n) (h.one n)
  · intro n hn
    exact Nat.le_zero.mp (Nat.le_trans (ht n) (Nat.le_of_eq (h.fresh n hn)))
  · intro p hp
    exact h.keys p (List.mem_filter.mp hp).1

/-- Taking an action out of the map. -/
theorem Inv.extract {tr : List (Event Q P)} {s : Client Q P} (h : Inv tr s) (id : Nat)
    (v : Option (Option P))
    (hv : ∀ n c w, v = some w → s.calls[n]? = some c → c.id = id →
      .register n ∈ tr → Wit s tr n w) :
    Inv tr (s.extract id v) := by
  unfold Client.extract
  split
  · exact h
  next m n hf =>
    have hmem := List.mem_of_find?_eq_some hf
    have hk := List.find?_some hf
    simp only [beq_iff_eq] at hk
    subst hk
    have ht : ∀ k, tokens { s with
        pending := s.pending.filter fun p => p.1 != m
        held := s.held ++ [(n, v)] } k ≤ tokens s k := by
      intro k
      unfold tokens
      show _ + _ + _ + isSet s k ≤ _
      simp only [List.countP_append, List.countP_singleton]
      by_cases hnk : n = k
      · have := countP_filter_lt s.pending (fun p => p.2 == k) (fun p => p.1 != m)
          (m, n) hmem (by simpa using hnk) (by simp)
        simp only [hnk, beq_self_eq_true, if_true]
        omega
      · have := countP_filter_le s.pending (fun p => p.2 == k) (fun p => p.1 != m)
        rw [if_neg (by simpa using hnk)]
        omega
    refine ⟨h.cur, h.ids, ?_, ?_, ?_, ?_, h.runs, h.prom, h.ret⟩
    · intro k
      exact Nat.le_trans (ht k) (h.one k)
    · intro k hn
      exact Nat.le_zero.mp (Nat.le_trans (ht k) (Nat.le_of_eq (h.fresh k hn)))
    · intro p hp
      exact h.keys p (List.mem_filter.mp hp).1
    · intro p hp w hw
      rcases List.mem_append.mp hp with hp | hp
      · exact h.held p hp w hw
      · cases List.mem_singleton.mp hp
        obtain ⟨c, h1, h2, h3⟩ := h.keys _ hmem
        exact hv n c w hw h1 h2 h3

theorem Inv.snoc {tr : List (Event Q P)} {s : Client Q P} (h : Inv tr s)
    (e : Event Q P) : Inv (tr ++ [e]) s := by
  have hs : SameIds s s := fun n c hc => ⟨c, hc, rfl, rfl, rfl⟩
  refine ⟨h.cur, h.ids, h.one, h.fresh, ?_, ?_, ?_, ?_, ?_⟩
  · intro p hp
    obtain ⟨c, h1, h2, h3⟩ := h.keys p hp
    exact ⟨c, h1, h2, List.mem_append_left _ h3⟩
  · exact fun p hp v hv => (h.held p hp v hv).mono hs e
  · exact fun p hp => (h.runs p hp).mono hs e
  · exact fun n c v hc hv => (h.prom n c v hc hv).mono hs e
  · exact fun n c v hc hv => (h.ret n c v hc hv).mono hs e

theorem countP_eraseIdx {α : Type} (l : List α) (p : α → Bool) (k : Nat) (a : α)
    (h : l[k]? = some a) :
    (l.eraseIdx k).countP p + (if p a then 1 else 0) = l.countP p := by
  induction l generalizing k with
  | nil => simp at h
  | cons x l ih =>
    cases k with
    | zero =>
      simp only [List.getElem?_cons_zero, Option.some.injEq] at h
      subst h
      simp [List.countP_cons]
    | succ k =>
      simp only [List.getElem?_cons_succ] at h
      simp only [List.eraseIdx_cons_succ, List.countP_cons]
      have := ih k h
      omega

/-- Carrying out an action taken out of the map. -/
theorem Inv.run {tr : List (Event Q P)} {s s' : Client Q P} (h : Inv tr s) (k : Nat)
    (n : Nat) (v : Option (Option P)) (hk : s.held[k]? = some (n, v))
    (hs : { s with held := s.held.eraseIdx k }.perform n v = some s') :
    Inv tr s' := by
  have hmem : (n, v) ∈ s.held := List.mem_of_getElem? hk
  have hcnt : ∀ m, (s.held.eraseIdx k).countP (fun p => p.1 == m) +
      (if n == m then 1 else 0) = s.held.countP (fun p => p.1 == m) :=
    fun m => countP_eraseIdx s.held (fun p => p.1 == m) k (n, v) hk
  unfold Client.perform at hs
  cases hc : s.calls[n]? with
  | none => simp [hc] at hs
  | some c =>
    simp only [hc] at hs
    cases hkind : c.kind with
    | async =>
      simp only [hkind] at hs
      cases v with
      | none =>
        simp only [Option.some.injEq] at hs
        subst hs
        have ht : ∀ m, tokens { s with held := s.held.eraseIdx k } m ≤ tokens s m := by
          intro m
          have := hcnt m
          unfold tokens
          show _ + _ + _ + isSet s m ≤ _
          simp only
          omega
        refine ⟨h.cur, h.ids, ?_, ?_, h.keys, ?_, h.runs, h.prom, h.ret⟩
        · exact fun m => Nat.le_trans (ht m) (h.one m)
        · exact fun m hn => Nat.le_zero.mp
            (Nat.le_trans (ht m) (Nat.le_of_eq (h.fresh m hn)))
        · exact fun p hp => h.held p (List.mem_of_mem_eraseIdx hp)
      | some p =>
        simp only [Option.some.injEq] at hs
        subst hs
        have ht : ∀ m, tokens { s with
            held := s.held.eraseIdx k, runs := s.runs ++ [(n, p)] } m ≤
              tokens s m := by
          intro m
          have := hcnt m
          unfold tokens
          show _ + _ + _ + isSet s m ≤ _
          simp only [List.countP_append, List.countP_singleton]
          omega
        refine ⟨h.cur, h.ids, ?_, ?_, h.keys, ?_, ?_, h.prom, h.ret⟩
        · exact fun m => Nat.le_trans (ht m) (h.one m)
        · exact fun m hn => Nat.le_zero.mp
            (Nat.le_trans (ht m) (Nat.le_of_eq (h.fresh m hn)))
        · exact fun q hq => h.held q (List.mem_of_mem_eraseIdx hq)
        · intro q hq
          rcases List.mem_append.mp hq with hq | hq
          · exact h.runs q hq
          · cases List.mem_singleton.mp hq
            exact h.held _ hmem p rfl
    | sync t =>
      simp only [hkind] at hs
      cases hpr : c.promise with
      | some _ => simp [hpr] at hs
      | none =>
        simp only [hpr, Option.some.injEq] at hs
        have hcalls : ∀ m, s'.calls[m]? =
            if n = m then s.calls[m]?.map (fun c => { c with promise := some v })
            else s.calls[m]? := by
          intro m
          rw [← hs]
          exact getElem?_mod _ _ _ _
        have hsame : SameIds s s' := by
          intro m x hx
          rw [hcalls, hx]
          by_cases hm : n = m
          · exact ⟨{ x with promise := some v }, by rw [if_pos hm]; rfl, rfl, rfl, rfl⟩
          · exact ⟨x, by rw [if_neg hm], rfl, rfl, rfl⟩
        have hw : ∀ {m p}, Wit s tr m p → Wit s' tr m p := by
          rintro m p ⟨a, b, x, h1, h2, h3⟩
          obtain ⟨y, g1, g2, _⟩ := hsame m x h1
          exact ⟨a, b, y, g1, by rw [g2]; exact h2, h3⟩
        have hback : ∀ (m : Nat) (x : Call Q P), s'.calls[m]? = some x →
            ∃ y, s.calls[m]? = some y ∧ x.id = y.id ∧ x.phase = y.phase ∧
              (n ≠ m → x.promise = y.promise) ∧ (n = m → x.promise = some v) := by
          intro m x hx
          rw [hcalls] at hx
          by_cases hm : n = m
          · rw [if_pos hm] at hx
            cases hy : s.calls[m]? with
            | none => rw [hy] at hx; cases hx
            | some y =>
              rw [hy] at hx
              simp only [Option.map_some, Option.some.injEq] at hx
              subst hx
              exact ⟨y, rfl, rfl, rfl, fun hne => absurd hm hne, fun _ => rfl⟩
          · rw [if_neg hm] at hx
            exact ⟨x, hx, rfl, rfl, fun _ => rfl, fun he => absurd he hm⟩
        have hset : ∀ m, isSet s' m ≤ isSet s m + (if n == m then 1 else 0) := by
          intro m
          unfold isSet
          rw [hcalls]
          by_cases hm : n = m
          · subst hm
            simp [hc]
          · simp [hm]
        have ht : ∀ m, tokens s' m ≤ tokens s m := by
          intro m
          have h1 := hcnt m
          have h2 := hset m
          have e1 : s'.pending = s.pending := by rw [← hs]
          have e2 : s'.held = s.held.eraseIdx k := by rw [← hs]
          have e3 : s'.runs = s.runs := by rw [← hs]
          unfold tokens
          rw [e1, e2, e3]
          omega
        have hbeg : ∀ m, begun s m → begun s' m := by
          rintro m ⟨x, h1, h2⟩
          unfold begun
          rw [hcalls, h1]
          by_cases hm : n = m
          · exact ⟨{ x with promise := some v }, by rw [if_pos hm]; rfl, h2⟩
          · exact ⟨x, by rw [if_neg hm], h2⟩
        refine ⟨?_, ?_, ?_, ?_, ?_, ?_, ?_, ?_, ?_⟩
        · rw [← hs]
          show s.cur = (s.calls.modify n _).length % 2 ^ 64
          rw [List.length_modify]
          exact h.cur
        · intro m x hx
          obtain ⟨y, h1, h2, _⟩ := hback m x hx
          rw [h2]
          exact h.ids m y h1
        · exact fun m => Nat.le_trans (ht m) (h.one m)
        · exact fun m hn => Nat.le_zero.mp (Nat.le_trans (ht m)
            (Nat.le_of_eq (h.fresh m fun hb => hn (hbeg m hb))))
        · intro q hq
          have hq : q ∈ s.pending := by rw [← hs] at hq; exact hq
          obtain ⟨x, h1, h2, h3⟩ := h.keys q hq
          obtain ⟨y, g1, g2, _⟩ := hsame q.2 x h1
          exact ⟨y, g1, g2.trans h2, h3⟩
        · intro q hq w hw'
          have hq : q ∈ s.held := by
            rw [← hs] at hq
            exact List.mem_of_mem_eraseIdx hq
          exact hw (h.held q hq w hw')
        · intro q hq
          have hq : q ∈ s.runs := by rw [← hs] at hq; exact hq
          exact hw (h.runs q hq)
        · intro m x w hx hxp
          obtain ⟨y, h1, _, _, h4, h5⟩ := hback m x hx
          by_cases hm : n = m
          · rw [h5 hm] at hxp
            cases hxp
            exact hw (hm ▸ h.held _ hmem w rfl)
          · rw [h4 hm] at hxp
            exact hw (h.prom m y w h1 hxp)
        · intro m x w hx hxp
          obtain ⟨y, h1, _, h3, _⟩ := hback m x hx
          rw [h3] at hxp
          exact hw (h.ret m y w h1 hxp)

/-! ### Every step -/

theorem extract_calls (s : Client Q P) (id : Nat) (v : Option (Option P)) :
    (s.extract id v).calls = s.calls := by
  unfold Client.extract
  split <;> rfl

theorem Inv.step {tr : List (Event Q P)} {s s' : Client Q P} (h : Inv tr s)
    (e : Event Q P) (hs : Rpc.step s e = some s') : Inv (tr ++ [e]) s' := by
  cases e with
  | start kind req =>
    simp only [Rpc.step, Option.some.injEq] at hs
    subst hs
    have hold : ∀ (n : Nat) (c : Call Q P), s.calls[n]? = some c →
        (s.calls ++ [⟨kind, req, s.cur, .made, none⟩])[n]? = some c := by
      intro n c hc
      rw [List.getElem?_append_left (by
        apply Decidable.byContradiction
        intro hn
        rw [List.getElem?_eq_none (by omega)] at hc
        cases hc)]
      exact hc
    have hnew : ∀ (n : Nat) (c : Call Q P), (s.calls ++ [⟨kind, req, s.cur, .made, none⟩])[n]? = some c →
        s.calls[n]? = some c ∨
          (n = s.calls.length ∧ c = ⟨kind, req, s.cur, .made, none⟩) := by
      intro n c hc
      by_cases hn : n < s.calls.length
      · rw [List.getElem?_append_left hn] at hc
        exact .inl hc
      · rw [List.getElem?_append_right (by omega)] at hc
        by_cases he : n = s.calls.length
        · subst he
          simp only [Nat.sub_self, List.getElem?_cons_zero, Option.some.injEq] at hc
          exact .inr ⟨rfl, hc.symm⟩
        · rw [List.getElem?_eq_none (by simp; omega)] at hc
          cases hc
    have hset : ∀ n, isSet { s with
        cur := (s.cur + 1) % 2 ^ 64
        calls := s.calls ++ [⟨kind, req, s.cur, .made, none⟩] } n = isSet s n := by
      intro n
      unfold isSet
      show (match (s.calls ++ [⟨kind, req, s.cur, .made, none⟩])[n]? with
        | some c => if c.promise.isSome then 1 else 0
        | none => 0) = _
      cases hx : s.calls[n]? with
      | some c => rw [hold n c hx]
      | none =>
        cases hy : (s.calls ++ [⟨kind, req, s.cur, .made, none⟩])[n]? with
        | none => rfl
        | some c =>
          rcases hnew n c hy with h1 | ⟨_, rfl⟩
          · rw [hx] at h1; cases h1
          · rfl
    have ht : ∀ n, tokens { s with
        cur := (s.cur + 1) % 2 ^ 64
        calls := s.calls ++ [⟨kind, req, s.cur, .made, none⟩] } n = tokens s n := by
      intro n
      unfold tokens
      rw [hset]
    have hsame : SameIds s { s with
        cur := (s.cur + 1) % 2 ^ 64
        calls := s.calls ++ [⟨kind, req, s.cur, .made, none⟩] } :=
      fun n c hc => ⟨c, hold n c hc, rfl, rfl, rfl⟩
    refine ⟨?_, ?_, ?_, ?_, ?_, ?_, ?_, ?_, ?_⟩
    · show (s.cur + 1) % 2 ^ 64 = (s.calls ++ [_]).length % 2 ^ 64
      rw [h.cur, List.length_append]
      simp
    · intro n c hc
      rcases hnew n c hc with h1 | ⟨rfl, rfl⟩
      · exact h.ids n c h1
      · exact h.cur
    · intro n
      rw [ht]
      exact h.one n
    · intro n hn
      rw [ht]
      refine h.fresh n fun ⟨c, h1, h2⟩ => hn ⟨c, hold n c h1, h2⟩
    · intro q hq
      obtain ⟨c, h1, h2, h3⟩ := h.keys q hq
      exact ⟨c, hold _ c h1, h2, List.mem_append_left _ h3⟩
    · exact fun q hq v hv => (h.held q hq v hv).mono hsame _
    · exact fun q hq => (h.runs q hq).mono hsame _
    · intro n c v hc hv
      rcases hnew n c hc with h1 | ⟨rfl, rfl⟩
      · exact (h.prom n c v h1 hv).mono hsame _
      · cases hv
    · intro n c v hc hv
      rcases hnew n c hc with h1 | ⟨rfl, rfl⟩
      · exact (h.ret n c v h1 hv).mono hsame _
      · cases hv
  | register n =>
    simp only [Rpc.step] at hs
    cases hc : s.calls[n]? with
    | none => simp [hc] at hs
    | some c =>
      simp only [hc] at hs
      cases hp : c.phase with
      | made =>
        simp only [hp, Option.some.injEq] at hs
        have hnb : ¬ begun s n := by
          rintro ⟨x, h1, h2⟩
          rw [hc] at h1
          cases h1
          exact h2 hp
        have h0 := h.fresh n hnb
        have h1 := h.setPhase n .registered (by simp) (.register n) (by simp)
        have e1 : ∀ k : Nat, s'.calls[k]? = (s.setPhase n .registered).calls[k]? := by
          intro k; rw [← hs]
        have hpend : s'.pending = insert s.pending c.id n := by rw [← hs]
        have hset : ∀ m, isSet s' m = isSet s m := by
          intro m
          rw [← isSet_setPhase s n m .registered]
          unfold isSet
          rw [e1]
        have ht : ∀ m, tokens s' m ≤ tokens s m + (if n = m then 1 else 0) := by
          intro m
          have e2 : s'.held = s.held := by rw [← hs]; rfl
          have e3 : s'.runs = s.runs := by rw [← hs]; rfl
          unfold tokens
          rw [hpend, e2, e3, hset]
          unfold insert
          rw [List.countP_cons]
          have := countP_filter_le s.pending (fun p => p.2 == m) (fun p => p.1 != c.id)
          by_cases hnm : n = m
          · simp only [hnm, beq_self_eq_true, if_true]
            omega
          · rw [if_neg hnm, if_neg (by simpa using hnm)]
            omega
        have hreg : begun (s.setPhase n .registered) n := by
          unfold begun
          rw [setPhase_calls, if_pos rfl, hc]
          exact ⟨_, rfl, by simp⟩
        have hwit : ∀ {m p}, Wit (s.setPhase n .registered) (tr ++ [.register n]) m p →
            Wit s' (tr ++ [.register n]) m p := by
          rintro m p ⟨a, b, x, g1, g2, g3⟩
          exact ⟨a, b, x, by rw [e1]; exact g1, g2, g3⟩
        have hids : ∀ (m : Nat) (x : Call Q P), s'.calls[m]? = some x →
            (s.setPhase n .registered).calls[m]? = some x := by
          intro m x hx
          rw [← e1]
          exact hx
        refine ⟨?_, fun m x hx => h1.ids m x (hids m x hx), ?_, ?_, ?_, ?_, ?_, ?_, ?_⟩
        · have := h1.cur
          rw [← hs]
          exact this
        · intro m
          have := ht m
          by_cases hnm : n = m
          · subst hnm
            rw [if_pos rfl, h0] at this
            exact this
          · rw [if_neg hnm] at this
            exact Nat.le_trans this (h.one m)
        · intro m hm
          have hne : n ≠ m := by
            rintro rfl
            apply hm
            obtain ⟨x, g1, g2⟩ := hreg
            exact ⟨x, by rw [e1]; exact g1, g2⟩
          have hm' : ¬ begun s m := by
            intro hb
            obtain ⟨x, g1, g2⟩ := begun_setPhase (n := n) (p := .registered) (by simp) hb
            exact hm ⟨x, by rw [e1]; exact g1, g2⟩
          have := ht m
          rw [if_neg hne, h.fresh m hm'] at this
          omega
        · intro q hq
          rw [hpend] at hq
          unfold insert at hq
          rcases List.mem_cons.mp hq with rfl | hq
          · obtain ⟨y, g1, g2, _⟩ := SameIds.setPhase s n .registered n c hc
            exact ⟨y, by rw [e1]; exact g1, g2, by simp⟩
          · obtain ⟨x, g1, g2, g3⟩ := h1.keys q (List.mem_filter.mp hq).1
            exact ⟨x, by rw [e1]; exact g1, g2, g3⟩
        · intro q hq v hv
          have hq : q ∈ s.held := by rw [← hs] at hq; exact hq
          exact hwit (h1.held q hq v hv)
        · intro q hq
          have hq : q ∈ s.runs := by rw [← hs] at hq; exact hq
          exact hwit (h1.runs q hq)
        · exact fun m x v hx hv => hwit (h1.prom m x v (hids m x hx) hv)
        · exact fun m x v hx hv => hwit (h1.ret m x v (hids m x hx) hv)
      | _ => simp [hp] at hs
  | send n ok =>
    simp only [Rpc.step] at hs
    cases hc : s.calls[n]? with
    | none => simp [hc] at hs
    | some c =>
      simp only [hc] at hs
      cases hp : c.phase with
      | registered =>
        simp only [hp] at hs
        cases ok with
        | true =>
          simp only [if_true] at hs
          cases hk : c.kind with
          | sync t =>
            simp only [hk, Option.some.injEq] at hs
            rw [← hs]
            exact h.setPhase n _ (by simp) _ (by simp)
          | async =>
            simp only [hk, Option.some.injEq] at hs
            rw [← hs]
            exact h.setPhase n _ (by simp) _ (by simp)
        | false =>
          simp only [Bool.false_eq_true, if_false, Option.some.injEq] at hs
          rw [← hs]
          exact h.setPhase n _ (by simp) _ (by simp)
      | _ => simp [hp] at hs
  | failed n =>
    simp only [Rpc.step] at hs
    cases hc : s.calls[n]? with
    | none => simp [hc] at hs
    | some c =>
      simp only [hc] at hs
      cases hp : c.phase with
      | sendFailed =>
        simp only [hp] at hs
        cases hk : c.kind with
        | sync t =>
          simp only [hk, Option.some.injEq] at hs
          rw [← hs]
          exact (h.extract c.id none (by simp)).setPhase n _ (by simp) _ (by simp)
        | async =>
          simp only [hk, Option.some.injEq] at hs
          rw [← hs]
          exact (h.erase c.id).setPhase n _ (by simp) _ (by simp)
      | _ => simp [hp] at hs
  | reply id p =>
    simp only [Rpc.step, Option.some.injEq] at hs
    rw [← hs]
    refine (h.snoc (.reply id p)).extract id (some p) ?_
    intro n c w hw hc hid hr
    cases hw
    refine ⟨tr, [], c, hc, by rw [hid], ?_⟩
    simpa using hr
  | run k =>
    simp only [Rpc.step] at hs
    cases hk : s.held[k]? with
    | none => simp [hk] at hs
    | some q =>
      obtain ⟨n, v⟩ := q
      simp only [hk] at hs
      exact (h.snoc _).run k n v hk hs
  | timeout n =>
    simp only [Rpc.step] at hs
    cases hc : s.calls[n]? with
    | none => simp [hc] at hs
    | some c =>
      simp only [hc] at hs
      split at hs
      · simp only [Option.some.injEq] at hs
        rw [← hs]
        exact h.setPhase n _ (by simp) _ (by simp)
      · cases hs
  | expire n =>
    simp only [Rpc.step] at hs
    cases hc : s.calls[n]? with
    | none => simp [hc] at hs
    | some c =>
      simp only [hc] at hs
      cases hp : c.phase with
      | timedOut =>
        simp only [hp, Option.some.injEq] at hs
        rw [← hs]
        exact (h.extract c.id none (by simp)).setPhase n _ (by simp) _ (by simp)
      | _ => simp [hp] at hs
  | get n =>
    simp only [Rpc.step] at hs
    cases hc : s.calls[n]? with
    | none => simp [hc] at hs
    | some c =>
      simp only [hc] at hs
      cases hp : c.phase with
      | waiting =>
        cases hpr : c.promise with
        | none => simp [hp, hpr] at hs
        | some v =>
          simp only [hp, hpr, Option.some.injEq] at hs
          rw [← hs]
          refine h.setPhase n _ (by simp) _ ?_
          intro w hw
          simp only [Phase.returned.injEq, Ret.value.injEq] at hw
          cases v with
          | none => cases hw
          | some v =>
            cases v with
            | none => cases hw
            | some u =>
              cases hw
              exact h.prom n c (some w) hc hpr
      | _ => simp [hp] at hs

theorem Reach.inv {tr : List (Event Q P)} {s : Client Q P} (h : Reach tr s) :
    Inv tr s := by
  induction h with
  | init =>
    refine ⟨rfl, ?_, ?_, ?_, ?_, ?_, ?_, ?_, ?_⟩
    · intro n c hc; cases hc
    · intro n; simp [tokens, isSet, Client.init]
    · intro n _; simp [tokens, isSet, Client.init]
    · intro p hp; cases hp
    · intro p hp; cases hp
    · intro p hp; cases hp
    · intro n c v hc; cases hc
    · intro n c v hc; cases hc
  | step e _ hs ih => exact ih.step e hs

end Verif.Rpc
