import Verif.Rpc.Lemmas
/-!
# The RPC client and the events so far
-/
namespace Verif.Rpc

variable {Q P : Type}

/-- `step` as a relation. -/
inductive Step (s : Client Q P) : Event Q P → Client Q P → Prop where
  | start (kind : Kind) (req : Q) : Step s (.start kind req)
      { s with
        cur := (s.cur + 1) % 2 ^ 64
        calls := s.calls ++ [⟨kind, req, s.cur, .made, none⟩] }
  | register (n : Nat) (c : Call Q P) (hc : s.calls[n]? = some c)
      (hp : c.phase = .made) : Step s (.register n)
        { s.setPhase n .registered with pending := insert s.pending c.id n }
  | send (n : Nat) (c : Call Q P) (hc : s.calls[n]? = some c)
      (hp : c.phase = .registered) (q : Phase P)
      (hq : q = .waiting ∨ q = .returned (.sent true)) :
      Step s (.send n true) (s.setPhase n q)
  | sendNot (n : Nat) (c : Call Q P) (hc : s.calls[n]? = some c)
      (hp : c.phase = .registered) :
      Step s (.send n false) (s.setPhase n .sendFailed)
  | failedSync (n : Nat) (c : Call Q P) (hc : s.calls[n]? = some c)
      (hp : c.phase = .sendFailed) :
      Step s (.failed n) ((s.extract c.id none).setPhase n (.returned (.value none)))
  | failedAsync (n : Nat) (c : Call Q P) (hc : s.calls[n]? = some c)
      (hp : c.phase = .sendFailed) :
      Step s (.failed n)
        ({ s with pending := s.pending.filter fun p => p.1 != c.id }.setPhase n
          (.returned (.sent false)))
  | reply (id : Nat) (p : Option P) : Step s (.reply id p) (s.extract id (some p))
  | drop (k n : Nat) (hk : s.held[k]? = some (n, none)) :
      Step s (.run k) { s with held := s.held.eraseIdx k }
  | callback (k n : Nat) (p : Option P) (hk : s.held[k]? = some (n, some p)) :
      Step s (.run k)
        { s with held := s.held.eraseIdx k, runs := s.runs ++ [(n, p)] }
  | promise (k n : Nat) (v : Option (Option P)) (hk : s.held[k]? = some (n, v))
      (c : Call Q P) (hc : s.calls[n]? = some c) (hp : c.promise = none) :
      Step s (.run k)
        { s with
          held := s.held.eraseIdx k
          calls := s.calls.modify n fun c => { c with promise := some v } }
  | timeout (n : Nat) (c : Call Q P) (hc : s.calls[n]? = some c)
      (hp : c.phase = .waiting) (hk : c.kind = .sync true) :
      Step s (.timeout n) (s.setPhase n .timedOut)
  | expire (n : Nat) (c : Call Q P) (hc : s.calls[n]? = some c)
      (hp : c.phase = .timedOut) :
      Step s (.expire n) ((s.extract c.id none).setPhase n (.returned (.value none)))
  | get (n : Nat) (c : Call Q P) (hc : s.calls[n]? = some c)
      (hp : c.phase = .waiting) (v : Option (Option P)) (hv : c.promise = some v) :
      Step s (.get n) (s.setPhase n (.returned (.value v.join)))

theorem step_inv {s s' : Client Q P} {e : Event Q P} (hs : step s e = some s') :
    Step s e s' := by
  cases e with
  | start kind req =>
    simp only [step, Option.some.injEq] at hs
    subst hs
    exact .start kind req
  | register n =>
    simp only [step] at hs
    cases hc : s.calls[n]? with
    | none => simp [hc] at hs
    | some c =>
      simp only [hc] at hs
      cases hp : c.phase with
      | made =>
        simp only [hp, Option.some.injEq] at hs
        subst hs
        exact .register n c hc hp
      | _ => simp [hp] at hs
  | send n ok =>
    simp only [step] at hs
    cases hc : s.calls[n]? with
    | none => simp [hc] at hs
    | some c =>
      simp only [hc] at hs
      cases hp : c.phase with
      | registered =>
        simp only [hp] at hs
        cases ok with
        | true =>
          simp only [if_true] at hs
          cases hk : c.kind with
          | sync t =>
            simp only [hk, Option.some.injEq] at hs
            subst hs
            exact .send n c hc hp _ (.inl rfl)
          | async =>
            simp only [hk, Option.some.injEq] at hs
            subst hs
            exact .send n c hc hp _ (.inr rfl)
        | false =>
          simp only [Bool.false_eq_true, if_false, Option.some.injEq] at hs
          subst hs
          exact .sendNot n c hc hp
      | _ => simp [hp] at hs
  | failed n =>
    simp only [step] at hs
    cases hc : s.calls[n]? with
    | none => simp [hc] at hs
    | some c =>
      simp only [hc] at hs
      cases hp : c.phase with
      | sendFailed =>
        simp only [hp] at hs
        cases hk : c.kind with
        | sync t =>
          simp only [hk, Option.some.injEq] at hs
          subst hs
          exact .failedSync n c hc hp
        | async =>
          simp only [hk, Option.some.injEq] at hs
          subst hs
          exact .failedAsync n c hc hp
      | _ => simp [hp] at hs
  | reply id p =>
    simp only [step, Option.some.injEq] at hs
    subst hs
    exact .reply id p
  | run k =>
    simp only [step] at hs
    cases hk : s.held[k]? with
    | none => simp [hk] at hs
    | some q =>
      obtain ⟨n, v⟩ := q
      simp only [hk, Client.perform] at hs
      cases hc : s.calls[n]? with
      | none => simp [hc] at hs
      | some c =>
        simp only [hc] at hs
        cases hkind : c.kind with
        | async =>
          simp only [hkind] at hs
          cases v with
          | none =>
            simp only [Option.some.injEq] at hs
            subst hs
            exact .drop k n hk
          | some p =>
            simp only [Option.some.injEq] at hs
            subst hs
            exact .callback k n p hk
        | sync t =>
          simp only [hkind] at hs
          cases hpr : c.promise with
          | some _ => simp [hpr] at hs
          | none =>
            simp only [hpr, Option.some.injEq] at hs
            subst hs
            exact .promise k n v hk c hc hpr
  | timeout n =>
    simp only [step] at hs
    cases hc : s.calls[n]? with
    | none => simp [hc] at hs
    | some c =>
      simp only [hc] at hs
      split at hs
      · simp only [Option.some.injEq] at hs
        subst hs
        rename_i hp hk _
        exact .timeout n c hc hp hk
      · cases hs
  | expire n =>
    simp only [step] at hs
    cases hc : s.calls[n]? with
    | none => simp [hc] at hs
    | some c =>
      simp only [hc] at hs
      cases hp : c.phase with
      | timedOut =>
        simp only [hp, Option.some.injEq] at hs
        subst hs
        exact .expire n c hc hp
      | _ => simp [hp] at hs
  | get n =>
    simp only [step] at hs
    cases hc : s.calls[n]? with
    | none => simp [hc] at hs
    | some c =>
      simp only [hc] at hs
      cases hp : c.phase with
      | waiting =>
        cases hpr : c.promise with
        | none => simp [hp, hpr] at hs
        | some v =>
          simp only [hp, hpr, Option.some.injEq] at hs
          subst hs
          exact .get n c hc hp v hpr
      | _ => simp [hp] at hs

/-- The call that the phase of an event is about. -/
def Event.moves : Event Q P → Option Nat
  | .register n => some n
  | .send n _ => some n
  | .failed n => some n
  | .timeout n => some n
  | .expire n => some n
  | .get n => some n
  | _ => none

theorem calls_setPhase_or {s : Client Q P} {n m : Nat} {p : Phase P} {d : Call Q P}
    (h : (s.setPhase n p).calls[m]? = some d) :
    ∃ c, s.calls[m]? = some c ∧ d.id = c.id ∧ d.kind = c.kind ∧ d.req = c.req ∧
      d.promise = c.promise ∧ (n ≠ m → d.phase = c.phase) ∧ (n = m → d.phase = p) := by
  rw [setPhase_calls] at h
  by_cases hm : n = m
  · rw [if_pos hm] at h
    cases hx : s.calls[m]? with
    | none => rw [hx] at h; cases h
    | some x =>
      rw [hx] at h
      simp only [Option.map_some, Option.some.injEq] at h
      subst h
      exact ⟨x, rfl, rfl, rfl, rfl, rfl, fun hne => absurd hm hne, fun _ => rfl⟩
  · rw [if_neg hm] at h
    exact ⟨d, h, rfl, rfl, rfl, rfl, fun _ => rfl, fun he => absurd he hm⟩

/-- What a step does to a call that existed before: nothing, or it sets its phase,
or its promise. -/
theorem Step.back {s s' : Client Q P} {e : Event Q P} (h : Step s e s') {m : Nat}
    {d : Call Q P} (hd : s'.calls[m]? = some d) :
    (∃ c, s.calls[m]? = some c ∧ d.id = c.id ∧ d.kind = c.kind ∧ d.req = c.req ∧
      (e.moves ≠ some m → d.phase = c.phase) ∧
      (d.promise = c.promise ∨
        ∃ k v, e = .run k ∧ s.held[k]? = some (m, v) ∧ d.promise = some v)) ∨
    (s.calls.length = m ∧ ∃ kind req, e = .start kind req ∧
      d = ⟨kind, req, s.cur, .made, none⟩) := by
  cases h with
  | start kind req =>
    by_cases hn : m < s.calls.length
    · rw [List.getElem?_append_left hn] at hd
      exact .inl ⟨d, hd, rfl, rfl, rfl, fun _ => rfl, .inl rfl⟩
    · rw [List.getElem?_append_right (by omega)] at hd
      by_cases he : m = s.calls.length
      · subst he
        simp only [Nat.sub_self, List.getElem?_cons_zero, Option.some.injEq] at hd
        exact .inr ⟨rfl, kind, req, rfl, hd.symm⟩
      · rw [List.getElem?_eq_none (by simp; omega)] at hd
        cases hd
  | register n c hc hp =>
    obtain ⟨x, h1, h2, h3, h4, h5, h6, _⟩ := calls_setPhase_or (s := s) hd
    exact .inl ⟨x, h1, h2, h3, h4, fun hne => h6 fun he => hne (by rw [he]; rfl), .inl h5⟩
  | send n c hc hp q hq =>
    obtain ⟨x, h1, h2, h3, h4, h5, h6, _⟩ := calls_setPhase_or hd
    exact .inl ⟨x, h1, h2, h3, h4, fun hne => h6 fun he => hne (by rw [he]; rfl), .inl h5⟩
  | sendNot n c hc hp =>
    obtain ⟨x, h1, h2, h3, h4, h5, h6, _⟩ := calls_setPhase_or hd
    exact .inl ⟨x, h1, h2, h3, h4, fun hne => h6 fun he => hne (by rw [he]; rfl), .inl h5⟩
  | failedSync n c hc hp =>
    obtain ⟨x, h1, h2, h3, h4, h5, h6, _⟩ := calls_setPhase_or hd
    rw [extract_calls] at h1
    exact .inl ⟨x, h1, h2, h3, h4, fun hne => h6 fun he => hne (by rw [he]; rfl), .inl h5⟩
  | failedAsync n c hc hp =>
    obtain ⟨x, h1, h2, h3, h4, h5, h6, _⟩ := calls_setPhase_or hd
    exact .inl ⟨x, h1, h2, h3, h4, fun hne => h6 fun he => hne (by rw [he]; rfl), .inl h5⟩
  | reply id p =>
    rw [extract_calls] at hd
    exact .inl ⟨d, hd, rfl, rfl, rfl, fun _ => rfl, .inl rfl⟩
  | drop k n hk => exact .inl ⟨d, hd, rfl, rfl, rfl, fun _ => rfl, .inl rfl⟩
  | callback k n p hk => exact .inl ⟨d, hd, rfl, rfl, rfl, fun _ => rfl, .inl rfl⟩
  | promise k n v hk c hc hp =>
    simp only at hd
    rw [getElem?_mod] at hd
    by_cases hm : n = m
    · rw [if_pos hm] at hd
      cases hx : s.calls[m]? with
      | none => rw [hx] at hd; cases hd
      | some x =>
        rw [hx] at hd
        simp only [Option.map_some, Option.some.injEq] at hd
        subst hd
        exact .inl ⟨x, rfl, rfl, rfl, rfl, fun _ => rfl,
          .inr ⟨k, v, rfl, by rw [← hm]; exact hk, rfl⟩⟩
    · rw [if_neg hm] at hd
      exact .inl ⟨d, hd, rfl, rfl, rfl, fun _ => rfl, .inl rfl⟩
  | timeout n c hc hp hk =>
    obtain ⟨x, h1, h2, h3, h4, h5, h6, _⟩ := calls_setPhase_or hd
    exact .inl ⟨x, h1, h2, h3, h4, fun hne => h6 fun he => hne (by rw [he]; rfl), .inl h5⟩
  | expire n c hc hp =>
    obtain ⟨x, h1, h2, h3, h4, h5, h6, _⟩ := calls_setPhase_or hd
    rw [extract_calls] at h1
    exact .inl ⟨x, h1, h2, h3, h4, fun hne => h6 fun he => hne (by rw [he]; rfl), .inl h5⟩
  | get n c hc hp v hv =>
    obtain ⟨x, h1, h2, h3, h4, h5, h6, _⟩ := calls_setPhase_or hd
    exact .inl ⟨x, h1, h2, h3, h4, fun hne => h6 fun he => hne (by rw [he]; rfl), .inl h5⟩

theorem length_setPhase (s : Client Q P) (n : Nat) (p : Phase P) :
    (s.setPhase n p).calls.length = s.calls.length := List.length_modify ..

theorem Step.length_le {s s' : Client Q P} {e : Event Q P} (h : Step s e s') :
    s.calls.length ≤ s'.calls.length := by
  cases h <;> simp [length_setPhase, extract_calls]

/-- A call that exists keeps its id, kind and request. -/
theorem Step.sameIds {s s' : Client Q P} {e : Event Q P} (h : Step s e s') :
    SameIds s s' := by
  intro n c hc
  have hn : n < s'.calls.length := by
    have := h.length_le
    have : n < s.calls.length := by
      apply Decidable.byContradiction
      intro hx
      rw [List.getElem?_eq_none (by omega)] at hc
      cases hc
    omega
  have hd : s'.calls[n]? = some s'.calls[n] := List.getElem?_eq_getElem hn
  rcases h.back hd with ⟨x, h1, h2, h3, h4, _⟩ | ⟨h1, _⟩
  · rw [hc] at h1
    cases h1
    exact ⟨_, hd, h2, h3, h4⟩
  · subst h1
    rw [List.getElem?_eq_none (Nat.le_refl _)] at hc
    cases hc

/-! ### Facts about the events so far -/

theorem mem_snoc {α : Type} {l : List α} {a b : α} (h : a ∈ l ++ [b]) :
    a ∈ l ∨ a = b := by
  rcases List.mem_append.mp h with h | h
  · exact .inl h
  · exact .inr (List.mem_singleton.mp h)

/-- Splitting a list with one more element. -/
theorem split_snoc {α : Type} {l a b : List α} {x y : α}
    (h : l ++ [y] = a ++ x :: b) :
    (x = y ∧ b = [] ∧ a = l) ∨ ∃ b', b = b' ++ [y] ∧ l = a ++ x :: b' := by
  rcases List.eq_nil_or_concat b with rfl | ⟨b', z, rfl⟩
  · have h2 := List.append_inj' h rfl
    simp only [List.cons.injEq, and_true] at h2
    exact .inl ⟨h2.2.symm, rfl, h2.1.symm⟩
  · have h' : l ++ [y] = (a ++ x :: b') ++ [z] := by rw [h]; simp
    have h2 := List.append_inj' h' rfl
    simp only [List.cons.injEq, and_true] at h2
    exact .inr ⟨b', by rw [h2.2]; simp, h2.1⟩

/-- Phases in which nothing has been sent. -/
def Phase.unsent : Phase P → Bool
  | .made => true
  | .registered => true
  | .sendFailed => true
  | .returned (.sent false) => true
  | _ => false

/-- Phases in which the action of a call should be waiting for a reply. -/
def Phase.live : Phase P → Bool
  | .registered => true
  | .sendFailed => true
  | .waiting => true
  | .timedOut => true
  | .returned (.sent true) => true
  | _ => false

/-- Few enough calls for the ids to be distinct. -/
def Small (s : Client Q P) : Prop := s.calls.length ≤ 2 ^ 64

theorem Inv.uniq {tr : List (Event Q P)} {s : Client Q P} (h : Inv tr s)
    (hb : Small s) {n m : Nat} {c d : Call Q P} (hc : s.calls[n]? = some c)
    (hd : s.calls[m]? = some d) (he : c.id = d.id) : n = m := by
  have h1 : ∀ {k : Nat} {x : Call Q P}, s.calls[k]? = some x → k < 2 ^ 64 := by
    intro k x hx
    apply Decidable.byContradiction
    intro hn
    unfold Small at hb
    rw [List.getElem?_eq_none (by omega)] at hx
    cases hx
  have e1 := h.ids n c hc
  have e2 := h.ids m d hd
  rw [Nat.mod_eq_of_lt (h1 hc)] at e1
  rw [Nat.mod_eq_of_lt (h1 hd)] at e2
  omega

structure Inv2 (tr : List (Event Q P)) (s : Client Q P) : Prop where
  unreg : ∀ n, ¬ begun s n → .register n ∉ tr
  unsent : ∀ n, (∀ c : Call Q P, s.calls[n]? = some c → c.phase.unsent = true) →
    .send n true ∉ tr
  stale : ∀ p ∈ s.pending, ∀ a b, tr = a ++ .register p.2 :: b →
    ∀ v, .reply p.1 v ∉ b
  sf : ∀ (n : Nat) (c : Call Q P), s.calls[n]? = some c →
    (c.phase = .sendFailed → .send n false ∈ tr) ∧
    (c.phase = .timedOut → .timeout n ∈ tr) ∧
    (.timeout n ∈ tr → c.kind = .sync true)
  far : ∀ n : Nat, s.calls[n]? = none → .timeout n ∉ tr
  pend : Small s → ∀ (n : Nat) (c : Call Q P), s.calls[n]? = some c →
    c.phase.live = true → ∀ a b, tr = a ++ .register n :: b →
    (∀ v, .reply c.id v ∉ b) → (c.id, n) ∈ s.pending
  nones : Small s → ∀ n : Nat,
    ((n, none) ∈ s.held ∨ ∃ c : Call Q P, s.calls[n]? = some c ∧ c.promise = some none) →
    .send n false ∈ tr ∨ .timeout n ∈ tr
  rets : Small s → ∀ (n : Nat) (c : Call Q P) (r : Option P), s.calls[n]? = some c →
    c.phase = .returned (.value r) →
    .send n false ∈ tr ∨ .timeout n ∈ tr ∨ ∃ v, .reply c.id v ∈ tr

theorem begun_step {s s' : Client Q P} {e : Event Q P} (h : Step s e s') {n : Nat}
    (hb : begun s n) : begun s' n := by
  obtain ⟨c, hc, hp⟩ := hb
  obtain ⟨d, hd, _⟩ := h.sameIds n c hc
  refine ⟨d, hd, ?_⟩
  by_cases hm : e.moves = some n
  · cases h with
    | start kind req => cases hm
    | reply id p => cases hm
    | drop k m hk => cases hm
    | callback k m p hk => cases hm
    | promise k m v hk x hx hxp => cases hm
    | register m x hx hxp =>
      cases hm
      obtain ⟨_, _, _, _, _, _, _, h7⟩ := calls_setPhase_or (s := s) hd
      rw [h7 rfl]; simp
    | send m x hx hxp q hq =>
      cases hm
      obtain ⟨_, _, _, _, _, _, _, h7⟩ := calls_setPhase_or hd
      rw [h7 rfl]
      rcases hq with rfl | rfl <;> simp
    | sendNot m x hx hxp =>
      cases hm
      obtain ⟨_, _, _, _, _, _, _, h7⟩ := calls_setPhase_or hd
      rw [h7 rfl]; simp
    | failedSync m x hx hxp =>
      cases hm
      obtain ⟨_, _, _, _, _, _, _, h7⟩ := calls_setPhase_or hd
      rw [h7 rfl]; simp
    | failedAsync m x hx hxp =>
      cases hm
      obtain ⟨_, _, _, _, _, _, _, h7⟩ := calls_setPhase_or hd
      rw [h7 rfl]; simp
    | timeout m x hx hxp hk =>
      cases hm
      obtain ⟨_, _, _, _, _, _, _, h7⟩ := calls_setPhase_or hd
      rw [h7 rfl]; simp
    | expire m x hx hxp =>
      cases hm
      obtain ⟨_, _, _, _, _, _, _, h7⟩ := calls_setPhase_or hd
      rw [h7 rfl]; simp
    | get m x hx hxp v hv =>
      cases hm
      obtain ⟨_, _, _, _, _, _, _, h7⟩ := calls_setPhase_or hd
      rw [h7 rfl]; simp
  · rcases h.back hd with ⟨x, h1, _, _, _, h5, _⟩ | ⟨h1, _⟩
    · rw [hc] at h1
      cases h1
      rw [h5 hm]
      exact hp
    · subst h1
      rw [List.getElem?_eq_none (Nat.le_refl _)] at hc
      cases hc

/-- The phase that a moving event leads to. -/
theorem Step.phase {s s' : Client Q P} {e : Event Q P} (h : Step s e s') {n : Nat}
    (hm : e.moves = some n) {d : Call Q P} (hd : s'.calls[n]? = some d) :
    ∃ c, s.calls[n]? = some c ∧ d.id = c.id ∧ d.kind = c.kind ∧
      d.promise = c.promise ∧
      ((e = .register n ∧ c.phase = .made ∧ d.phase = .registered) ∨
       (e = .send n true ∧ c.phase = .registered ∧
         (d.phase = .waiting ∨ d.phase = .returned (.sent true))) ∨
       (e = .send n false ∧ c.phase = .registered ∧ d.phase = .sendFailed) ∨
       (e = .failed n ∧ c.phase = .sendFailed ∧
         (d.phase = .returned (.value none) ∨ d.phase = .returned (.sent false))) ∨
       (e = .timeout n ∧ c.phase = .waiting ∧ c.kind = .sync true ∧
         d.phase = .timedOut) ∨
       (e = .expire n ∧ c.phase = .timedOut ∧ d.phase = .returned (.value none)) ∨
       (e = .get n ∧ c.phase = .waiting ∧ ∃ v, c.promise = some v ∧
         d.phase = .returned (.value v.join))) := by
  cases h with
  | start kind req => cases hm
  | reply id p => cases hm
  | drop k m hk => cases hm
  | callback k m p hk => cases hm
  | promise k m v hk x hx hxp => cases hm
  | register m x hx hxp =>
    cases hm
    obtain ⟨y, h1, h2, h3, _, h5, _, h7⟩ := calls_setPhase_or (s := s) hd
    rw [hx] at h1; cases h1
    exact ⟨x, hx, h2, h3, h5, .inl ⟨rfl, hxp, h7 rfl⟩⟩
  | send m x hx hxp q hq =>
    cases hm
    obtain ⟨y, h1, h2, h3, _, h5, _, h7⟩ := calls_setPhase_or hd
    rw [hx] at h1; cases h1
    refine ⟨x, hx, h2, h3, h5, .inr (.inl ⟨rfl, hxp, ?_⟩)⟩
    rw [h7 rfl]
    exact hq
  | sendNot m x hx hxp =>
    cases hm
    obtain ⟨y, h1, h2, h3, _, h5, _, h7⟩ := calls_setPhase_or hd
    rw [hx] at h1; cases h1
    exact ⟨x, hx, h2, h3, h5, .inr (.inr (.inl ⟨rfl, hxp, h7 rfl⟩))⟩
  | failedSync m x hx hxp =>
    cases hm
    obtain ⟨y, h1, h2, h3, _, h5, _, h7⟩ := calls_setPhase_or hd
    rw [extract_calls, hx] at h1; cases h1
    exact ⟨x, hx, h2, h3, h5, .inr (.inr (.inr (.inl ⟨rfl, hxp, .inl (h7 rfl)⟩)))⟩
  | failedAsync m x hx hxp =>
    cases hm
    obtain ⟨y, h1, h2, h3, _, h5, _, h7⟩ := calls_setPhase_or hd
    rw [show ({ s with pending := s.pending.filter fun p => p.1 != x.id } :
      Client Q P).calls = s.calls from rfl, hx] at h1
    cases h1
    exact ⟨x, hx, h2, h3, h5, .inr (.inr (.inr (.inl ⟨rfl, hxp, .inr (h7 rfl)⟩)))⟩
  | timeout m x hx hxp hk =>
    cases hm
    obtain ⟨y, h1, h2, h3, _, h5, _, h7⟩ := calls_setPhase_or hd
    rw [hx] at h1; cases h1
    exact ⟨x, hx, h2, h3, h5, .inr (.inr (.inr (.inr (.inl ⟨rfl, hxp, hk, h7 rfl⟩))))⟩
  | expire m x hx hxp =>
    cases hm
    obtain ⟨y, h1, h2, h3, _, h5, _, h7⟩ := calls_setPhase_or hd
    rw [extract_calls, hx] at h1; cases h1
    exact ⟨x, hx, h2, h3, h5,
      .inr (.inr (.inr (.inr (.inr (.inl ⟨rfl, hxp, h7 rfl⟩)))))⟩
  | get m x hx hxp v hv =>
    cases hm
    obtain ⟨y, h1, h2, h3, _, h5, _, h7⟩ := calls_setPhase_or hd
    rw [hx] at h1; cases h1
    exact ⟨x, hx, h2, h3, h5,
      .inr (.inr (.inr (.inr (.inr (.inr ⟨rfl, hxp, v, hv, h7 rfl⟩)))))⟩

theorem extract_pending {s : Client Q P} {id : Nat} {v : Option (Option P)}
    {p : Nat × Nat} : p ∈ (s.extract id v).pending ↔ p ∈ s.pending ∧ p.1 ≠ id := by
  unfold Client.extract
  split
  next hf =>
    constructor
    · intro hp
      refine ⟨hp, fun he => ?_⟩
      have := List.find?_eq_none.mp hf p hp
      simp [he] at this
    · exact fun h => h.1
  next =>
    simp only [List.mem_filter, bne_iff_ne, ne_eq]

theorem extract_held {s : Client Q P} {id : Nat} {v : Option (Option P)}
    {p : Nat × Option (Option P)} (h : p ∈ (s.extract id v).held) :
    p ∈ s.held ∨ (p.2 = v ∧ (id, p.1) ∈ s.pending) := by
  unfold Client.extract at h
  split at h
  · exact .inl h
  next m n hf =>
    rcases mem_snoc h with h | rfl
    · exact .inl h
    · have hk := List.find?_some hf
      simp only [beq_iff_eq] at hk
      subst hk
      exact .inr ⟨rfl, List.mem_of_find?_eq_some hf⟩

/-- Where the entries of the map come from. -/
theorem Step.pending {s s' : Client Q P} {e : Event Q P} (h : Step s e s')
    {p : Nat × Nat} (hp : p ∈ s'.pending) :
    (p ∈ s.pending ∧ ∀ v, e ≠ .reply p.1 v) ∨ e = .register p.2 := by
  cases h with
  | start kind req => exact .inl ⟨hp, by simp⟩
  | register n c hc hph =>
    simp only [insert] at hp
    rcases List.mem_cons.mp hp with rfl | hp
    · exact .inr rfl
    · exact .inl ⟨(List.mem_filter.mp hp).1, by simp⟩
  | send n c hc hph q hq => exact .inl ⟨hp, by simp⟩
  | sendNot n c hc hph => exact .inl ⟨hp, by simp⟩
  | failedSync n c hc hph =>
    exact .inl ⟨(extract_pending.mp (show p ∈ (s.extract c.id none).pending from hp)).1,
      by simp⟩
  | failedAsync n c hc hph => exact .inl ⟨(List.mem_filter.mp hp).1, by simp⟩
  | reply id q =>
    have := extract_pending.mp hp
    refine .inl ⟨this.1, fun v hv => ?_⟩
    cases hv
    exact this.2 rfl
  | drop k n hk => exact .inl ⟨hp, by simp⟩
  | callback k n q hk => exact .inl ⟨hp, by simp⟩
  | promise k n v hk c hc hpr => exact .inl ⟨hp, by simp⟩
  | timeout n c hc hph hk => exact .inl ⟨hp, by simp⟩
  | expire n c hc hph =>
    exact .inl ⟨(extract_pending.mp (show p ∈ (s.extract c.id none).pending from hp)).1,
      by simp⟩
  | get n c hc hph v hv => exact .inl ⟨hp, by simp⟩

/-- Which entries leave the map. -/
theorem Step.stays {s s' : Client Q P} {e : Event Q P} (h : Step s e s')
    {p : Nat × Nat} (hp : p ∈ s.pending) (hr : ∀ v, e ≠ .reply p.1 v)
    (hm : ∀ n c, e.moves = some n → s.calls[n]? = some c → c.id ≠ p.1) :
    p ∈ s'.pending := by
  cases h with
  | start kind req => exact hp
  | register n c hc hph =>
    simp only [insert]
    exact List.mem_cons_of_mem _ (List.mem_filter.mpr
      ⟨hp, by simpa using fun he => hm n c rfl hc (Eq.symm he)⟩)
  | send n c hc hph q hq => exact hp
  | sendNot n c hc hph => exact hp
  | failedSync n c hc hph =>
    exact extract_pending.mpr ⟨hp, fun he => hm n c rfl hc (Eq.symm he)⟩
  | failedAsync n c hc hph =>
    exact List.mem_filter.mpr ⟨hp, by simpa using fun he => hm n c rfl hc (Eq.symm he)⟩
  | reply id q =>
    exact extract_pending.mpr ⟨hp, fun he => hr q (by rw [he])⟩
  | drop k n hk => exact hp
  | callback k n q hk => exact hp
  | promise k n v hk c hc hpr => exact hp
  | timeout n c hc hph hk => exact hp
  | expire n c hc hph =>
    exact extract_pending.mpr ⟨hp, fun he => hm n c rfl hc (Eq.symm he)⟩
  | get n c hc hph v hv => exact hp

/-- Where held actions come from. -/
theorem Step.holds {s s' : Client Q P} {e : Event Q P} (h : Step s e s') {n : Nat}
    (hp : (n, none) ∈ s'.held) :
    (n, none) ∈ s.held ∨ ∃ m c, s.calls[m]? = some c ∧ (c.id, n) ∈ s.pending ∧
      ((e = .failed m ∧ c.phase = .sendFailed) ∨
        (e = .expire m ∧ c.phase = .timedOut)) := by
  cases h with
  | start kind req => exact .inl hp
  | register n c hc hph => exact .inl hp
  | send n c hc hph q hq => exact .inl hp
  | sendNot n c hc hph => exact .inl hp
  | failedSync m c hc hph =>
    rcases extract_held (show (n, none) ∈ (s.extract c.id none).held from hp) with
      h | ⟨_, h⟩
    · exact .inl h
    · exact .inr ⟨m, c, hc, h, .inl ⟨rfl, hph⟩⟩
  | failedAsync n c hc hph => exact .inl hp
  | reply id q =>
    rcases extract_held hp with h | ⟨h, _⟩
    · exact .inl h
    · cases h
  | drop k n hk => exact .inl (List.mem_of_mem_eraseIdx hp)
  | callback k n q hk => exact .inl (List.mem_of_mem_eraseIdx hp)
  | promise k n v hk c hc hpr => exact .inl (List.mem_of_mem_eraseIdx hp)
  | timeout n c hc hph hk => exact .inl hp
  | expire m c hc hph =>
    rcases extract_held (show (n, none) ∈ (s.extract c.id none).held from hp) with
      h | ⟨_, h⟩
    · exact .inl h
    · exact .inr ⟨m, c, hc, h, .inr ⟨rfl, hph⟩⟩
  | get n c hc hph v hv => exact .inl hp

theorem Inv2.step {tr : List (Event Q P)} {s s' : Client Q P} (hi : Inv tr s)
    (h : Inv2 tr s) {e : Event Q P} (hs : Step s e s')
    (hi' : Inv (tr ++ [e]) s') : Inv2 (tr ++ [e]) s' := by
  have hsmall : Small s' → Small s := fun hb => Nat.le_trans hs.length_le hb
  refine ⟨?_, ?_, ?_, ?_, ?_, ?_, ?_, ?_⟩
  · -- unreg
    intro n hn hmem
    rcases mem_snoc hmem with hmem | rfl
    · exact h.unreg n (fun hb => hn (begun_step hs hb)) hmem
    · apply hn
      cases hs with
      | register _ c hc hp =>
        unfold begun
        simp only
        rw [setPhase_calls, if_pos rfl, hc]
        exact ⟨_, rfl, by simp⟩
  · -- unsent
    intro n hn hmem
    rcases mem_snoc hmem with hmem | he
    · refine h.unsent n ?_ hmem
      intro c hc
      obtain ⟨d, hd, _⟩ := hs.sameIds n c hc
      have hun := hn d hd
      by_cases hm : e.moves = some n
      · obtain ⟨x, h1, _, _, _, hcase⟩ := hs.phase hm hd
        rw [hc] at h1
        cases h1
        rcases hcase with ⟨_, h2, _⟩ | ⟨_, h2, _⟩ | ⟨_, h2, _⟩ | ⟨_, h2, _⟩ |
          ⟨_, _, _, h3⟩ | ⟨_, _, h3⟩ | ⟨_, _, v, _, h3⟩
        · rw [h2]; rfl
        · rw [h2]; rfl
        · rw [h2]; rfl
        · rw [h2]; rfl
        · rw [h3] at hun; cases hun
        · rw [h3] at hun; cases hun
        · rw [h3] at hun; cases hun
      · rcases hs.back hd with ⟨x, h1, _, _, _, h5, _⟩ | ⟨h1, _⟩
        · rw [hc] at h1
          cases h1
          rw [← h5 hm]
          exact hun
        · subst h1
          rw [List.getElem?_eq_none (Nat.le_refl _)] at hc
          cases hc
    · subst he
      cases hs with
      | send _ c hc hp q hq =>
        have hd : (s.setPhase n q).calls[n]? = some { c with phase := q } := by
          rw [setPhase_calls, if_pos rfl, hc]
          rfl
        have hun := hn _ hd
        rcases hq with rfl | rfl <;> cases hun
  · -- stale
    intro p hp a b htr v hv
    rcases split_snoc htr with ⟨_, rfl, _⟩ | ⟨b', rfl, htr'⟩
    · cases hv
    · rcases hs.pending hp with ⟨hp', hne⟩ | he
      · rcases mem_snoc hv with hv | hv
        · exact h.stale p hp' a b' htr' v hv
        · exact hne v hv.symm
      · subst he
        -- registered before, although it is being registered now
        cases hs with
        | register _ c hc hph =>
          refine h.unreg p.2 ?_ (by rw [htr']; simp)
          rintro ⟨x, h1, h2⟩
          rw [hc] at h1
          cases h1
          exact h2 hph
  · -- sf
    intro n d hd
    rcases hs.back hd with ⟨x, h1, h2, h3, _, h5, _⟩ | ⟨h1, kind, req, rfl, rfl⟩
    · obtain ⟨g1, g2, g3⟩ := h.sf n x h1
      by_cases hm : e.moves = some n
      · obtain ⟨y, k1, _, k3, _, hcase⟩ := hs.phase hm hd
        rw [h1] at k1
        cases k1
        refine ⟨?_, ?_, ?_⟩
        · intro hp
          rcases hcase with ⟨_, _, h9⟩ | ⟨_, _, h9⟩ | ⟨rfl, _, _⟩ | ⟨_, _, h9⟩ |
            ⟨_, _, _, h9⟩ | ⟨_, _, h9⟩ | ⟨_, _, v, _, h9⟩
          · rw [hp] at h9; cases h9
          · rcases h9 with h9 | h9 <;> (rw [hp] at h9; cases h9)
          · simp
          · rcases h9 with h9 | h9 <;> (rw [hp] at h9; cases h9)
          · rw [hp] at h9; cases h9
          · rw [hp] at h9; cases h9
          · rw [hp] at h9; cases h9
        · intro hp
          rcases hcase with ⟨_, _, h9⟩ | ⟨_, _, h9⟩ | ⟨_, _, h9⟩ | ⟨_, _, h9⟩ |
            ⟨rfl, _, _, _⟩ | ⟨_, _, h9⟩ | ⟨_, _, v, _, h9⟩
          · rw [hp] at h9; cases h9
          · rcases h9 with h9 | h9 <;> (rw [hp] at h9; cases h9)
          · rw [hp] at h9; cases h9
          · rcases h9 with h9 | h9 <;> (rw [hp] at h9; cases h9)
          · simp
          · rw [hp] at h9; cases h9
          · rw [hp] at h9; cases h9
        · intro ht
          rw [h3]
          rcases mem_snoc ht with ht | ht
          · exact g3 ht
          · subst ht
            rcases hcase with ⟨h9, _⟩ | ⟨h9, _⟩ | ⟨h9, _⟩ | ⟨h9, _⟩ |
              ⟨_, _, h9, _⟩ | ⟨h9, _⟩ | ⟨h9, _⟩
            · cases h9
            · cases h9
            · cases h9
            · cases h9
            · exact h9
            · cases h9
            · cases h9
      · have hph := h5 hm
        refine ⟨?_, ?_, ?_⟩
        · intro hp
          exact List.mem_append_left _ (g1 (hph ▸ hp))
        · intro hp
          exact List.mem_append_left _ (g2 (hph ▸ hp))
        · intro ht
          rw [h3]
          rcases mem_snoc ht with ht | ht
          · exact g3 ht
          · subst ht
            exact absurd rfl hm
    · refine ⟨?_, ?_, ?_⟩
      · intro hp; cases hp
      · intro hp; cases hp
      · intro ht
        rcases mem_snoc ht with ht | ht
        · exact absurd ht (h.far n (List.getElem?_eq_none (by omega)))
        · cases ht
  · -- far
    intro n hn ht
    rcases mem_snoc ht with ht | ht
    · refine h.far n ?_ ht
      cases hx : s.calls[n]? with
      | none => rfl
      | some c =>
        obtain ⟨d, hd, _⟩ := hs.sameIds n c hx
        rw [hn] at hd
        cases hd
    · subst ht
      cases hs with
      | timeout _ c hc hp hk =>
        obtain ⟨d, hd, _⟩ := SameIds.setPhase s n .timedOut n c hc
        rw [hn] at hd
        cases hd
  · -- pend
    intro hb n d hd hlive a b htr hnr
    have hb0 := hsmall hb
    rcases hs.back hd with ⟨x, h1, h2, h3, _, h5, _⟩ | ⟨h1, kind, req, rfl, rfl⟩
    · by_cases hm : e.moves = some n
      · obtain ⟨y, k1, k2, _, _, hcase⟩ := hs.phase hm hd
        rw [h1] at k1
        cases k1
        by_cases hreg : e = .register n
        · subst hreg
          cases hs with
          | register _ c hc hph =>
            rw [h1] at hc
            cases hc
            rw [k2]
            simp [insert]
        · have hxl : x.phase.live = true ∧ ∀ k, e ≠ .failed k ∧ e ≠ .expire k := by
            rcases hcase with ⟨h9, _⟩ | ⟨rfl, h9, _⟩ | ⟨rfl, h9, _⟩ | ⟨_, _, h9⟩ |
              ⟨rfl, h9, _, _⟩ | ⟨_, _, h9⟩ | ⟨_, _, v, _, h9⟩
            · exact absurd h9 hreg
            · rw [h9]; exact ⟨rfl, by simp⟩
            · rw [h9]; exact ⟨rfl, by simp⟩
            · rcases h9 with h9 | h9 <;> (rw [h9] at hlive; cases hlive)
            · rw [h9]; exact ⟨rfl, by simp⟩
            · rw [h9] at hlive; cases hlive
            · rw [h9] at hlive; cases hlive
          rcases split_snoc htr with ⟨h9, _, _⟩ | ⟨b', rfl, htr'⟩
          · exact absurd h9.symm hreg
          · have hold := h.pend hb0 n x h1 hxl.1 a b' htr' fun v hv =>
              hnr v (by rw [h2]; exact List.mem_append_left _ hv)
            rw [h2]
            cases hs with
            | start kind req => exact hold
            | register m c hc hph => cases hm; exact absurd rfl hreg
            | send m c hc hph q hq => exact hold
            | sendNot m c hc hph => exact hold
            | failedSync m c hc hph => exact absurd rfl (hxl.2 m).1
            | failedAsync m c hc hph => exact absurd rfl (hxl.2 m).1
            | reply id q => cases hm
            | drop k m hk => exact hold
            | callback k m q hk => exact hold
            | promise k m v hk c hc hpr => exact hold
            | timeout m c hc hph hk => exact hold
            | expire m c hc hph => exact absurd rfl (hxl.2 m).2
            | get m c hc hph v hv => exact hold
      · rw [h5 hm] at hlive
        rcases split_snoc htr with ⟨h9, _, _⟩ | ⟨b', rfl, htr'⟩
        · subst h9
          exact absurd rfl hm
        · have hold := h.pend hb0 n x h1 hlive a b' htr' fun v hv =>
            hnr v (by rw [h2]; exact List.mem_append_left _ hv)
          rw [h2]
          refine hs.stays hold ?_ ?_
          · intro v hv
            subst hv
            exact hnr v (by rw [h2]; simp)
          · intro m c hmm hc he
            have := hi.uniq hb0 hc h1 he
            subst this
            exact hm hmm
    · cases hlive
  · -- nones
    intro hb n hn
    have hb0 := hsmall hb
    have lift : (.send n false ∈ tr ∨ .timeout n ∈ tr) →
        (.send n false ∈ tr ++ [e] ∨ .timeout n ∈ tr ++ [e]) :=
      Or.imp (List.mem_append_left _) (List.mem_append_left _)
    rcases hn with hn | ⟨d, hd, hpr⟩
    · rcases hs.holds hn with h1 | ⟨m, c, hc, hp, hcase⟩
      · exact lift (h.nones hb0 n (.inl h1))
      · obtain ⟨x, g1, g2, _⟩ := hi.keys _ hp
        have := hi.uniq hb0 g1 hc g2
        simp only at this
        subst this
        obtain ⟨k1, k2, _⟩ := h.sf n c hc
        rcases hcase with ⟨_, h9⟩ | ⟨_, h9⟩
        · exact lift (.inl (k1 h9))
        · exact lift (.inr (k2 h9))
    · rcases hs.back hd with ⟨x, h1, _, _, _, _, h6⟩ | ⟨_, kind, req, _, rfl⟩
      · rcases h6 with h6 | ⟨k, v, _, hk, hv⟩
        · rw [hpr] at h6
          exact lift (h.nones hb0 n (.inr ⟨x, h1, h6.symm⟩))
        · rw [hpr] at hv
          cases hv
          exact lift (h.nones hb0 n (.inl (List.mem_of_getElem? hk)))
      · cases hpr
  · -- rets
    intro hb n d r hd hph
    have hb0 := hsmall hb
    have lift : ∀ {i : Nat}, (.send n false ∈ tr ∨ .timeout n ∈ tr ∨ ∃ v, .reply i v ∈ tr) →
        (.send n false ∈ tr ++ [e] ∨ .timeout n ∈ tr ++ [e] ∨
          ∃ v, .reply i v ∈ tr ++ [e]) :=
      Or.imp (List.mem_append_left _) (Or.imp (List.mem_append_left _)
        fun ⟨v, hv⟩ => ⟨v, List.mem_append_left _ hv⟩)
    rcases hs.back hd with ⟨x, h1, h2, h3, _, h5, _⟩ | ⟨h1, kind, req, rfl, rfl⟩
    · by_cases hm : e.moves = some n
      · obtain ⟨y, k1, k2, _, _, hcase⟩ := hs.phase hm hd
        rw [h1] at k1
        cases k1
        obtain ⟨g1, g2, _⟩ := h.sf n x h1
        rcases hcase with ⟨_, _, h9⟩ | ⟨_, _, h9⟩ | ⟨_, _, h9⟩ | ⟨_, h9, _⟩ |
          ⟨_, _, _, h9⟩ | ⟨_, h9, _⟩ | ⟨_, _, v, h8, _⟩
        · rw [hph] at h9; cases h9
        · rcases h9 with h9 | h9 <;> (rw [hph] at h9; cases h9)
        · rw [hph] at h9; cases h9
        · exact .inl (List.mem_append_left _ (g1 h9))
        · rw [hph] at h9; cases h9
        · exact .inr (.inl (List.mem_append_left _ (g2 h9)))
        · cases v with
          | none =>
            rcases h.nones hb0 n (.inr ⟨x, h1, h8⟩) with h7 | h7
            · exact .inl (List.mem_append_left _ h7)
            · exact .inr (.inl (List.mem_append_left _ h7))
          | some v =>
            obtain ⟨a, b, c, q1, q2, _⟩ := hi.prom n x v h1 h8
            rw [h1] at q1
            cases q1
            refine .inr (.inr ⟨v, List.mem_append_left _ ?_⟩)
            rw [h2, q2]
            simp
      · rw [h5 hm] at hph
        rw [h2]
        exact lift (h.rets hb0 n x r h1 hph)
    · cases hph

theorem Reach.inv2 {tr : List (Event Q P)} {s : Client Q P} (h : Reach tr s) :
    Inv2 tr s := by
  induction h with
  | init =>
    refine ⟨?_, ?_, ?_, ?_, ?_, ?_, ?_, ?_⟩
    · intro n _ hx; cases hx
    · intro n _ hx; cases hx
    · intro p hp; cases hp
    · intro n c hc; cases hc
    · intro n _ hx; cases hx
    · intro _ n c hc; cases hc
    · intro _ n hn
      rcases hn with hn | ⟨c, hc, _⟩
      · cases hn
      · cases hc
    · intro _ n c r hc; cases hc
  | step e h hs ih => exact ih.step h.inv (step_inv hs) (h.inv.step e hs)

end Verif.Rpc
