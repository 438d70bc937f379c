import Verif.Parsec.Broker

/-!
# The PArSEC broker: histories and invariant
-/
namespace Verif.Parsec.Broker

/-- What happened so far, newest first. -/
abbrev Hist := List (Event × Out)

/-- The transaction and the shard of a request. -/
def Call.ticket : Call → Option (Nat × Tn)
  | .tryLock i t _ _ _ _ => some (i, t)
  | .prepare i t _ _ => some (i, t)
  | .commit i t _ => some (i, t)
  | .rollback i t _ => some (i, t)
  | .finish i t _ => some (i, t)
  | .getTickets _ _ => none

/-- The user is told that `t` is rolled back. -/
def Said.aborts (t : Tn) : Said → Bool
  | .rollback _ x none => x = t
  | _ => false

/-- The events since the user was last told that `t` is rolled back: the
current attempt to execute the transaction. -/
def attempt (t : Tn) (h : Hist) : Hist :=
  h.takeWhile fun x => !x.2.said.any (Said.aborts t)

/-- The request was made in the current attempt. -/
def Asked (t : Tn) (h : Hist) (c : Call) : Prop :=
  ∃ x ∈ attempt t h, c ∈ x.2.calls

/-- Shard `i` was asked for a lock for `t` in the current attempt. -/
def Touched (t : Tn) (h : Hist) (i : Nat) : Prop :=
  ∃ k ty f cb, Asked t h (.tryLock i t k ty f cb)

/-- Shard `i` was asked to prepare `t` in the current attempt. -/
def PrepareAsked (t : Tn) (h : Hist) (i : Nat) : Prop :=
  ∃ u c, Asked t h (.prepare i t u c)

/-- In the current attempt shard `i` was asked to prepare `t` and then answered
this request (which `c` identifies) that it did. -/
def ReportedPrepared (t : Tn) (h : Hist) (i : Nat) : Prop :=
  ∃ post c p o pre, attempt t h = post ++ (.prepared c t i none p, o) :: pre ∧
    ∃ u x, x ∈ pre ∧ Call.prepare i t u c ∈ x.2.calls

/-- In the current attempt shard `i` was asked to commit `t` and then answered
this request (which `c` identifies) that it did. -/
def ReportedCommitted (t : Tn) (h : Hist) (i : Nat) : Prop :=
  ∃ post c p o pre, attempt t h = post ++ (.committed c t i none p, o) :: pre ∧
    ∃ x, x ∈ pre ∧ Call.commit i t c ∈ x.2.calls

/-- Some shard was ever asked to commit `t`. -/
def CommitAsked (t : Tn) (h : Hist) : Prop :=
  ∃ x ∈ h, ∃ i c, Call.commit i t c ∈ x.2.calls

/-- The ticket machine gave out `t`. -/
def Issued (t : Tn) (h : Hist) : Prop :=
  ∃ x ∈ h, ∃ cb m, x.1 = .ticketNumber cb (some (t, m))

/-- No recovery; the ticket machine gives out new numbers; and shards answer
only requests of the current attempt (requests and answers do not overtake each
other). -/
def Plain (h : Hist) : Event → Prop
  | .ticketNumber _ (some (t, _)) => ¬Issued t h
  | .locked cb t k i _ => ∃ ty f, Asked t h (.tryLock i t k ty f cb)
  | .prepared c t i _ _ => c.recovery = false ∧ ∃ u, Asked t h (.prepare i t u c)
  | .committed c t i _ _ => c.recovery = false ∧ Asked t h (.commit i t c)
  | .rolledBack c t i _ _ => c.recovery = false ∧ Asked t h (.rollback i t c)
  | .finished c t i _ => c.recovery = false ∧ Asked t h (.finish i t c)
  | .recover _ => False
  | .gotTickets _ _ _ _ => False
  | _ => True

/-- Runs of a broker with `n` shards. -/
inductive Run (n : Nat) : Hist → State → Prop
  | start : Run n [] { shards := n }
  | step {h : Hist} {s s' : State} {e : Event} {o : Out} (hr : Run n h s)
      (hp : Plain h e) (hs : step s e = some (s', o)) : Run n ((e, o) :: h) s'

/-! ### Maps -/

theorem lookup_filter_ne' {β : Type} (l : List (Nat × β)) (t x : Nat) :
    (l.filter fun p => p.1 ≠ t).lookup x =
      if x = t then none else l.lookup x := by
  induction l with
  | nil => simp
  | cons p l ih =>
    obtain ⟨a, b⟩ := p
    by_cases ha : a = t
    · rw [List.filter_cons_of_neg (by simp [ha]), ih]
      by_cases hx : x = t
      · simp [hx]
      · have : (x == a) = false := by simpa [ha] using hx
        simp [hx, List.lookup_cons, this]
    · rw [List.filter_cons_of_pos (by simpa using ha), List.lookup_cons, ih,
        List.lookup_cons]
      by_cases hxa : x = a
      · simp [hxa, ha]
      · have : (x == a) = false := by simpa using hxa
        simp [this]

theorem lookup_set (s : State) (t : Tn) (tk : Ticket) (x : Tn) :
    (s.set t tk).tickets.lookup x =
      if x = t then some tk else s.tickets.lookup x := by
  unfold State.set
  simp only [List.lookup_cons]
  by_cases hx : x = t
  · simp [hx]
  · have : (x == t) = false := by simpa using hx
    rw [this, lookup_filter_ne', if_neg hx, if_neg hx]

theorem lookup_erase (s : State) (t x : Tn) :
    (s.erase t).tickets.lookup x =
      if x = t then none else s.tickets.lookup x := by
  unfold State.erase
  exact lookup_filter_ne' _ _ _

/-- The shards that have an element. -/
def has (l : List (Nat × Sh)) (i : Nat) : Prop := ∃ e ∈ l, e.1 = i

theorem has_iff (l : List (Nat × Sh)) (i : Nat) :
    has l i ↔ (l.lookup i).isSome := by
  induction l with
  | nil => simp [has]
  | cons e l ih =>
    obtain ⟨a, b⟩ := e
    rw [List.lookup_cons]
    by_cases ha : i = a
    · simp [has, ha]
    · have hb : (i == a) = false := by simpa using ha
      rw [hb]
      simp only [has] at ih ⊢
      rw [← ih]
      constructor
      · rintro ⟨e, he, hi⟩
        rcases List.mem_cons.mp he with rfl | he
        · exact absurd hi.symm ha
        · exact ⟨e, he, hi⟩
      · rintro ⟨e, he, hi⟩
        exact ⟨e, List.mem_cons_of_mem _ he, hi⟩

theorem touch_of_has {l : List (Nat × Sh)} {i : Nat} (h : has l i) :
    touch l i = l := by
  unfold touch
  rw [if_pos ((has_iff _ _).mp h)]

theorem mem_touch {l : List (Nat × Sh)} {i : Nat} {e : Nat × Sh}
    (h : e ∈ touch l i) : e ∈ l ∨ e = (i, { state := .begun }) := by
  unfold touch at h
  split at h
  · exact .inl h
  · simpa using h

theorem has_touch {l : List (Nat × Sh)} {i j : Nat} (h : has l j) :
    has (touch l i) j := by
  obtain ⟨e, he, hj⟩ := h
  refine ⟨e, ?_, hj⟩
  unfold touch
  split
  · exact he
  · exact List.mem_append_left _ he

theorem has_touch_self (l : List (Nat × Sh)) (i : Nat) : has (touch l i) i := by
  unfold touch
  split
  · rename_i h
    exact (has_iff _ _).mpr h
  · exact ⟨_, List.mem_append_right _ (List.mem_singleton.mpr rfl), rfl⟩

theorem has_update {l : List (Nat × Sh)} {i j : Nat} {f : Sh → Sh} :
    has (update l i f) j ↔ has l j := by
  unfold update has
  constructor
  · rintro ⟨e, he, hj⟩
    obtain ⟨a, ha, rfl⟩ := List.mem_map.mp he
    refine ⟨a, ha, ?_⟩
    split at hj <;> exact hj
  · rintro ⟨e, he, hj⟩
    refine ⟨_, List.mem_map.mpr ⟨e, he, rfl⟩, ?_⟩
    split <;> exact hj

theorem mem_update {l : List (Nat × Sh)} {i : Nat} {f : Sh → Sh}
    {e : Nat × Sh} (h : e ∈ update l i f) :
    (e.1 ≠ i ∧ e ∈ l) ∨ (e.1 = i ∧ ∃ sh, (i, sh) ∈ l ∧ e.2 = f sh) := by
  obtain ⟨a, ha, rfl⟩ := List.mem_map.mp h
  by_cases hi : a.1 = i
  · simp only [if_pos hi]
    exact .inr ⟨hi, a.2, by rw [← hi]; exact ha, rfl⟩
  · simp only [if_neg hi]
    exact .inl ⟨hi, ha⟩

theorem has_mark {l : List (Nat × Sh)} {skip : SState → Bool} {x : SState}
    {p : Option Stop} {j : Nat} : has (mark l skip x p) j ↔ has l j := by
  unfold mark has
  constructor
  · rintro ⟨e, he, hj⟩
    obtain ⟨a, ha, rfl⟩ := List.mem_map.mp he
    refine ⟨a, ha, ?_⟩
    split at hj <;> exact hj
  · rintro ⟨e, he, hj⟩
    refine ⟨_, List.mem_map.mpr ⟨e, he, rfl⟩, ?_⟩
    split <;> exact hj

theorem mem_mark {l : List (Nat × Sh)} {skip : SState → Bool} {x : SState}
    {p : Option Stop} {e : Nat × Sh} (h : e ∈ mark l skip x p) :
    e ∈ l ∨ ∃ sh, (e.1, sh) ∈ l ∧ skip sh.state = false ∧
      visited p e.1 = true ∧ e.2 = { sh with state := x } := by
  obtain ⟨a, ha, rfl⟩ := List.mem_map.mp h
  split
  · rename_i hc
    simp only [Bool.and_eq_true, Bool.not_eq_true'] at hc
    exact .inr ⟨a.2, ha, hc.1, hc.2, rfl⟩
  · exact .inl ha

/-- Elements have different indexes. -/
def Keyed (l : List (Nat × Sh)) : Prop := (l.map (·.1)).Nodup

theorem Keyed.touch {l : List (Nat × Sh)} (h : Keyed l) (i : Nat) :
    Keyed (touch l i) := by
  unfold Broker.touch
  split
  · exact h
  · rename_i hn
    unfold Keyed
    rw [List.map_append, List.nodup_append]
    refine ⟨h, by simp, ?_⟩
    intro a ha b hb hab
    simp only [List.map_cons, List.map_nil, List.mem_singleton] at hb
    obtain ⟨e, he, hea⟩ := List.mem_map.mp ha
    exact hn ((has_iff _ _).mp ⟨e, he, by rw [hea, hab, hb]⟩)

theorem Keyed.map {l : List (Nat × Sh)} (h : Keyed l)
    {f : Nat × Sh → Nat × Sh} (hf : ∀ e, (f e).1 = e.1) : Keyed (l.map f) := by
  unfold Keyed at *
  rw [List.map_map]
  have : ((fun e : Nat × Sh => e.1) ∘ f) = fun e => e.1 := by
    funext e
    exact hf e
  rw [this]
  exact h

theorem Keyed.update {l : List (Nat × Sh)} (h : Keyed l) (i : Nat)
    (f : Sh → Sh) : Keyed (update l i f) := by
  refine h.map ?_
  intro e
  split <;> rfl

theorem Keyed.setState {l : List (Nat × Sh)} (h : Keyed l) (i : Nat)
    (x : SState) : Keyed (setState l i x) :=
  h.update i _

theorem has_setState {l : List (Nat × Sh)} {i j : Nat} {x : SState} :
    has (setState l i x) j ↔ has l j :=
  has_update

theorem Keyed.mark {l : List (Nat × Sh)} (h : Keyed l) (skip : SState → Bool)
    (x : SState) (p : Option Stop) : Keyed (mark l skip x p) := by
  refine h.map ?_
  intro e
  split <;> rfl

theorem Keyed.stateOf {l : List (Nat × Sh)} (h : Keyed l) {i : Nat} {sh : Sh}
    (hm : (i, sh) ∈ l) : stateOf l i = sh.state := by
  unfold Broker.stateOf
  suffices hl : l.lookup i = some sh by rw [hl]; rfl
  induction l with
  | nil => simp at hm
  | cons e l ih =>
    unfold Keyed at h
    rw [List.map_cons, List.nodup_cons] at h
    obtain ⟨a, b⟩ := e
    rw [List.lookup_cons]
    rcases List.mem_cons.mp hm with heq | hm'
    · simp only [Prod.mk.injEq] at heq
      rw [heq.1, heq.2]
      simp
    · have hne : (i == a) = false := by
        simp only [beq_eq_false_iff_ne, ne_eq]
        intro hia
        exact h.1 (List.mem_map.mpr ⟨(i, sh), hm', by simpa using hia⟩)
      rw [hne]
      exact ih h.2 hm'

/-! ### Histories -/

theorem attempt_cons {t : Tn} {h : Hist} {x : Event × Out}
    (hx : x.2.said.any (Said.aborts t) = false) :
    attempt t (x :: h) = x :: attempt t h := by
  unfold attempt
  rw [List.takeWhile_cons_of_pos (by simp [hx])]

theorem attempt_end {t : Tn} {h : Hist} {x : Event × Out}
    (hx : x.2.said.any (Said.aborts t) = true) : attempt t (x :: h) = [] := by
  unfold attempt
  rw [List.takeWhile_cons_of_neg (by simp [hx])]

theorem Asked.mono {t : Tn} {h : Hist} {x : Event × Out}
    (hx : x.2.said.any (Said.aborts t) = false) {c : Call} (ha : Asked t h c) :
    Asked t (x :: h) c := by
  obtain ⟨y, hy, hc⟩ := ha
  refine ⟨y, ?_, hc⟩
  rw [attempt_cons hx]
  exact List.mem_cons_of_mem _ hy

theorem Asked.new {t : Tn} {h : Hist} {x : Event × Out}
    (hx : x.2.said.any (Said.aborts t) = false) {c : Call}
    (hc : c ∈ x.2.calls) : Asked t (x :: h) c := by
  refine ⟨x, ?_, hc⟩
  rw [attempt_cons hx]
  exact List.mem_cons_self

theorem Asked.cases {t : Tn} {h : Hist} {x : Event × Out} {c : Call}
    (ha : Asked t (x :: h) c) : c ∈ x.2.calls ∨ Asked t h c := by
  obtain ⟨y, hy, hc⟩ := ha
  cases hx : x.2.said.any (Said.aborts t) with
  | true =>
    rw [attempt_end hx] at hy
    simp at hy
  | false =>
    rw [attempt_cons hx] at hy
    rcases List.mem_cons.mp hy with rfl | hy
    · exact .inl hc
    · exact .inr ⟨y, hy, hc⟩

theorem ReportedPrepared.mono {t : Tn} {h : Hist} {x : Event × Out}
    (hx : x.2.said.any (Said.aborts t) = false) {i : Nat}
    (ha : ReportedPrepared t h i) : ReportedPrepared t (x :: h) i := by
  obtain ⟨post, c, p, o, pre, h1, h2⟩ := ha
  exact ⟨x :: post, c, p, o, pre, by rw [attempt_cons hx, h1]; rfl, h2⟩

theorem ReportedCommitted.mono {t : Tn} {h : Hist} {x : Event × Out}
    (hx : x.2.said.any (Said.aborts t) = false) {i : Nat}
    (ha : ReportedCommitted t h i) : ReportedCommitted t (x :: h) i := by
  obtain ⟨post, c, p, o, pre, h1, h2⟩ := ha
  exact ⟨x :: post, c, p, o, pre, by rw [attempt_cons hx, h1]; rfl, h2⟩

theorem attempt_subset {t : Tn} {h : Hist} {x : Event × Out}
    (hx : x ∈ attempt t h) : x ∈ h :=
  (List.takeWhile_sublist _).subset hx

/-! ### The invariant -/

/-- What is known about a ticket. -/
structure TInv (t : Tn) (h : Hist) (tk : Ticket) : Prop where
  keyed : Keyed tk.shards
  /-- Nobody was asked to commit before the ticket was prepared. -/
  fresh : tk.state = .begun ∨ tk.state = .aborted → ¬CommitAsked t h
  /-- After a rollback nothing was asked. -/
  quiet : tk.state = .aborted → ∀ c, Asked t h c → c.ticket = none ∨
    ∃ i x, c.ticket = some (i, x) ∧ x ≠ t
  /-- Whoever was asked something has an element. -/
  known : ∀ c i, Asked t h c → c.ticket = some (i, t) → has tk.shards i
  prepared : ∀ e ∈ tk.shards, e.2.state = .prepared → ReportedPrepared t h e.1
  committed : ∀ e ∈ tk.shards, e.2.state = .committed →
    ReportedCommitted t h e.1
  decided : tk.state = .prepared ∨ tk.state = .committed →
    ∀ e ∈ tk.shards, ReportedPrepared t h e.1
  done : tk.state = .committed → ∀ e ∈ tk.shards, ReportedCommitted t h e.1

/-- What is known about the broker. -/
structure Inv (h : Hist) (s : State) : Prop where
  issued : ∀ t tk, s.tickets.lookup t = some tk → Issued t h
  called : ∀ x ∈ h, ∀ c ∈ x.2.calls, ∀ i t, c.ticket = some (i, t) → Issued t h
  ticket : ∀ t tk, s.tickets.lookup t = some tk → TInv t h tk

/-! ### Steps -/

/-- A request of `t` to shard `i`. -/
def Call.isFor (t : Tn) (i : Nat) (c : Call) : Prop := c.ticket = some (i, t)

/-- An event after which `t` is not rolled back. -/
theorem TInv.step {t : Tn} {h : Hist} {tk : Ticket} (inv : TInv t h tk)
    {st : TState} {l : List (Nat × Sh)}
    {x : Event × Out} (hx : x.2.said.any (Said.aborts t) = false)
    (hk : Keyed l)
    (hf : st = .begun ∨ st = .aborted →
      (tk.state = .begun ∨ tk.state = .aborted) ∧
        ∀ i c, Call.commit i t c ∉ x.2.calls)
    (hq : st = .aborted → tk.state = .aborted ∧
      ∀ c ∈ x.2.calls, ∀ i, c.ticket ≠ some (i, t))
    (hh : ∀ i, has tk.shards i → has l i ∨ tk.state = .aborted)
    (hn : ∀ c ∈ x.2.calls, ∀ i, c.ticket = some (i, t) → has l i)
    (hp : ∀ e ∈ l, e.2.state = .prepared →
      ReportedPrepared t (x :: h) e.1)
    (hc : ∀ e ∈ l, e.2.state = .committed →
      ReportedCommitted t (x :: h) e.1)
    (hd : st = .prepared ∨ st = .committed →
      ∀ e ∈ l, ReportedPrepared t (x :: h) e.1)
    (hdone : st = .committed →
      ∀ e ∈ l, ReportedCommitted t (x :: h) e.1) :
    TInv t (x :: h) ⟨st, l⟩ where
  keyed := hk
  fresh := by
    rintro hs ⟨y, hy, i, c, hic⟩
    obtain ⟨h1, h2⟩ := hf hs
    rcases List.mem_cons.mp hy with rfl | hy
    · exact h2 i c hic
    · exact inv.fresh h1 ⟨y, hy, i, c, hic⟩
  quiet := by
    intro hs c ha
    obtain ⟨h1, h2⟩ := hq hs
    rcases ha.cases with ha | ha
    · cases hct : c.ticket with
      | none => exact .inl rfl
      | some q =>
        refine .inr ⟨q.1, q.2, rfl, ?_⟩
        intro hqt
        exact h2 c ha q.1 (by rw [hct, ← hqt])
    · exact inv.quiet h1 c ha
  known := by
    intro c i ha hct
    rcases ha.cases with ha | ha
    · exact hn c ha i hct
    · rcases hh i (inv.known c i ha hct) with h1 | h1
      · exact h1
      · rcases inv.quiet h1 c ha with h2 | ⟨j, y, h2, h3⟩
        · rw [hct] at h2
          simp at h2
        · rw [hct] at h2
          simp only [Option.some.injEq, Prod.mk.injEq] at h2
          exact absurd h2.2.symm h3
  prepared := hp
  committed := hc
  decided := hd
  done := hdone

/-- An event that makes no request for `t` and does not change its ticket. -/
theorem TInv.same {t : Tn} {h : Hist} {tk : Ticket} (inv : TInv t h tk)
    {x : Event × Out} (hx : x.2.said.any (Said.aborts t) = false)
    (hn : ∀ c ∈ x.2.calls, ∀ i, c.ticket ≠ some (i, t)) :
    TInv t (x :: h) tk := by
  refine inv.step hx inv.keyed ?_ ?_ (fun _ hi => .inl hi) ?_ ?_ ?_ ?_ ?_
  · exact fun hs => ⟨hs, fun i c hc => hn _ hc i rfl⟩
  · exact fun hs => ⟨hs, hn⟩
  · exact fun c hc i hi => absurd hi (hn c hc i)
  · exact fun e he hs => (inv.prepared e he hs).mono hx
  · exact fun e he hs => (inv.committed e he hs).mono hx
  · exact fun hs e he => (inv.decided hs e he).mono hx
  · exact fun hs e he => (inv.done hs e he).mono hx

/-- `t` has been rolled back. -/
theorem TInv.aborted {t : Tn} {h : Hist} {tk : Ticket} (inv : TInv t h tk)
    {l : List (Nat × Sh)}
    {x : Event × Out} (hx : x.2.said.any (Said.aborts t) = true)
    (hk : Keyed l) (hs : tk.state = .begun)
    (hn : ∀ c ∈ x.2.calls, ∀ i, c.ticket ≠ some (i, t))
    (he : ∀ e ∈ l, e.2.state = .rolledBack) :
    TInv t (x :: h) ⟨.aborted, l⟩ where
  keyed := hk
  fresh := by
    rintro _ ⟨y, hy, i, c, hc⟩
    rcases List.mem_cons.mp hy with rfl | hy
    · exact hn _ hc i rfl
    · exact inv.fresh (.inl hs) ⟨y, hy, i, c, hc⟩
  quiet := by
    rintro _ c ⟨y, hy, _⟩
    rw [attempt_end hx] at hy
    simp at hy
  known := by
    rintro c i ⟨y, hy, _⟩
    rw [attempt_end hx] at hy
    simp at hy
  prepared := by
    intro e h1 h2
    rw [he e h1] at h2
    simp at h2
  committed := by
    intro e h1 h2
    rw [he e h1] at h2
    simp at h2
  decided := by simp
  done := by simp

/-- A new ticket. -/
theorem TInv.init {t : Tn} {h : Hist} {x : Event × Out}
    (hn : ∀ c ∈ x.2.calls, ∀ i, c.ticket ≠ some (i, t))
    (ho : ∀ y ∈ h, ∀ c ∈ y.2.calls, ∀ i, c.ticket ≠ some (i, t)) :
    TInv t (x :: h) {} where
  keyed := by simp [Keyed]
  fresh := by
    rintro _ ⟨y, hy, i, c, hc⟩
    rcases List.mem_cons.mp hy with rfl | hy
    · exact hn _ hc i rfl
    · exact ho y hy _ hc i rfl
  quiet := by simp
  known := by
    rintro c i ⟨y, hy, hc⟩ hct
    rcases List.mem_cons.mp (attempt_subset hy) with rfl | hy
    · exact absurd hct (hn _ hc i)
    · exact absurd hct (ho y hy _ hc i)
  prepared := by simp
  committed := by simp
  decided := by simp
  done := by simp

/-- The transaction of an event. -/
def Event.ticket : Event → Option Tn
  | .ticketNumber _ (some (t, _)) => some t
  | .ticketNumber _ none => none
  | .tryLock _ t _ => some t
  | .foundKey _ t _ _ _ _ => some t
  | .locked _ t _ _ _ => some t
  | .commit _ t _ _ => some t
  | .prepared _ t _ _ _ => some t
  | .committed _ t _ _ _ => some t
  | .rollback _ t _ => some t
  | .rolledBack _ t _ _ _ => some t
  | .finish _ t _ => some t
  | .finished _ t _ _ => some t
  | .recover _ => none
  | .gotTickets _ _ _ _ => none

/-- How an event of `t` relates the tickets before and after: the others are
unchanged, requests and rollbacks concern `t`, and `t`'s invariant is kept. -/
structure Good (h : Hist) (s : State) (e : Event) (t : Tn) (r : State × Out) :
    Prop where
  other : ∀ x, x ≠ t → r.1.tickets.lookup x = s.tickets.lookup x
  calls : ∀ c ∈ r.2.calls, ∃ i, c.ticket = some (i, t)
  said : ∀ x, x ≠ t → r.2.said.any (Said.aborts x) = false
  known : (s.tickets.lookup t).isSome ∨ (r.2.calls = [] ∧
    ∀ tk, r.1.tickets.lookup t = some tk →
      e.ticket = some t ∧ ∃ cb m, e = .ticketNumber cb (some (t, m)))
  own : ∀ tk, r.1.tickets.lookup t = some tk → TInv t ((e, r.2) :: h) tk

/-- Nothing but callbacks, none of which reports a rollback. -/
theorem Good.same {h : Hist} {s : State} (inv : Inv h s) {e : Event} {t : Tn}
    {o : Out} (hc : o.calls = []) (hs : ∀ x, o.said.any (Said.aborts x) = false) :
    Good h s e t (s, o) where
  other := fun _ _ => rfl
  calls := by simp [hc]
  said := fun x _ => hs x
  known := by
    cases hl : s.tickets.lookup t with
    | none => exact .inr ⟨hc, fun tk htk => by simp at htk⟩
    | some tk => exact .inl rfl
  own := by
    intro tk htk
    exact (inv.ticket t tk htk).same (hs t) (by simp [hc])

/-- The ticket is replaced. -/
theorem Good.set {h : Hist} {s : State} {e : Event} {t : Tn} {tk tk' : Ticket}
    {o : Out} (hl : s.tickets.lookup t = some tk)
    (hc : ∀ c ∈ o.calls, ∃ i, c.ticket = some (i, t))
    (hs : ∀ x, x ≠ t → o.said.any (Said.aborts x) = false)
    (hi : TInv t ((e, o) :: h) tk') : Good h s e t (s.set t tk', o) where
  other := fun x hx => by rw [lookup_set, if_neg hx]
  calls := hc
  said := hs
  known := .inl (by rw [hl]; rfl)
  own := by
    intro tk1 h1
    rw [lookup_set, if_pos rfl] at h1
    rw [← Option.some.inj h1]
    exact hi

/-- The ticket is removed. -/
theorem Good.erase {h : Hist} {s : State} {e : Event} {t : Tn} {tk : Ticket}
    {o : Out} (hl : s.tickets.lookup t = some tk) (hc : o.calls = [])
    (hs : ∀ x, o.said.any (Said.aborts x) = false) :
    Good h s e t (s.erase t, o) where
  other := fun x hx => by rw [lookup_erase, if_neg hx]
  calls := by simp [hc]
  said := fun x _ => hs x
  known := .inl (by rw [hl]; rfl)
  own := by
    intro tk1 h1
    rw [lookup_erase, if_pos rfl] at h1
    simp at h1

end Verif.Parsec.Broker
