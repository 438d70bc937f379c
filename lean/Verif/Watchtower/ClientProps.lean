import Verif.Watchtower.Client
/-!
# C112: the clients of the watchtower
-/
namespace Verif.Watchtower.Client

variable {Q A : Type}

/-! ### Specification -/

/-- All requests are made by one thread. -/
def OneThread (t : Nat) (es : List (Event Q)) : Prop := ∀ t' r, Event.call t' r ∈ es → t' = t

/-- Nothing is lost on the way. -/
def NoLoss (es : List (Event Q)) : Prop := Event.lose ∉ es

/-- The call returned what the watchtower answers to its own request, at a moment between the
call and its end. -/
def Right (w : Tower Q A) (e : Ended Q A) : Prop :=
  ∃ k, e.call.since ≤ k ∧ k ≤ e.at_ ∧
    (e.call.req = .height → e.out = .got (.height (w.height k))) ∧
    ∀ q, e.call.req = .status q → e.out = .got (.status (w.status k q))

/-- No answer arrives. -/
def Silent (es : List (AEvent A)) : Prop := ∀ r, AEvent.arrive r ∉ es

/-! ### Lemmas -/

theorem accept_height (w : Tower Q A) (k : Nat) (r : Req Q) (h : r = .height) :
    accept r (w.answer k r) = .got (.height (w.height k)) := by
  subst h; rfl

theorem accept_status (w : Tower Q A) (k : Nat) (r : Req Q) (q : Q) (h : r = .status q) :
    accept r (w.answer k r) = .got (.status (w.status k q)) := by
  subst h; rfl

/-- Where the only call is. -/
inductive Way (w : Tower Q A) (c : Call Q) (s : State Q A) : Prop where
  | lost (h1 : s.wire = []) (h2 : s.back = []) (h3 : s.queue = [])
  | sent (h1 : s.wire = [c.req]) (h2 : s.back = []) (h3 : s.queue = [])
  | back (k : Nat) (hk : c.since ≤ k ∧ k ≤ s.now) (h1 : s.wire = [])
      (h2 : s.back = [w.answer k c.req]) (h3 : s.queue = [])
  | here (k : Nat) (hk : c.since ≤ k ∧ k ≤ s.now) (h1 : s.wire = []) (h2 : s.back = [])
      (h3 : s.queue = [w.answer k c.req])

/-- What is true if one thread makes all requests. -/
structure Inv (w : Tower Q A) (t : Nat) (s : State Q A) : Prop where
  calls : (s.calls = [] ∧ s.wire = [] ∧ s.back = [] ∧ s.queue = []) ∨
    ∃ c, s.calls = [c] ∧ c.thread = t ∧ c.since ≤ s.now ∧ Way w c s
  ended : ∀ e ∈ s.ended, Right w e

theorem inv_step {w : Tower Q A} {t : Nat} {s s' : State Q A} {e : Event Q} (hs : Inv w t s)
    (ht : ∀ t' r, e = .call t' r → t' = t) (h : step w s e = some s') : Inv w t s' := by
  unfold step at h
  split at h
  · cases h
  cases e with
  | call t' r =>
    simp only at h
    split at h
    · cases h
    next hn =>
    injection h with h; subst h
    obtain rfl := ht t' r rfl
    rcases hs.calls with ⟨h0, h1, h2, h3⟩ | ⟨c, h0, h1, _⟩
    · refine ⟨Or.inr ⟨⟨t', r, s.now⟩, by simp [h0], rfl, Nat.le_refl _, ?_⟩, hs.ended⟩
      cases hc : s.connected
      · exact .lost (by simp [hc, h1]) h2 h3
      · exact .sent (by simp [hc, h1]) h2 h3
    · simp [h0, h1] at hn
  | serve =>
    simp only at h
    split at h
    · cases h
    next r rest hw =>
    injection h with h; subst h
    rcases hs.calls with ⟨h0, h1, h2, h3⟩ | ⟨c, h0, h1, h2, hway⟩
    · simp [h1] at hw
    · refine ⟨Or.inr ⟨c, h0, h1, h2, ?_⟩, hs.ended⟩
      cases hway with
      | lost a b d => simp [a] at hw
      | sent a b d =>
        rw [a] at hw; injection hw with hr hrest
        subst hr; subst hrest
        exact .back s.now ⟨h2, Nat.le_refl _⟩ rfl (by simp [b]) d
      | back k hk a b d => simp [a] at hw
      | here k hk a b d => simp [a] at hw
  | deliver =>
    simp only at h
    split at h
    · cases h
    next a rest hb =>
    injection h with h; subst h
    rcases hs.calls with ⟨h0, h1, h2, h3⟩ | ⟨c, h0, h1, h2, hway⟩
    · simp [h2] at hb
    · refine ⟨Or.inr ⟨c, h0, h1, h2, ?_⟩, hs.ended⟩
      cases hway with
      | lost a b d => simp [b] at hb
      | sent a b d => simp [b] at hb
      | back k hk a b d =>
        rw [b] at hb; injection hb with hr hrest
        subst hr; subst hrest
        exact .here k hk a rfl (by simp [d])
      | here k hk a b d => simp [b] at hb
  | take t' =>
    simp only at h
    split at h
    case h_2 => cases h
    next c' a rest hf hq =>
    injection h with h; subst h
    rcases hs.calls with ⟨h0, h1, h2, h3⟩ | ⟨c, h0, h1, h2, hway⟩
    · simp [h3] at hq
    · rw [h0] at hf
      have hm := List.mem_of_find?_eq_some hf
      have htr := List.find?_some hf
      simp only [List.mem_singleton] at hm
      subst hm
      simp only [beq_iff_eq] at htr
      cases hway with
      | lost a b d => simp [d] at hq
      | sent a b d => simp [d] at hq
      | back k hk a b d => simp [d] at hq
      | here k hk a b d =>
        rw [d] at hq; injection hq with hr hrest
        subst hr; subst hrest
        refine ⟨Or.inl ⟨by simp [h0, htr], a, b, rfl⟩, ?_⟩
        intro e he
        rcases List.mem_cons.mp he with rfl | he
        · exact ⟨k, hk.1, hk.2, accept_height w k _, accept_status w k _⟩
        · exact hs.ended e he
  | lose =>
    injection h with h; subst h
    rcases hs.calls with ⟨h0, h1, h2, h3⟩ | ⟨c, h0, h1, h2, hway⟩
    · exact ⟨Or.inl ⟨h0, rfl, rfl, h3⟩, hs.ended⟩
    · refine ⟨Or.inr ⟨c, h0, h1, h2, ?_⟩, hs.ended⟩
      cases hway with
      | lost a b d => exact .lost rfl rfl d
      | sent a b d => exact .lost rfl rfl d
      | back k hk a b d => exact .lost rfl rfl d
      | here k hk a b d => exact .here k hk rfl rfl d
  | tick =>
    injection h with h; subst h
    rcases hs.calls with h0 | ⟨c, h0, h1, h2, hway⟩
    · exact ⟨Or.inl h0, hs.ended⟩
    · refine ⟨Or.inr ⟨c, h0, h1, Nat.le_succ_of_le h2, ?_⟩, hs.ended⟩
      cases hway with
      | lost a b d => exact .lost a b d
      | sent a b d => exact .sent a b d
      | back k hk a b d => exact .back k ⟨hk.1, Nat.le_succ_of_le hk.2⟩ a b d
      | here k hk a b d => exact .here k ⟨hk.1, Nat.le_succ_of_le hk.2⟩ a b d
  | destroy =>
    have weaken : ∀ s₂ : State Q A, s₂.calls = s.calls → s₂.wire = s.wire → s₂.back = s.back →
        s₂.queue = s.queue → s₂.ended = s.ended → s.calls = [] → Inv w t s₂ := by
      intro s₂ e1 e2 e3 e4 e5 hc
      rcases hs.calls with ⟨h0, h1, h2, h3⟩ | ⟨c, h0, _⟩
      · exact ⟨Or.inl ⟨e1.trans h0, e2.trans h1, e3.trans h2, e4.trans h3⟩,
          by rw [e5]; exact hs.ended⟩
      · rw [hc] at h0; cases h0
    simp only at h
    split at h
    case isFalse => cases h
    next hc =>
    have hc : s.calls = [] := by simpa using hc
    split at h
    · injection h with h; subst h; exact weaken _ rfl rfl rfl rfl rfl hc
    · injection h with h; subst h; exact weaken _ rfl rfl rfl rfl rfl hc

theorem inv_run {w : Tower Q A} {t : Nat} {s s' : State Q A} {es : List (Event Q)}
    (hs : Inv w t s) (ht : OneThread t es) (h : run w s es = some s') : Inv w t s' := by
  induction es generalizing s with
  | nil => simp [run] at h; exact h ▸ hs
  | cons e es ih =>
    simp only [run, Option.bind_eq_some_iff] at h
    obtain ⟨s₁, h1, h2⟩ := h
    exact ih (inv_step hs (fun t' r he => ht t' r (by simp [he])) h1)
      (fun t' r hm => ht t' r (List.mem_cons_of_mem _ hm)) h2

theorem inv_start (w : Tower Q A) (t : Nat) (b : Bool) : Inv w t (start Q A b) :=
  ⟨Or.inl ⟨rfl, rfl, rfl, rfl⟩, by intro e he; cases he⟩

/-- Without losses there is an answer, or a request, for every call. -/
structure Full (s : State Q A) : Prop where
  connected : s.connected = true
  count : s.calls.length = s.wire.length + s.back.length + s.queue.length
  threads : (s.calls.map (·.thread)).Nodup

theorem filter_other {l : List (Call Q)} {t : Nat} {c : Call Q}
    (hn : (l.map (·.thread)).Nodup) (hf : l.find? (·.thread == t) = some c) :
    (l.filter (·.thread != t)).length + 1 = l.length := by
  induction l with
  | nil => simp at hf
  | cons x xs ih =>
    simp only [List.map_cons, List.nodup_cons] at hn
    by_cases e : x.thread = t
    · have : xs.filter (·.thread != t) = xs := by
        rw [List.filter_eq_self]
        intro y hy
        simp only [bne_iff_ne, ne_eq]
        intro hc
        exact hn.1 (List.mem_map.mpr ⟨y, hy, by rw [hc, e]⟩)
      simp [e, this]
    · simp [e] at hf
      have := ih hn.2 hf
      simp [e]; omega

theorem full_step {w : Tower Q A} {s s' : State Q A} {e : Event Q} (hs : Full s)
    (hl : e ≠ .lose) (h : step w s e = some s') : Full s' := by
  obtain ⟨hc, hn, ht⟩ := hs
  unfold step at h
  split at h
  · cases h
  cases e with
  | call t r =>
    simp only at h
    split at h
    · cases h
    next hx =>
    injection h with h; subst h
    refine ⟨hc, by simp [hc]; omega, ?_⟩
    simp only [List.map_append, List.map_cons, List.map_nil]
    rw [List.nodup_append]
    refine ⟨ht, by simp, ?_⟩
    intro a ha b hb hab
    simp at hb; subst hb; subst hab
    obtain ⟨c, hm, rfl⟩ := List.mem_map.mp ha
    simp only [Bool.not_eq_true, List.any_eq_false] at hx
    exact absurd (hx c hm) (by simp)
  | serve =>
    simp only at h
    split at h
    · cases h
    next r rest hw =>
    injection h with h; subst h
    exact ⟨hc, by simp [hw] at hn ⊢; omega, ht⟩
  | deliver =>
    simp only at h
    split at h
    · cases h
    next r rest hw =>
    injection h with h; subst h
    exact ⟨hc, by simp [hw] at hn ⊢; omega, ht⟩
  | take t =>
    simp only at h
    split at h
    case h_2 => cases h
    next c a rest hf hq =>
    injection h with h; subst h
    have := filter_other ht hf
    refine ⟨hc, by simp only; simp only [hq, List.length_cons] at hn; omega, ?_⟩
    exact List.Nodup.sublist (List.Sublist.map _ List.filter_sublist) ht
  | lose => exact absurd rfl hl
  | tick => injection h with h; subst h; exact ⟨hc, hn, ht⟩
  | destroy =>
    simp only at h
    split at h
    · simp only [hc, if_true] at h
      injection h with h; subst h; exact ⟨rfl, hn, ht⟩
    · cases h

theorem full_run {w : Tower Q A} {s s' : State Q A} {es : List (Event Q)} (hs : Full s)
    (hl : NoLoss es) (h : run w s es = some s') : Full s' := by
  induction es generalizing s with
  | nil => simp [run] at h; exact h ▸ hs
  | cons e es ih =>
    simp only [run, Option.bind_eq_some_iff] at h
    obtain ⟨s₁, h1, h2⟩ := h
    exact ih (full_step hs (fun he => hl (by simp [he])) h1)
      (fun hm => hl (List.mem_cons_of_mem _ hm)) h2

theorem full_start : Full (start Q A true) := ⟨rfl, rfl, by simp [start]⟩

theorem take_here {w : Tower Q A} {s : State Q A} (hv : s.gone = false ∧ s.dead = false)
    {c : Call Q} (hc : c ∈ s.calls) (hq : s.queue ≠ []) :
    ∃ s' e, step w s (.take c.thread) = some s' ∧ s'.ended = e :: s.ended ∧
      e.call.thread = c.thread := by
  obtain ⟨a, rest, hq⟩ := List.exists_cons_of_ne_nil hq
  cases hf : s.calls.find? (·.thread == c.thread) with
  | none =>
    have := List.find?_eq_none.mp hf c hc
    simp at this
  | some d =>
    have hd := List.find?_some hf
    simp only [beq_iff_eq] at hd
    have hstep : step w s (.take c.thread) = some { s with
        queue := rest
        calls := s.calls.filter (·.thread != c.thread)
        ended := ⟨d, s.now, accept d.req a⟩ :: s.ended } := by
      unfold step
      rw [if_neg (by simp [hv.1, hv.2])]
      simp only [hf, hq]
    exact ⟨_, ⟨d, s.now, accept d.req a⟩, hstep, rfl, hd⟩

/-! ### The blocking client -/

/-- **C112, in part.** If one thread makes all requests, every call that returns returns what the
watchtower answers to its own request, whatever is lost on the way.  With more threads it is not
so: see `C112_swapped_violated`. -/
theorem C112_own_partial (w : Tower Q A) {b : Bool} {t : Nat} {es : List (Event Q)}
    {s : State Q A} (ht : OneThread t es) (h : run w (start Q A b) es = some s) :
    ∀ e ∈ s.ended, Right w e :=
  (inv_run (inv_start w t b) ht h).ended

/-- **C112, in part.** As long as nothing is lost, every call can return: the watchtower answers a
request at most, an answer arrives at most, and the thread takes it.  If something is lost it is
not so: see `C112_lost_violated`. -/
theorem C112_returns_partial (w : Tower Q A) {es : List (Event Q)} {s : State Q A}
    (hl : NoLoss es) (h : run w (start Q A true) es = some s)
    (hv : s.gone = false ∧ s.dead = false) {c : Call Q} (hc : c ∈ s.calls) :
    ∃ es' s' e, (∀ x ∈ es', x = .serve ∨ x = .deliver ∨ x = .take c.thread) ∧
      run w s es' = some s' ∧ s'.ended = e :: s.ended ∧ e.call.thread = c.thread := by
  have hf := full_run full_start hl h
  have hpos : 0 < s.calls.length := List.length_pos_of_mem hc
  have deliver : ∀ s₁ : State Q A, s₁.gone = false ∧ s₁.dead = false → s₁.back ≠ [] →
      ∃ s₂, step w s₁ .deliver = some s₂ ∧ s₂.queue ≠ [] ∧ s₂.calls = s₁.calls ∧
        s₂.ended = s₁.ended ∧ (s₂.gone = false ∧ s₂.dead = false) := by
    intro s₁ hv₁ hb
    obtain ⟨a, rest, hb⟩ := List.exists_cons_of_ne_nil hb
    have hstep : step w s₁ .deliver = some { s₁ with
        back := rest
        queue := s₁.queue ++ [a] } := by
      unfold step
      rw [if_neg (by simp [hv₁.1, hv₁.2])]
      simp only [hb]
    exact ⟨_, hstep, by simp, rfl, rfl, hv₁⟩
  by_cases hq : s.queue = []
  · by_cases hb : s.back = []
    · have hw : s.wire ≠ [] := by
        intro hw
        have := hf.count
        rw [hq, hb, hw] at this
        simp only [List.length_nil] at this; omega
      obtain ⟨r, rest, hw⟩ := List.exists_cons_of_ne_nil hw
      obtain ⟨s₁, h1, hb₁, hc₁, he₁, hv₁⟩ : ∃ s₁, step w s .serve = some s₁ ∧ s₁.back ≠ [] ∧
          s₁.calls = s.calls ∧ s₁.ended = s.ended ∧ (s₁.gone = false ∧ s₁.dead = false) := by
        have hstep : step w s .serve = some { s with
            wire := rest
            back := s.back ++ [w.answer s.now r] } := by
          unfold step
          rw [if_neg (by simp [hv.1, hv.2])]
          simp only [hw]
        exact ⟨_, hstep, by simp, rfl, rfl, hv⟩
      obtain ⟨s₂, h2, hq₂, hc₂, he₂, hv₂⟩ := deliver s₁ hv₁ hb₁
      obtain ⟨s₃, e, h3, he₃, het⟩ := take_here (w := w) hv₂ (c := c) (by rw [hc₂, hc₁]; exact hc)
        hq₂
      exact ⟨[.serve, .deliver, .take c.thread], s₃, e, by simp, by simp [run, h1, h2, h3],
        by rw [he₃, he₂, he₁], het⟩
    · obtain ⟨s₂, h2, hq₂, hc₂, he₂, hv₂⟩ := deliver s hv hb
      obtain ⟨s₃, e, h3, he₃, het⟩ := take_here (w := w) hv₂ (c := c) (by rw [hc₂]; exact hc) hq₂
      exact ⟨[.deliver, .take c.thread], s₃, e, by simp, by simp [run, h2, h3],
        by rw [he₃, he₂], het⟩
  · obtain ⟨s₃, e, h3, he₃, het⟩ := take_here (w := w) hv hc hq
    exact ⟨[.take c.thread], s₃, e, by simp, by simp [run, h3], he₃, het⟩

/-- **C112 does not hold**: if two threads use a client, each may be given the answer to the
request of the other, and if the requests are of different kinds both end with an exception. -/
theorem C112_swapped_violated (w : Tower Q A) (p q : Q) :
    (∃ s, run w (start Q A true) [.call 0 (.status p), .call 1 (.status q), .serve, .serve,
        .deliver, .deliver, .take 1, .take 0] = some s ∧
      s.ended.map (fun e => (e.call.thread, e.call.req, e.out)) =
        [(0, .status p, .got (.status (w.status 0 q))),
          (1, .status q, .got (.status (w.status 0 p)))]) ∧
    ∃ s, run w (start Q A true) [.call 0 .height, .call 1 (.status q), .serve, .serve,
        .deliver, .deliver, .take 1, .take 0] = some s ∧
      s.ended.map (fun e => (e.call.thread, e.out)) = [(0, .throws), (1, .throws)] :=
  ⟨⟨_, rfl, rfl⟩, ⟨_, rfl, rfl⟩⟩

/-- Nothing will come for the only call. -/
structure Forsaken (t : Nat) (s : State Q A) : Prop where
  calls : ∃ c, s.calls = [c] ∧ c.thread = t
  way : s.wire = [] ∧ s.back = [] ∧ s.queue = []
  ended : s.ended = []

theorem forsaken_run {w : Tower Q A} {t : Nat} {s s' : State Q A} {es : List (Event Q)}
    (hs : Forsaken t s) (ht : OneThread t es) (h : run w s es = some s') : Forsaken t s' := by
  induction es generalizing s with
  | nil => simp [run] at h; exact h ▸ hs
  | cons e es ih =>
    simp only [run, Option.bind_eq_some_iff] at h
    obtain ⟨s₁, h1, h2⟩ := h
    refine ih ?_ (fun t' r hm => ht t' r (List.mem_cons_of_mem _ hm)) h2
    obtain ⟨⟨c, hc, hct⟩, ⟨hw, hb, hq⟩, he⟩ := hs
    unfold step at h1
    split at h1
    · cases h1
    cases e with
    | call t' r =>
      have := ht t' r (by simp)
      simp [hc, hct, this] at h1
    | serve => simp [hw] at h1
    | deliver => simp [hb] at h1
    | take t' => simp [hq] at h1
    | lose => injection h1 with h1; subst h1; exact ⟨⟨c, hc, hct⟩, ⟨rfl, rfl, hq⟩, he⟩
    | tick => injection h1 with h1; subst h1; exact ⟨⟨c, hc, hct⟩, ⟨hw, hb, hq⟩, he⟩
    | destroy => simp [hc] at h1

/-- **C112 does not hold**: if the request or its answer is lost with a connection, the call never
returns, although the connection is made again. -/
theorem C112_lost_violated (w : Tower Q A) (r : Req Q) (t : Nat) :
    ∃ s, run w (start Q A true) [.call t r, .serve, .lose] = some s ∧
      ∀ es s', OneThread t es → run w s es = some s' →
        s'.ended = [] ∧ (s'.calls.map (·.thread)) = [t] := by
  refine ⟨_, rfl, ?_⟩
  intro es s' ht h
  obtain ⟨⟨c, hc, hct⟩, _, he⟩ := forsaken_run (t := t)
    ⟨⟨_, rfl, rfl⟩, ⟨rfl, rfl, rfl⟩, rfl⟩ ht h
  exact ⟨he, by simp [hc, hct]⟩

/-- **C112 does not hold**: if the watchtower could not be reached when the client was started,
which the wallet program goes on after, a request never returns, and the end of the client ends
the process. -/
theorem C112_unreachable_violated (w : Tower Q A) (r : Req Q) (t : Nat) :
    (∃ s, run w (start Q A false) [.call t r] = some s ∧
      ∀ es s', OneThread t es → run w s es = some s' → s'.ended = []) ∧
    ∃ s, run w (start Q A false) [.destroy] = some s ∧ s.dead = true := by
  refine ⟨⟨_, rfl, ?_⟩, ⟨_, rfl, rfl⟩⟩
  intro es s' ht h
  exact (forsaken_run (t := t) ⟨⟨_, rfl, rfl⟩, ⟨rfl, rfl, rfl⟩, rfl⟩ ht h).ended

/-! ### The asynchronous client -/

/-- The answer the thread of the handlers has in its hands. -/
def hand (s : AState A) : List (Resp A) :=
  match s.place with
  | .handling r => [r]
  | _ => []

theorem told_step {s s' : AState A} {e : AEvent A}
    (hs : s.told ++ hand s ++ s.queue = s.arrived) (h : astep s e = some s') :
    s'.told ++ hand s' ++ s'.queue = s'.arrived := by
  cases e with
  | arrive r =>
    simp only [astep] at h
    split at h
    · injection h with h; subst h
      simp only [hand] at hs ⊢
      rw [← List.append_assoc, hs]
    · cases h
  | loop =>
    simp only [astep] at h
    split at h
    · next hp =>
      injection h with h; subst h
      simp only [hand, hp] at hs
      cases hr : s.running <;> simpa [hand, hr] using hs
    · next hp =>
      split at h
      · next r rest hq =>
        injection h with h; subst h
        simp only [hand, hp, hq] at hs ⊢
        simpa using hs
      · cases h
    · next r hp =>
      injection h with h; subst h
      simp only [hand, hp] at hs ⊢
      simpa using hs
    · cases h
  | destroy =>
    simp only [astep] at h
    split at h
    · injection h with h; subst h; exact hs
    · injection h with h; subst h; exact hs
    · split at h
      · injection h with h; subst h; exact hs
      · cases h
    · cases h

/-- **C112.** The handlers of the asynchronous client are called with the answers that arrive, in
the order in which they arrive and once for each: what they were called with, what is in hand and
what waits is what arrived. -/
theorem C112_told {es : List (AEvent A)} {s : AState A}
    (h : arun (AState.start A) es = some s) :
    ∃ rest, s.told ++ rest = s.arrived ∧ rest.length ≤ s.queue.length + 1 := by
  have key : ∀ (s₀ : AState A), s₀.told ++ hand s₀ ++ s₀.queue = s₀.arrived →
      arun s₀ es = some s → s.told ++ hand s ++ s.queue = s.arrived := by
    clear h
    induction es with
    | nil => intro s₀ h0 h; simp [arun] at h; exact h ▸ h0
    | cons e es ih =>
      intro s₀ h0 h
      simp only [arun, Option.bind_eq_some_iff] at h
      obtain ⟨s₁, h1, h2⟩ := h
      exact ih s₁ (told_step h0 h1) h2
  have hs := key _ rfl h
  refine ⟨hand s ++ s.queue, by rw [← List.append_assoc]; exact hs, ?_⟩
  simp only [List.length_append, hand]
  split <;> simp <;> omega

/-- The thread of the handlers waits for an answer. -/
def Waits (s : AState A) : Prop := s.place = .popping ∧ s.queue = [] ∧ s.phase ≠ .gone

theorem waits_run {s s' : AState A} {es : List (AEvent A)} (hs : Waits s) (hq : Silent es)
    (h : arun s es = some s') : Waits s' := by
  induction es generalizing s with
  | nil => simp [arun] at h; exact h ▸ hs
  | cons e es ih =>
    simp only [arun, Option.bind_eq_some_iff] at h
    obtain ⟨s₁, h1, h2⟩ := h
    refine ih ?_ (fun r hm => hq r (List.mem_cons_of_mem _ hm)) h2
    obtain ⟨hp, hqe, hg⟩ := hs
    cases e with
    | arrive r => exact absurd List.mem_cons_self (hq r)
    | loop => simp [astep, hp, hqe] at h1
    | destroy =>
      simp only [astep, hp] at h1
      split at h1
      · injection h1 with h1; subst h1; exact ⟨rfl, hqe, by simp⟩
      · injection h1 with h1; subst h1; exact ⟨rfl, hqe, by simp⟩
      · cases h1
      · cases h1

/-- **C112 does not hold**: an asynchronous client whose answers have all been handled cannot be
destroyed: the destructor waits for a thread that waits for an answer. -/
theorem C112_destructor_violated :
    (∃ s, arun (AState.start A) [.loop] = some s ∧ Waits s) ∧
    ∀ (s : AState A), Waits s → ∀ es s', Silent es → arun s es = some s' → s'.phase ≠ .gone :=
  ⟨⟨_, rfl, rfl, rfl, by simp [AState.start]⟩, fun _ hs _ _ hq h => (waits_run hs hq h).2.2⟩

/-- The flag is down once the destructor has begun. -/
def Flag (s : AState A) : Prop := s.running = true ↔ s.phase = .alive

theorem flag_step {s s' : AState A} {e : AEvent A} (hs : Flag s) (h : astep s e = some s') :
    Flag s' := by
  unfold Flag at *
  cases e with
  | arrive r =>
    simp only [astep] at h
    split at h
    · injection h with h; subst h; exact hs
    · cases h
  | loop =>
    simp only [astep] at h
    split at h
    · injection h with h; subst h; exact hs
    · split at h
      · injection h with h; subst h; exact hs
      · cases h
    · injection h with h; subst h; exact hs
    · cases h
  | destroy =>
    simp only [astep] at h
    split at h
    · injection h with h; subst h; simp
    · next hp => injection h with h; subst h; simp [hp] at hs ⊢; exact hs
    · next hp =>
      split at h
      · injection h with h; subst h; simp [hp] at hs ⊢; exact hs
      · cases h
    · cases h

theorem flag_run {s s' : AState A} {es : List (AEvent A)} (hs : Flag s)
    (h : arun s es = some s') : Flag s' := by
  induction es generalizing s with
  | nil => simp [arun] at h; exact h ▸ hs
  | cons e es ih =>
    simp only [arun, Option.bind_eq_some_iff] at h
    obtain ⟨s₁, h1, h2⟩ := h
    exact ih (flag_step hs h1) h2

/-- **C112, in part.** The destructor of an asynchronous client can end in every state in which the
thread of the handlers does not wait for an answer: there is a continuation, in which nothing
arrives, that ends it. -/
theorem C112_ends_partial {es : List (AEvent A)} {s : AState A}
    (h : arun (AState.start A) es = some s) (hw : ¬ Waits s) :
    ∃ es' s', Silent es' ∧ arun s es' = some s' ∧ s'.phase = .gone := by
  have hf : Flag s := flag_run (by simp [Flag, AState.start]) h
  clear h
  obtain ⟨running, place, queue, phase, arrived, told⟩ := s
  simp only [Flag] at hf
  simp only [Waits] at hw
  have sil : ∀ {es : List (AEvent A)}, (∀ x ∈ es, x = .loop ∨ x = .destroy) → Silent es := by
    intro es hx r hr
    rcases hx _ hr with h | h <;> cases h
  cases phase with
  | gone => exact ⟨[], _, sil (by simp), rfl, rfl⟩
  | alive =>
    cases place with
    | checking => exact ⟨[.destroy, .destroy, .loop, .destroy], _, sil (by simp), rfl, rfl⟩
    | popping =>
      cases queue with
      | nil => exact absurd ⟨rfl, rfl, by simp⟩ hw
      | cons r rest =>
        exact ⟨[.destroy, .destroy, .loop, .loop, .loop, .destroy], _, sil (by simp), rfl, rfl⟩
    | handling r =>
      exact ⟨[.destroy, .destroy, .loop, .loop, .destroy], _, sil (by simp), rfl, rfl⟩
    | ended => exact ⟨[.destroy, .destroy, .destroy], _, sil (by simp), rfl, rfl⟩
  | flagged =>
    have : running = false := by simpa using hf
    subst this
    cases place with
    | checking => exact ⟨[.destroy, .loop, .destroy], _, sil (by simp), rfl, rfl⟩
    | popping =>
      cases queue with
      | nil => exact absurd ⟨rfl, rfl, by simp⟩ hw
      | cons r rest =>
        exact ⟨[.destroy, .loop, .loop, .loop, .destroy], _, sil (by simp), rfl, rfl⟩
    | handling r => exact ⟨[.destroy, .loop, .loop, .destroy], _, sil (by simp), rfl, rfl⟩
    | ended => exact ⟨[.destroy, .destroy], _, sil (by simp), rfl, rfl⟩
  | closed =>
    have : running = false := by simpa using hf
    subst this
    cases place with
    | checking => exact ⟨[.loop, .destroy], _, sil (by simp), rfl, rfl⟩
    | popping =>
      cases queue with
      | nil => exact absurd ⟨rfl, rfl, by simp⟩ hw
      | cons r rest =>
        exact ⟨[.loop, .loop, .loop, .destroy], _, sil (by simp), rfl, rfl⟩
    | handling r => exact ⟨[.loop, .loop, .destroy], _, sil (by simp), rfl, rfl⟩
    | ended => exact ⟨[.destroy], _, sil (by simp), rfl, rfl⟩

/-! ### Examples -/

/-- An answer is being handled while another has arrived. -/
example : ∃ es s, arun (AState.start Nat) es = some s ∧ ¬ Waits s ∧ s.told = [] ∧
    s.arrived = [.height 3, .status 4] :=
  ⟨[.loop, .arrive (.height 3), .loop, .arrive (.status 4)],
    ⟨true, .handling (.height 3), [.status 4], .alive, [.height 3, .status 4], []⟩, rfl,
    by simp [Waits], rfl, rfl⟩

/-- A watchtower of which the height is the time, and which says of each transaction its number. -/
def clock : Tower Nat Nat := ⟨fun n => n, fun n q => n + q⟩

/-- One thread asks twice, the second time after the connection was lost and made again. -/
example : ∃ es s, OneThread 0 es ∧ run clock (start Nat Nat true) es = some s ∧
    s.ended.map (·.out) = [.got (.status 9), .got (.height 1)] := by
  refine ⟨[.call 0 .height, .tick, .serve, .deliver, .take 0, .lose, .tick, .call 0 (.status 7),
    .serve, .deliver, .take 0], _, ?_, rfl, by decide⟩
  intro t r h
  simp only [List.mem_cons, Event.call.injEq, reduceCtorEq, List.not_mem_nil, or_false, false_or]
    at h
  rcases h with h | h <;> exact h.1

/-- Two threads wait for answers, and nothing was lost. -/
example : ∃ es s, NoLoss es ∧ run clock (start Nat Nat true) es = some s ∧
    (s.gone = false ∧ s.dead = false) ∧ s.calls.map (·.thread) = [0, 1] := by
  refine ⟨[.call 0 .height, .call 1 (.status 3), .serve], _, ?_, rfl, ⟨rfl, rfl⟩, rfl⟩
  simp [NoLoss]

end Verif.Watchtower.Client
