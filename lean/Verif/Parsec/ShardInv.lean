import Verif.Parsec.KeyInv

/-!
# The invariant of the PArSEC shard

The lock table and the transaction records agree after every operation.
-/
namespace Verif.Parsec

/-- The lock `t` holds on `k` according to its record. -/
def heldOf (s : State) (k : Key) (t : Tn) : Option LockType :=
  match s.ticket t with
  | some tk => tk.held k
  | none => none

/-- `t` waits for `k` according to its record. -/
def queuedOf (s : State) (k : Key) (t : Tn) : Prop :=
  ∃ tk, s.ticket t = some tk ∧ k ∈ tk.queued

/-- `t` is prepared. -/
def isPrepared (s : State) (t : Tn) : Prop :=
  ∃ tk, s.ticket t = some tk ∧ tk.state = .prepared

/-- The invariant, with a set `P` of transactions that may be waited for by
older ones and a set of keys whose lock may be grantable. -/
structure InvP (P : Tn → Prop) (dirty : Key → Prop) (s : State) : Prop where
  key : ∀ k, KeyOk P (s.lock k) (heldOf s k) (queuedOf s k)
  idle : ∀ t tk, s.ticket t = some tk →
    tk.state = .wounded ∨ tk.state = .committed →
    (∀ k, tk.held k = none) ∧ tk.queued = []
  prep : ∀ t tk, s.ticket t = some tk → tk.state = .prepared →
    tk.queued = [] ∧ ∀ p ∈ tk.update, tk.held p.1 = some .write
  stuck : ∀ k, ¬ dirty k → Stuck (s.lock k)

/-- The invariant between operations. -/
def Inv (s : State) : Prop := InvP (isPrepared s) (fun _ => False) s

theorem heldOf_some {s : State} {t : Tn} {tk : Ticket}
    (h : s.ticket t = some tk) (k : Key) : heldOf s k t = tk.held k := by
  simp [heldOf, h]

theorem queuedOf_some {s : State} {t : Tn} {tk : Ticket}
    (h : s.ticket t = some tk) (k : Key) : queuedOf s k t ↔ k ∈ tk.queued := by
  simp [queuedOf, h]

/-- A transaction without waiting requests is in no queue. -/
theorem InvP.not_in_queue {P : Tn → Prop} {D : Key → Prop} {s : State}
    (inv : InvP P D s) {t : Tn} {k : Key} (h : ¬ queuedOf s k t) :
    ∀ w ∈ (s.lock k).queue, w.ticket ≠ t := by
  intro w hw he
  exact h (((inv.key k).waiter t).mp ⟨w, hw, he⟩)

theorem grant_mem {lk : Lock} {w : Waiter} (h : w ∈ lk.grant.2) :
    w ∈ lk.queue := grant_sub _ _ _ w h

theorem heldAfter_of_not_mem {gs : List Waiter} {t : Tn}
    (h : ∀ w ∈ gs, w.ticket ≠ t) (x : Option LockType) :
    heldAfter gs t x = x := by
  unfold heldAfter
  rw [find_none h]

/-- A transaction in no queue is not touched by `acquire`. -/
theorem acquire_ticket_eq {s : State} {keys : Key → Bool} {t : Tn}
    (h : ∀ k, ∀ w ∈ (s.lock k).queue, w.ticket ≠ t) :
    (acquire s keys).1.ticket t = s.ticket t := by
  unfold acquire
  simp only
  cases s.ticket t with
  | none => rfl
  | some tk =>
    simp only [Option.map_some, Option.some.injEq]
    have h1 : (fun k => if keys k then
        heldAfter (s.lock k).grant.2 t (tk.held k) else tk.held k) =
        tk.held := by
      funext k
      split
      · exact heldAfter_of_not_mem (fun w hw => h k w (grant_mem hw)) _
      · rfl
    have h2 : tk.queued.filter (fun k =>
        !(keys k && (s.lock k).grant.2.any fun w => w.ticket = t)) =
        tk.queued := by
      rw [List.filter_eq_self]
      intro k _
      have : (s.lock k).grant.2.any (fun w => w.ticket = t) = false := by
        rw [List.any_eq_false]
        intro w hw
        simpa using h k w (grant_mem hw)
      simp [this]
    rw [h1, h2]

theorem acquire_ticket_some {s : State} {keys : Key → Bool} {t : Tn}
    {tk' : Ticket} (h : (acquire s keys).1.ticket t = some tk') :
    ∃ tk, s.ticket t = some tk ∧ tk'.state = tk.state ∧
      tk'.update = tk.update ∧ tk'.details = tk.details ∧
      tk'.broker = tk.broker ∧
      (∀ k, k ∈ tk'.queued → k ∈ tk.queued) ∧
      (∀ k, tk'.held k =
        if keys k then heldAfter (s.lock k).grant.2 t (tk.held k)
        else tk.held k) := by
  unfold acquire at h
  simp only at h
  cases hs : s.ticket t with
  | none => simp [hs] at h
  | some tk =>
    simp only [hs, Option.map_some, Option.some.injEq] at h
    subst h
    refine ⟨tk, rfl, rfl, rfl, rfl, rfl, ?_, ?_⟩
    · intro k hk
      exact (List.mem_filter.mp hk).1
    · intro k
      rfl

theorem isPrepared_acquire (s : State) (keys : Key → Bool) (t : Tn) :
    isPrepared (acquire s keys).1 t ↔ isPrepared s t := by
  unfold isPrepared acquire
  simp only
  cases s.ticket t with
  | none => simp
  | some tk => simp

theorem heldOf_acquire {P : Tn → Prop} {D : Key → Prop} {s : State}
    (inv : InvP P D s) (keys : Key → Bool) (k : Key) (t : Tn) :
    heldOf (acquire s keys).1 k t =
      if keys k then heldAfter (s.lock k).grant.2 t (heldOf s k t)
      else heldOf s k t := by
  unfold heldOf acquire
  simp only
  cases hs : s.ticket t with
  | none =>
    simp only [Option.map_none]
    split
    · rw [heldAfter_of_not_mem]
      intro w hw he
      have := ((inv.key k).waiter t).mp ⟨w, grant_mem hw, he⟩
      obtain ⟨tk, h, _⟩ := this
      rw [hs] at h
      simp at h
    · rfl
  | some tk => simp

theorem queuedOf_acquire (s : State) (keys : Key → Bool) (k : Key) (t : Tn) :
    queuedOf (acquire s keys).1 k t ↔
      queuedOf s k t ∧ (keys k → ∀ w ∈ (s.lock k).grant.2, w.ticket ≠ t) := by
  unfold queuedOf acquire
  simp only
  cases s.ticket t with
  | none => simp
  | some tk =>
    simp only [Option.map_some, Option.some.injEq, exists_eq_left',
      List.mem_filter]
    cases keys k <;> simp

/-- Handing on the locks of the affected keys restores the invariant. -/
theorem acquire_ok {P : Tn → Prop} {D : Key → Prop} {s : State}
    {keys : Key → Bool} (inv : InvP P D s) (hD : ∀ k, D k → keys k = true) :
    InvP P (fun _ => False) (acquire s keys).1 := by
  constructor
  · intro k
    by_cases hk : keys k = true
    · obtain ⟨h1, _⟩ := grant_ok P (s.lock k).writer (s.lock k).readers
        (s.lock k).queue (heldOf s k) (queuedOf s k) (inv.key k)
      have hl : (acquire s keys).1.lock k = (s.lock k).grant.1 := by
        simp [acquire, hk]
      rw [hl]
      refine h1.congr (fun t => ?_) (fun t => ?_)
      · rw [heldOf_acquire inv]
        simp [hk, Lock.grant]
      · rw [queuedOf_acquire]
        simp [hk, Lock.grant]
    · have hl : (acquire s keys).1.lock k = s.lock k := by
        simp [acquire, hk]
      rw [hl]
      refine (inv.key k).congr (fun t => ?_) (fun t => ?_)
      · rw [heldOf_acquire inv]
        simp [hk]
      · rw [queuedOf_acquire]
        simp [hk]
  · intro t tk' ht hst
    obtain ⟨tk, h1, h2, -, -, -, h3, h4⟩ := acquire_ticket_some ht
    rw [h2] at hst
    obtain ⟨h5, h6⟩ := inv.idle t tk h1 hst
    have hq : ∀ k, ¬ queuedOf s k t := by
      intro k
      rw [queuedOf_some h1, h6]
      simp
    constructor
    · intro k
      rw [h4]
      split
      · rw [heldAfter_of_not_mem, h5]
        intro w hw
        exact inv.not_in_queue (hq k) w (grant_mem hw)
      · exact h5 k
    · rw [List.eq_nil_iff_forall_not_mem]
      intro k hk
      have := h3 k hk
      rw [h6] at this
      simp at this
  · intro t tk' ht hst
    obtain ⟨tk, h1, h2, h7, -, -, h3, h4⟩ := acquire_ticket_some ht
    rw [h2] at hst
    obtain ⟨h6, h5⟩ := inv.prep t tk h1 hst
    have hq : ∀ k, ¬ queuedOf s k t := by
      intro k
      rw [queuedOf_some h1, h6]
      simp
    constructor
    · rw [List.eq_nil_iff_forall_not_mem]
      intro k hk
      have := h3 k hk
      rw [h6] at this
      simp at this
    · intro p hp
      rw [h7] at hp
      rw [h4]
      split
      · rw [heldAfter_of_not_mem, h5 p hp]
        intro w hw
        exact inv.not_in_queue (hq p.1) w (grant_mem hw)
      · exact h5 p hp
  · intro k _
    by_cases hk : keys k = true
    · have hl : (acquire s keys).1.lock k = (s.lock k).grant.1 := by
        simp [acquire, hk]
      rw [hl]
      exact (grant_ok P _ _ _ _ _ (inv.key k)).2
    · have hl : (acquire s keys).1.lock k = s.lock k := by
        simp [acquire, hk]
      rw [hl]
      exact inv.stuck k fun hd => hk (hD k hd)

/-- The state after releasing the locks of `t` and replacing its record. -/
def released (s : State) (t : Tn) (tk : Ticket) (x : Option Ticket) : State :=
  { value := s.value
    lock := fun k => unlock t (tk.held k) (k ∈ tk.queued) (s.lock k)
    ticket := fun y => if y = t then x else s.ticket y }

/-- A record without locks. -/
def Bare (x : Option Ticket) : Prop :=
  ∀ tk, x = some tk → (∀ k, tk.held k = none) ∧ tk.queued = [] ∧
    tk.state ≠ .prepared

theorem heldOf_released {s : State} {t : Tn} {tk : Ticket}
    {x : Option Ticket} (hx : Bare x) (k : Key) (y : Tn) :
    heldOf (released s t tk x) k y = if y = t then none else heldOf s k y := by
  unfold heldOf released
  simp only
  by_cases hy : y = t
  · simp only [hy, if_true]
    cases x with
    | none => rfl
    | some tk' => exact (hx tk' rfl).1 k
  · simp [hy]

theorem queuedOf_released {s : State} {t : Tn} {tk : Ticket}
    {x : Option Ticket} (hx : Bare x) (k : Key) (y : Tn) :
    queuedOf (released s t tk x) k y ↔ queuedOf s k y ∧ y ≠ t := by
  unfold queuedOf released
  simp only
  by_cases hy : y = t
  · simp only [hy, if_true, ne_eq, not_true_eq_false, and_false, iff_false]
    rintro ⟨tk', h1, h2⟩
    rw [(hx tk' h1).2.1] at h2
    simp at h2
  · simp [hy]

theorem unlock_nothing (t : Tn) (lk : Lock) : unlock t none false lk = lk := by
  simp [unlock]

/-- Releasing the locks of a transaction keeps the invariant, except that the
affected locks may be grantable. -/
theorem released_ok {P : Tn → Prop} {D : Key → Prop} {s : State} {t : Tn}
    {tk tk' : Ticket} {x : Option Ticket} (inv : InvP P D s)
    (ht : s.ticket t = some tk) (hheld : tk'.held = tk.held)
    (hqueued : tk'.queued = tk.queued) (hx : Bare x) :
    InvP P (fun k => D k ∨ (tk.queued.contains k || (tk.held k).isSome) = true)
      (released s t tk' x) := by
  constructor
  · intro k
    have h := (inv.key k).unlock t (decide (k ∈ tk.queued)) (by
      rw [queuedOf_some ht]
      simp)
    rw [heldOf_some ht] at h
    have hl : (released s t tk' x).lock k =
        unlock t (tk.held k) (decide (k ∈ tk.queued)) (s.lock k) := by
      simp [released, hheld, hqueued]
    rw [hl]
    exact h.congr (heldOf_released hx k) (queuedOf_released hx k)
  · intro y tk2 hy hst
    unfold released at hy
    simp only at hy
    split at hy
    · obtain ⟨h1, h2, _⟩ := hx tk2 hy
      exact ⟨h1, h2⟩
    · exact inv.idle y tk2 hy hst
  · intro y tk2 hy hst
    unfold released at hy
    simp only at hy
    split at hy
    · exact absurd hst (hx tk2 hy).2.2
    · exact inv.prep y tk2 hy hst
  · intro k hk
    have h1 : ¬ D k := fun h => hk (Or.inl h)
    have h2 : ¬ ((tk.queued.contains k || (tk.held k).isSome) = true) :=
      fun h => hk (Or.inr h)
    simp only [Bool.or_eq_true, not_or, Bool.not_eq_true,
      Option.isSome_eq_false_iff, Option.isNone_iff_eq_none] at h2
    have hl : (released s t tk' x).lock k = s.lock k := by
      have hq : decide (k ∈ tk.queued) = false := by
        simpa using h2.1
      simp only [released, hheld, hqueued, h2.2, hq]
      exact unlock_nothing t _
    rw [hl]
    exact inv.stuck k h1

theorem release_eq (s : State) (t : Tn) (tk : Ticket) :
    (release s t tk).1 = released s t tk
      (some { tk with held := fun _ => none, queued := [] }) := rfl

theorem release_set_eq (s : State) (t : Tn) (tk : Ticket)
    (x : Option Ticket) :
    (release s t tk).1.setTicket t x = released s t tk x := by
  unfold release released State.setTicket
  simp only
  congr 1
  funext y
  by_cases hy : y = t <;> simp [hy]

theorem isPrepared_released {s : State} {t : Tn} {tk : Ticket}
    {x : Option Ticket} (hx : Bare x) (y : Tn) :
    isPrepared (released s t tk x) y ↔ isPrepared s y ∧ y ≠ t := by
  unfold isPrepared released
  simp only
  by_cases hy : y = t
  · simp only [hy, if_true, ne_eq, not_true_eq_false, and_false, iff_false]
    rintro ⟨tk', h1, h2⟩
    exact (hx tk' h1).2.2 h2
  · simp [hy]

theorem InvP.mono {P Q : Tn → Prop} {D E : Key → Prop} {s : State}
    (inv : InvP P D s) (h : ∀ t k, heldOf s k t ≠ none → P t → Q t)
    (hd : ∀ k, D k → E k) : InvP Q E s where
  key k := (inv.key k).mono fun t hh hp => h t k hh hp
  idle := inv.idle
  prep := inv.prep
  stuck k hk := inv.stuck k fun hc => hk (hd k hc)

/-! ### Wounding -/

/-- What the loop of `wound_tickets` guarantees. -/
structure WoundOk (P : Tn → Prop) (s : State) (bs : List Tn) (a : Wounding) :
    Prop where
  inv : InvP P (fun k => a.keys k = true) a.st
  prep : ∀ t, isPrepared a.st t ↔ isPrepared s t
  known : ∀ t, (a.st.ticket t).isSome = (s.ticket t).isSome
  held : ∀ k t, heldOf a.st k t ≠ none → heldOf a.st k t = heldOf s k t
  value : a.st.value = s.value
  wounded : ∀ b ∈ bs, isPrepared s b ∨ ∀ k, heldOf a.st k b = none
  same : ∀ t, t ∉ bs ∨ isPrepared s t → a.st.ticket t = s.ticket t

theorem woundOne_ok {P : Tn → Prop} {s : State} {bs : List Tn} {a : Wounding}
    (h : WoundOk P s bs a) (blocked : Tn) (key : Key) (b : Tn)
    (hb : (s.ticket b).isSome = true) :
    WoundOk P s (bs ++ [b]) (woundOne blocked key a b) := by
  have hb' : (a.st.ticket b).isSome = true := by rw [h.known, hb]
  obtain ⟨tk, htk⟩ := Option.isSome_iff_exists.mp hb'
  unfold woundOne
  simp only [htk, Option.getD_some]
  by_cases hp : tk.state = .prepared
  · rw [if_pos hp]
    refine { h with wounded := ?_, same := ?_ }
    · intro x hx
      rcases List.mem_append.mp hx with hx | hx
      · exact h.wounded x hx
      · simp at hx
        subst hx
        left
        rw [← h.prep]
        exact ⟨tk, htk, hp⟩
    · intro t ht
      apply h.same t
      rcases ht with ht | ht
      · exact Or.inl fun hc => ht (List.mem_append_left _ hc)
      · exact Or.inr ht
  · rw [if_neg hp]
    have hnp : ¬ isPrepared a.st b := by
      rintro ⟨tk2, h1, h2⟩
      rw [htk] at h1
      exact hp (Option.some.inj h1 ▸ h2)
    have hbare : Bare (some { tk with
        state := .wounded
        details := some (blocked, key)
        held := fun _ => none
        queued := [] }) := by
      intro tk2 he
      simp only [Option.some.injEq] at he
      subst he
      exact ⟨fun _ => rfl, rfl, by simp⟩
    have hrel := released_ok (tk' := { tk with
        state := .wounded
        details := some (blocked, key) }) h.inv htk rfl rfl hbare
    constructor
    · simp only [release_eq]
      refine hrel.mono (fun _ _ _ hp => hp) (fun k hk => ?_)
      simp only [release, Bool.or_eq_true, decide_eq_true_eq] at hk ⊢
      rcases hk with hk | hk | hk
      · exact Or.inl hk
      · exact Or.inr (Or.inl (List.contains_iff_mem.mp hk))
      · exact Or.inr (Or.inr hk)
    · intro t
      rw [release_eq, isPrepared_released hbare, h.prep]
      constructor
      · exact And.left
      · intro ht
        refine ⟨ht, ?_⟩
        rintro rfl
        exact hnp ((h.prep t).mpr ht)
    · intro t
      simp only [release]
      by_cases ht : t = b
      · subst ht
        simp [hb]
      · simp [ht, h.known]
    · intro k t hh
      simp only [release_eq] at hh ⊢
      rw [heldOf_released hbare] at hh ⊢
      split at hh
      · simp at hh
      · rename_i hne
        rw [if_neg hne]
        exact h.held k t hh
    · simpa [release] using h.value
    · intro x hx
      rcases List.mem_append.mp hx with hx | hx
      · rcases h.wounded x hx with h1 | h1
        · exact Or.inl h1
        · right
          intro k
          simp only [release_eq]
          rw [heldOf_released hbare, h1 k]
          simp
      · simp at hx
        subst hx
        right
        intro k
        simp only [release_eq]
        rw [heldOf_released hbare]
        simp
    · intro t ht
      have hne : t ≠ b := by
        rintro rfl
        rcases ht with ht | ht
        · exact ht (List.mem_append_right _ (List.mem_singleton.mpr rfl))
        · exact hnp ((h.prep t).mpr ht)
      simp only [release, hne, if_false]
      apply h.same t
      rcases ht with ht | ht
      · exact Or.inl fun hc => ht (List.mem_append_left _ hc)
      · exact Or.inr ht

theorem woundFold_ok {P : Tn → Prop} {s : State} (blocked : Tn) (key : Key)
    (bs : List Tn) : ∀ (done : List Tn) (a : Wounding),
    WoundOk P s done a → (∀ b ∈ bs, (s.ticket b).isSome = true) →
    WoundOk P s (done ++ bs) (bs.foldl (woundOne blocked key) a) := by
  induction bs with
  | nil =>
    intro done a h _
    simpa using h
  | cons b bs ih =>
    intro done a h hb
    have h1 := woundOne_ok h blocked key b (hb b List.mem_cons_self)
    have h2 := ih (done ++ [b]) _ h1
      (fun x hx => hb x (List.mem_cons_of_mem _ hx))
    simpa using h2

/-- The loop of `wound_tickets`. -/
def woundFold (s : State) (key : Key) (bs : List Tn) (blocked : Tn) :
    Wounding :=
  bs.foldl (woundOne blocked key)
    { st := s, calls := noCalls, keys := fun _ => false }

theorem woundTickets_eq (s : State) (key : Key) (bs : List Tn)
    (blocked : Tn) :
    woundTickets s key bs blocked =
      ((acquire (woundFold s key bs blocked).st
          (fun k => (woundFold s key bs blocked).keys k || k = key)).1,
       (woundFold s key bs blocked).calls.append
        (acquire (woundFold s key bs blocked).st
          (fun k => (woundFold s key bs blocked).keys k || k = key)).2) := rfl

/-- The loop on a state whose lock `key` may be grantable: as `WoundOk`, with
that key added. -/
theorem woundFold_inv {P : Tn → Prop} {s : State} (key : Key) (bs : List Tn)
    (blocked : Tn) (inv : InvP P (fun k => k = key) s)
    (hb : ∀ b ∈ bs, (s.ticket b).isSome = true) :
    InvP P (fun k => (woundFold s key bs blocked).keys k = true ∨ k = key)
      (woundFold s key bs blocked).st ∧
    (∀ t, isPrepared (woundFold s key bs blocked).st t ↔ isPrepared s t) ∧
    (∀ t, ((woundFold s key bs blocked).st.ticket t).isSome =
      (s.ticket t).isSome) ∧
    (∀ k t, heldOf (woundFold s key bs blocked).st k t ≠ none →
      heldOf (woundFold s key bs blocked).st k t = heldOf s k t) ∧
    (woundFold s key bs blocked).st.value = s.value ∧
    (∀ b ∈ bs, isPrepared s b ∨
      ∀ k, heldOf (woundFold s key bs blocked).st k b = none) ∧
    (∀ t, t ∉ bs ∨ isPrepared s t →
      (woundFold s key bs blocked).st.ticket t = s.ticket t) := by
  -- start with the key marked as affected; the mark only adds to `keys`
  have hstart : WoundOk P s []
      ⟨s, noCalls, fun k => decide (k = key)⟩ := by
    constructor
    · exact inv.mono (fun _ _ _ h => h) (fun k hk => by simpa using hk)
    · exact fun _ => Iff.rfl
    · exact fun _ => rfl
    · exact fun _ _ _ => rfl
    · rfl
    · intro b hb
      simp at hb
    · exact fun _ _ => rfl
  have hend := woundFold_ok blocked key bs [] _ hstart hb
  -- the two loops agree up to the mark
  have hsame : ∀ (l : List Tn) (st : State) (c : Calls) (k1 k2 : Key → Bool),
      (∀ k, k2 k = (k1 k || decide (k = key))) →
      (l.foldl (woundOne blocked key) ⟨st, c, k2⟩).st =
        (l.foldl (woundOne blocked key) ⟨st, c, k1⟩).st ∧
      ∀ k, (l.foldl (woundOne blocked key) ⟨st, c, k2⟩).keys k =
        ((l.foldl (woundOne blocked key) ⟨st, c, k1⟩).keys k ||
          decide (k = key)) := by
    intro l
    induction l with
    | nil =>
      intro st c k1 k2 hk
      exact ⟨rfl, hk⟩
    | cons b l ih =>
      intro st c k1 k2 hk
      rw [List.foldl_cons, List.foldl_cons]
      unfold woundOne
      simp only
      split
      · exact ih st c k1 k2 hk
      · apply ih
        intro k
        simp only [hk k]
        cases k1 k <;> cases decide (k = key) <;> simp
  obtain ⟨h1, h2⟩ := hsame bs s noCalls (fun _ => false)
    (fun k => decide (k = key)) (fun k => by simp)
  simp only [List.nil_append] at hend
  unfold woundFold
  rw [← h1]
  refine ⟨?_, hend.prep, hend.known, hend.held, hend.value, hend.wounded,
    hend.same⟩
  refine hend.inv.mono (fun _ _ _ h => h) (fun k hk => ?_)
  rw [h2 k] at hk
  simpa using hk

end Verif.Parsec
