import Verif.Parsec.BrokerTicket
import Verif.Parsec.BrokerLocksSpec

/-!
# What a PArSEC broker knows about locks: lemmas
-/
namespace Verif.Parsec.Broker

/-- What is recorded about a key of a shard. -/
def key (l : List (Nat × Sh)) (i : Nat) (k : Key) : Option KeySt :=
  (l.lookup i).bind fun sh => sh.keys.lookup k

theorem lookup_map_at {α β : Type} [BEq α] [LawfulBEq α] [DecidableEq α] (l : List (α × β)) (k : α) (g : β → β) (x : α) :
    (l.map fun q => if q.1 = k then (k, g q.2) else q).lookup x =
      if x = k then (l.lookup k).map g else l.lookup x := by
  induction l with
  | nil => simp
  | cons q l ih =>
    obtain ⟨a, b⟩ := q
    rw [List.map_cons]
    by_cases ha : a = k
    · subst ha
      rw [if_pos rfl, List.lookup_cons, List.lookup_cons, List.lookup_cons, ih]
      by_cases hx : x = a
      · subst hx; simp
      · have : (x == a) = false := by simpa using hx
        rw [this, if_neg hx, if_neg hx]
    · rw [if_neg ha, List.lookup_cons, List.lookup_cons, List.lookup_cons, ih]
      by_cases hx : x = a
      · subst hx; simp [ha]
      · have h1 : (x == a) = false := by simpa using hx
        have h2 : (k == a) = false := by simpa using Ne.symm ha
        rw [h1, h2]

theorem lookup_update (l : List (Nat × Sh)) (i : Nat) (f : Sh → Sh) (j : Nat) :
    (update l i f).lookup j = if j = i then (l.lookup i).map f else l.lookup j := by
  have : update l i f = l.map fun q => if q.1 = i then (i, f q.2) else q := by
    unfold update
    apply List.map_congr_left
    intro q _
    split
    · next h => rw [h]
    · rfl
  rw [this]
  exact lookup_map_at l i f j

theorem lookup_mark (l : List (Nat × Sh)) (skip : SState → Bool) (x : SState) (p : Option Stop) (j : Nat) :
    ∃ g : Sh → Sh, (∀ sh, (g sh).keys = sh.keys) ∧ (mark l skip x p).lookup j = (l.lookup j).map g := by
  refine ⟨fun sh => if !skip sh.state && visited p j then { sh with state := x } else sh, ?_, ?_⟩
  · intro sh; dsimp only; split <;> rfl
  · unfold mark
    induction l with
    | nil => rfl
    | cons q l ih =>
      obtain ⟨a, b⟩ := q
      rw [List.map_cons]
      dsimp only
      by_cases hc : (!skip b.state && visited p a) = true
      · rw [if_pos hc, List.lookup_cons, List.lookup_cons, ih]
        by_cases hj : j = a
        · subst hj; simp only [beq_self_eq_true, Option.map_some, if_pos hc]
        · have h1 : (j == a) = false := by simpa using hj
          rw [h1]
      · rw [if_neg hc, List.lookup_cons, List.lookup_cons, ih]
        by_cases hj : j = a
        · subst hj; simp only [beq_self_eq_true, Option.map_some, if_neg hc]
        · have h1 : (j == a) = false := by simpa using hj
          rw [h1]

theorem lookup_touch (l : List (Nat × Sh)) (i j : Nat) :
    (touch l i).lookup j = if j = i ∧ l.lookup i = none then some {} else l.lookup j := by
  unfold touch
  cases hl : l.lookup i with
  | some sh => simp
  | none =>
    rw [if_neg (by simp), List.lookup_append]
    by_cases hj : j = i
    · subst hj; simp [hl]
    · have h1 : (j == i) = false := by simpa using hj
      simp [hj, List.lookup_cons, h1]

theorem key_touch (l : List (Nat × Sh)) (i j : Nat) (k : Key) : key (touch l i) j k = key l j k := by
  unfold key
  rw [lookup_touch]
  split
  · next h => rw [h.1, h.2]; rfl
  · rfl

theorem key_setState (l : List (Nat × Sh)) (i : Nat) (x : SState) (j : Nat) (k : Key) :
    key (setState l i x) j k = key l j k := by
  unfold key setState
  rw [lookup_update]
  split
  · next h => subst h; cases l.lookup j <;> rfl
  · rfl

theorem key_mark (l : List (Nat × Sh)) (skip : SState → Bool) (x : SState) (p : Option Stop) (j : Nat)
    (k : Key) : key (mark l skip x p) j k = key l j k := by
  obtain ⟨g, hg, hl⟩ := lookup_mark l skip x p j
  unfold key
  rw [hl]
  cases l.lookup j with
  | none => rfl
  | some sh => simp [hg]

theorem key_clear {l : List (Nat × Sh)} {i j : Nat} {k : Key} {q : KeySt} {x : SState}
    (h : key (update l i fun _ => { state := x, keys := [] }) j k = some q) : key l j k = some q := by
  unfold key at h ⊢
  rw [lookup_update] at h
  split at h
  · cases hl : l.lookup i <;> rw [hl] at h <;> simp at h
  · exact h

theorem key_update (l : List (Nat × Sh)) (i : Nat) (f : List (Key × KeySt) → List (Key × KeySt)) (j : Nat)
    (k : Key) : key (update l i fun sh => { sh with keys := f sh.keys }) j k =
      if j = i then (l.lookup i).bind (fun sh => (f sh.keys).lookup k) else key l j k := by
  unfold key
  rw [lookup_update]
  split
  · cases l.lookup i <;> rfl
  · rfl

theorem lookup_locking (ks : List (Key × KeySt)) (k : Key) (ty : LockType) (x : Key) :
    (x = k → ∃ q, (locking ks k ty).lookup x = some q ∧ q.locked = false ∧ q.type = ty) ∧
    (x ≠ k → (locking ks k ty).lookup x = ks.lookup x) := by
  unfold locking
  cases hk : ks.lookup k with
  | none =>
    dsimp only
    rw [List.lookup_append]
    constructor
    · rintro rfl; exact ⟨⟨false, ty, none⟩, by simp [hk], rfl, rfl⟩
    · intro hx
      have h1 : (x == k) = false := by simpa using hx
      simp [List.lookup_cons, h1]
  | some q =>
    dsimp only
    have := lookup_map_at ks k (fun q : KeySt => { q with
      locked := false
      type := ty }) x
    rw [this]
    constructor
    · rintro rfl; rw [if_pos rfl, hk]; exact ⟨_, rfl, rfl, rfl⟩
    · intro hx; rw [if_neg hx]

/-- Events that do not concern locks. -/
def Event.other : Event → Bool
  | .foundKey .. => false
  | .locked .. => false
  | _ => true

/-- Whether a request is one for a lock. -/
def Call.isLock : Call → Bool
  | .tryLock .. => true
  | _ => false

/-- What other events do to a ticket. -/
structure Leaves (x : Option Ticket) (r : Option Ticket × List Call × Bool) : Prop where
  keys : ∀ tk', r.1 = some tk' → tk'.state ≠ .aborted → ∀ i k q, key tk'.shards i k = some q →
    ∃ tk, x = some tk ∧ tk.state ≠ .aborted ∧ key tk.shards i k = some q
  calls : ∀ c ∈ r.2.1, c.isLock = false
  aborts : r.2.2 = true → ∀ tk', r.1 = some tk' → tk'.state = .aborted

theorem Leaves.stay (x : Option Ticket) : Leaves x (stay x) where
  keys := fun tk' h1 h2 _ _ _ h3 => ⟨tk', h1, h2, h3⟩
  calls := fun _ h => nomatch h
  aborts := fun h => nomatch h

/-- The same keys are recorded. -/
theorem Leaves.same {tk tk' : Ticket} {cs : List Call}
    (hk : ∀ i k q, key tk'.shards i k = some q → key tk.shards i k = some q)
    (hs : tk.state = .aborted → tk'.state = .aborted) (hc : ∀ c ∈ cs, c.isLock = false) :
    Leaves (some tk) (some tk', cs, false) where
  keys := fun tk2 h1 h2 i k q h3 => by
    cases h1
    exact ⟨tk, rfl, fun h => h2 (hs h), hk i k q h3⟩
  calls := hc
  aborts := fun h => nomatch h

theorem Leaves.erase (x : Option Ticket) : Leaves x (Broker.stay none) where
  keys := fun _ h => nomatch h
  calls := fun _ h => nomatch h
  aborts := fun h => nomatch h

theorem doCommit_leaves (tk : Ticket) (t : Tn) (c : Cont) (p : Option Stop) :
    (tk.doCommit t c p).1.state = tk.state ∧
    (∀ i k, key (tk.doCommit t c p).1.shards i k = key tk.shards i k) ∧
    ∀ d ∈ (tk.doCommit t c p).2.1, d.isLock = false := by
  refine ⟨rfl, fun i k => ?_, ?_⟩
  · dsimp only [Ticket.doCommit]; exact key_mark _ _ _ _ _ _
  intro d hd
  obtain ⟨_, _, rfl⟩ := List.mem_map.mp hd
  rfl

theorem doPrepare_leaves (tk : Ticket) (t : Tn) (u : List (Key × Value)) (c : Cont) (p : Option Stop) :
    (tk.doPrepare t u c p).1.state = tk.state ∧
    (∀ i k, key (tk.doPrepare t u c p).1.shards i k = key tk.shards i k) ∧
    ∀ d ∈ (tk.doPrepare t u c p).2.1, d.isLock = false := by
  refine ⟨rfl, fun i k => ?_, ?_⟩
  · dsimp only [Ticket.doPrepare]; exact key_mark _ _ _ _ _ _
  intro d hd
  obtain ⟨_, _, rfl⟩ := List.mem_map.mp hd
  rfl

theorem handlePrepare_leaves {tk : Ticket} (hb : tk.state = .begun) (c : Cont) (t : Tn) (i : Nat)
    (res : Option ShardError) (p : Option Stop) (r : Ticket × List Call × Option Fail)
    (hr : tk.handlePrepare c t i res p = r) : Leaves (some tk) (some r.1, r.2.1, false) := by
  have hna : ¬tk.state = .aborted := fun h => by rw [hb] at h; nomatch h
  have ht : Leaves (some tk) (some { tk with shards := touch tk.shards i }, [], false) :=
    .same (fun j k q h => by dsimp only at h; rw [key_touch] at h; exact h) (fun h => h) (fun _ h => (nomatch h))
  have hx (x : SState) :
      Leaves (some tk) (some { tk with shards := setState (touch tk.shards i) i x }, [], false) :=
    .same (fun j k q h => by dsimp only at h; rw [key_setState, key_touch] at h; exact h) (fun h => h)
      (fun _ h => (nomatch h))
  unfold Ticket.handlePrepare at hr
  dsimp only at hr
  by_cases h1 : stateOf (touch tk.shards i) i ≠ .preparing
  · rw [if_pos h1] at hr; subst hr; exact ht
  · rw [if_neg h1] at hr
    cases res with
    | some e =>
      dsimp only at hr
      by_cases h2 : e.code = .wounded
      · rw [if_pos h2] at hr
        by_cases h3 : ((touch tk.shards i).any fun e => e.2.state = .wounded) = true
        · rw [if_pos h3] at hr; subst hr; exact ht
        · rw [if_neg h3] at hr; subst hr; exact hx _
      · rw [if_neg h2] at hr; subst hr; exact ht
    | none =>
      dsimp only at hr
      by_cases h3 : ((setState (touch tk.shards i) i .prepared).all fun e => e.2.state = .prepared) = true
      · rw [if_pos h3] at hr; subst hr
        obtain ⟨h1, h2, h3⟩ := doCommit_leaves
          { state := .prepared, shards := setState (touch tk.shards i) i .prepared } t c p
        exact .same (fun j k q h => by rw [h2, key_setState, key_touch] at h; exact h)
          (fun h => absurd h hna) h3
      · rw [if_neg h3] at hr; subst hr; exact hx _

theorem next_leaves {e : Event} (he : e.other = true) (x : Option Ticket) : Leaves x (next e x) := by
  cases e with
  | foundKey cb t k ty r ok => nomatch he
  | locked cb t k i r => nomatch he
  | recover cb => cases x <;> exact .stay _
  | gotTickets cb i r p => cases x <;> exact .stay _
  | ticketNumber cb r =>
    cases r with
    | none => cases x <;> exact .stay _
    | some r =>
      cases x with
      | some tk => exact .stay _
      | none =>
        refine ⟨?_, fun _ h => (nomatch h), fun h => (nomatch h)⟩
        intro tk' h1 _ i k q h3
        cases h1
        simp [key] at h3
  | tryLock cb t ok =>
    cases x with
    | none => exact .stay _
    | some tk =>
      unfold next
      dsimp only
      split
      · refine ⟨?_, fun _ h => (nomatch h), fun h => (nomatch h)⟩
        intro tk' h1 _ i k q h3
        cases h1
        simp [key] at h3
      · exact .stay _
  | commit cb t u p =>
    cases x with
    | none => exact .stay _
    | some tk =>
      unfold next
      dsimp only
      unfold Ticket.commit
      split
      · exact .same (fun _ _ _ h => h) (fun h => h) (fun _ h => (nomatch h))
      · split
        · obtain ⟨h1, h2, h3⟩ := doCommit_leaves tk t ⟨cb, false⟩ p
          exact .same (fun i k q h => by rw [h2] at h; exact h) (fun h => h1.trans h) h3
        · obtain ⟨h1, h2, h3⟩ := doPrepare_leaves tk t u ⟨cb, false⟩ p
          exact .same (fun i k q h => by rw [h2] at h; exact h) (fun h => h1.trans h) h3
  | prepared c t i r p =>
    cases x with
    | none => exact .stay _
    | some tk =>
      unfold next
      dsimp only
      split
      · next hb =>
        exact handlePrepare_leaves hb c t i r p _ rfl
      · exact .stay _
  | committed c t i r p =>
    cases x with
    | none => exact .stay _
    | some tk =>
      unfold next
      dsimp only
      split
      · next hb =>
        have hna : tk.state = .aborted → False := fun h => by rw [hb] at h; nomatch h
        split
        · exact .same (fun j k q h => by rw [key_touch] at h; exact h) (fun h => h) (fun _ h => (nomatch h))
        · split
          · exact .stay _
          · split
            · exact .same (fun j k q h => by rw [key_setState, key_touch] at h; exact h)
                (fun h => absurd h hna) (fun _ h => (nomatch h))
            · exact .same (fun j k q h => by rw [key_setState, key_touch] at h; exact h) (fun h => h)
                (fun _ h => (nomatch h))
      · exact .stay _
  | rollback cb t p =>
    cases x with
    | none => exact .stay _
    | some tk =>
      unfold next
      dsimp only
      split
      · split
        · refine ⟨?_, fun _ h => (nomatch h), ?_⟩
          · intro tk' h1 h2; cases h1; exact absurd rfl h2
          · intro _ tk' h1; cases h1; rfl
        · refine .same (fun j k q h => by rw [Ticket.rollback, key_mark] at h; exact h) (fun h => h) ?_
          intro d hd
          obtain ⟨_, _, rfl⟩ := List.mem_map.mp hd
          rfl
      · exact .stay _
  | rolledBack c t i r p =>
    cases x with
    | none => exact .stay _
    | some tk =>
      unfold next
      dsimp only
      split
      · split
        · exact .same (fun j k q h => by rw [key_touch] at h; exact h) (fun h => h) (fun _ h => (nomatch h))
        · split
          · exact .stay _
          · split
            · refine ⟨?_, fun _ h => (nomatch h), ?_⟩
              · intro tk' h1 h2; cases h1; exact absurd rfl h2
              · intro _ tk' h1; cases h1; rfl
            · exact .same (fun j k q h => by have := key_clear h; rw [key_touch] at this; exact this)
                (fun h => h) (fun _ h => (nomatch h))
      · exact .stay _
  | finish cb t p =>
    cases x with
    | none => exact .stay _
    | some tk =>
      unfold next
      dsimp only
      split
      · exact .erase _
      · refine .same (fun j k q h => by rw [Ticket.finish, key_mark] at h; exact h) (fun h => h) ?_
        intro d hd
        obtain ⟨_, _, rfl⟩ := List.mem_map.mp hd
        rfl
      · exact .stay _
  | finished c t i r =>
    cases x with
    | none => exact .stay _
    | some tk =>
      unfold next
      dsimp only
      split
      · split
        · exact .same (fun j k q h => by rw [key_touch] at h; exact h) (fun h => h) (fun _ h => (nomatch h))
        · split
          · exact .stay _
          · split
            · exact .erase _
            · exact .same (fun j k q h => by rw [key_setState, key_touch] at h; exact h) (fun h => h)
                (fun _ h => (nomatch h))
      · exact .stay _

/-! ### The invariant -/

/-- What the record of a key says: a lock that was granted, or the type of the request that was not
answered. -/
structure Record (t : Tn) (h : Hist) (i : Nat) (k : Key) (q : KeySt) : Prop where
  held : q.locked = true → ∃ v, q.value = some v ∧ Granted t h i k q.type v
  asked : q.locked = false → ∀ ty f cb, Asked t h (.tryLock i t k ty f cb) → ¬Replied t h i k cb →
    ty = q.type

/-- All records of a ticket are right, unless it is rolled back. -/
def Records (t : Tn) (h : Hist) (tk : Ticket) : Prop :=
  tk.state ≠ .aborted → ∀ i k q, key tk.shards i k = some q → Record t h i k q

theorem Granted.mono {t : Tn} {h : Hist} {x : Event × Out} (hx : x.2.said.any (Said.aborts t) = false)
    {i : Nat} {k : Key} {ty : LockType} {v : Value} (hg : Granted t h i k ty v) :
    Granted t (x :: h) i k ty v := by
  obtain ⟨cb, f, h1, y, h2, h3⟩ := hg
  exact ⟨cb, f, h1.mono hx, y, by rw [attempt_cons hx]; exact List.mem_cons_of_mem _ h2, h3⟩

theorem Replied.mono {t : Tn} {h : Hist} {x : Event × Out} (hx : x.2.said.any (Said.aborts t) = false)
    {i : Nat} {k : Key} {cb : Nat} (hg : Replied t h i k cb) : Replied t (x :: h) i k cb := by
  obtain ⟨y, h2, h3⟩ := hg
  exact ⟨y, by rw [attempt_cons hx]; exact List.mem_cons_of_mem _ h2, h3⟩

/-- Nothing happened to the key. -/
theorem Record.mono {t : Tn} {h : Hist} {x : Event × Out} (hx : x.2.said.any (Said.aborts t) = false)
    {i : Nat} {k : Key} {q : KeySt} (hr : Record t h i k q)
    (hc : ∀ ty f cb, .tryLock i t k ty f cb ∉ x.2.calls) : Record t (x :: h) i k q where
  held := fun hl => by
    obtain ⟨v, h1, h2⟩ := hr.held hl
    exact ⟨v, h1, h2.mono hx⟩
  asked := fun hl ty f cb ha hn => by
    rcases ha.cases with h1 | h1
    · exact absurd h1 (hc ty f cb)
    · exact hr.asked hl ty f cb h1 fun h => hn (h.mono hx)

theorem records_next {t : Tn} {h : Hist} {e : Event} {o : Out} {s s' : State} (hp : Plain h e) (ho : Once h e)
    (ht : e.ticket = some t) (hs : Steps s e t (s', o))
    (hi : ∀ tk, s.tickets.lookup t = some tk → Records t h tk) {tk' : Ticket}
    (hl : s'.tickets.lookup t = some tk') : Records t ((e, o) :: h) tk' := by
  have hown := hs.own
  have hcalls := hs.calls
  have hsaid := hs.said
  dsimp only at hown hcalls hsaid
  rw [hl] at hown
  by_cases he : e.other = true
  · have hL := next_leaves he (s.tickets.lookup t)
    intro hna i k q hk
    cases hx : (next e (s.tickets.lookup t)).2.2 with
    | true => exact absurd (hL.aborts hx tk' hown.symm) hna
    | false =>
      rw [hx] at hsaid
      obtain ⟨tk, h1, h2, h3⟩ := hL.keys tk' hown.symm hna i k q hk
      refine (hi tk h1 h2 i k q h3).mono hsaid fun ty f cb hc => ?_
      rw [hcalls] at hc
      exact nomatch hL.calls _ hc
  · cases e with
    | foundKey cb y k ty r ok =>
      cases ht
      cases hx : s.tickets.lookup t with
      | none =>
        rw [hx] at hown
        cases r <;> nomatch hown
      | some tk =>
        rw [hx] at hown hcalls hsaid
        have hrec := hi tk hx
        cases r with
        | none =>
          dsimp only [next, stay] at hown hcalls hsaid
          cases hown
          intro hna i k' q hk
          exact (hrec hna i k' q hk).mono hsaid fun _ _ _ hc => by rw [hcalls] at hc; nomatch hc
        | some i =>
          dsimp only [next] at hown hcalls hsaid
          split at hown
          · next hb =>
            rw [if_pos hb] at hcalls hsaid
            split at hown
            · next hc =>
              rw [if_pos hc] at hcalls hsaid
              dsimp only [stay] at hown hcalls hsaid
              cases hown
              intro hna j k' q hk
              dsimp only at hk
              rw [key_touch] at hk
              exact (hrec (by rw [hb]; exact (nomatch ·)) j k' q hk).mono hsaid
                fun _ _ _ hc => by rw [hcalls] at hc; nomatch hc
            · next hc =>
              rw [if_neg hc] at hcalls hsaid
              dsimp only at hown hcalls hsaid
              cases hown
              have hmem : ∀ j k' ty' f d, Call.tryLock j t k' ty' f d ∈ o.calls →
                  j = i ∧ k' = k ∧ ty' = ty ∧ d = cb := by
                intro j k' ty' f d hm
                rw [hcalls] at hm
                split at hm
                · cases List.mem_singleton.mp hm; exact ⟨rfl, rfl, rfl, rfl⟩
                · nomatch hm
              have hold : ∀ j k' q, ¬(j = i ∧ k' = k) → key tk.shards j k' = some q →
                  Record t ((.foundKey cb t k ty (some i) ok, o) :: h) j k' q := by
                intro j k' q hne hk
                refine (hrec (by rw [hb]; exact (nomatch ·)) j k' q hk).mono hsaid
                  fun ty' f d hm => ?_
                obtain ⟨h1, h2, _⟩ := hmem _ _ _ _ _ hm
                exact hne ⟨h1, h2⟩
              intro hna j k' q hk
              dsimp only at hk
              rw [key_update (touch tk.shards i) i (fun ks => locking ks k ty)] at hk
              split at hk
              · next hj =>
                subst hj
                obtain ⟨sh, h1, h2⟩ := Option.bind_eq_some_iff.mp hk
                by_cases hkk : k' = k
                · subst hkk
                  obtain ⟨q', h3, h4, h5⟩ := (lookup_locking sh.keys k' ty k').1 rfl
                  rw [h3] at h2; cases h2
                  refine ⟨fun h => (by rw [h4] at h; nomatch h), ?_⟩
                  intro _ ty' f d ha hn
                  rw [h5]
                  rcases ha.cases with h6 | h6
                  · exact (hmem _ _ _ _ _ h6).2.2.1
                  · exact absurd ((ho _ _ _ _ h6).mono hsaid) hn
                · rw [(lookup_locking sh.keys k ty k').2 hkk] at h2
                  refine hold j k' q (fun h => hkk h.2) ?_
                  rw [← key_touch tk.shards j]
                  unfold key
                  rw [h1]
                  exact h2
              · next hj =>
                rw [key_touch] at hk
                exact hold j k' q (fun h => hj h.1) hk
          · next hb =>
            rw [if_neg hb] at hcalls hsaid
            dsimp only [stay] at hown hcalls hsaid
            cases hown
            intro hna j k' q hk
            exact (hrec hna j k' q hk).mono hsaid fun _ _ _ hc => by rw [hcalls] at hc; nomatch hc
    | locked cb y k i r =>
      cases ht
      cases hx : s.tickets.lookup t with
      | none =>
        rw [hx] at hown
        cases r <;> nomatch hown
      | some tk =>
        rw [hx] at hown hcalls hsaid
        have hrec := hi tk hx
        cases r with
        | error er =>
          dsimp only [next, stay] at hown hcalls hsaid
          cases hown
          intro hna j k' q hk
          exact (hrec hna j k' q hk).mono hsaid fun _ _ _ hc => by rw [hcalls] at hc; nomatch hc
        | value v =>
          dsimp only [next] at hown hcalls hsaid
          have same : (∀ c, c ∉ o.calls) → o.said.any (Said.aborts t) = false → tk'.state = tk.state →
              (∀ j k' q, key tk'.shards j k' = some q → key tk.shards j k' = some q) →
              Records t ((.locked cb t k i (.value v), o) :: h) tk' := by
            intro hc hsd h1 h2 hna j k' q hk
            exact (hrec (by rw [← h1]; exact hna) j k' q (h2 j k' q hk)).mono hsd fun _ _ _ => hc _
          split at hown
          · next hq =>
            rw [hq] at hcalls hsaid
            dsimp only [stay] at hown hcalls hsaid
            cases hown
            refine same (fun c hc => ?_) hsaid rfl (fun j k' q hk => ?_)
            · rw [hcalls] at hc; nomatch hc
            · dsimp only at hk; rw [key_touch] at hk; exact hk
          · next q0 hq =>
            rw [hq] at hcalls hsaid
            dsimp only at hcalls hsaid
            split at hown
            · next hlk =>
              rw [if_pos hlk] at hcalls hsaid
              dsimp only [stay] at hown hcalls hsaid
              cases hown
              refine same (fun c hc => ?_) hsaid rfl (fun j k' q hk => ?_)
              · rw [hcalls] at hc; nomatch hc
              · dsimp only at hk; rw [key_touch] at hk; exact hk
            · next hlk =>
              rw [if_neg hlk] at hcalls hsaid
              dsimp only [stay] at hown hcalls hsaid
              cases hown
              have hnc : ∀ c, c ∉ o.calls := fun c hc => by rw [hcalls] at hc; nomatch hc
              intro hna j k' q hk
              dsimp only at hna hk
              rw [key_update] at hk
              split at hk
              · next hj =>
                subst hj
                obtain ⟨sh, h1, h2⟩ := Option.bind_eq_some_iff.mp hk
                have hmap := lookup_map_at sh.keys k (fun q : KeySt => { q with
                  locked := true
                  value := some v }) k'
                rw [hmap] at h2
                rw [h1] at hq
                dsimp only [Option.getD_some] at hq
                by_cases hkk : k' = k
                · subst hkk
                  rw [if_pos rfl, hq] at h2
                  cases h2
                  have hq0 : q0.locked = false := by simpa using hlk
                  have hkey : key tk.shards j k' = some q0 := by
                    rw [← key_touch tk.shards j]
                    unfold key
                    rw [h1]
                    exact hq
                  obtain ⟨ty, f, ha⟩ := hp
                  have hty := (hrec hna j k' q0 hkey).asked hq0 ty f cb ha ho
                  refine ⟨fun _ => ⟨v, rfl, cb, f, ?_,
                    (.locked cb t k' j (.value v), o), ?_, rfl⟩, (nomatch ·)⟩
                  · dsimp only; rw [← hty]; exact ha.mono hsaid
                  · rw [attempt_cons hsaid]; exact List.mem_cons_self
                · rw [if_neg hkk] at h2
                  refine (hrec hna j k' q ?_).mono hsaid fun _ _ _ => hnc _
                  rw [← key_touch tk.shards j]
                  unfold key
                  rw [h1]
                  exact h2
              · rw [key_touch] at hk
                exact (hrec hna j k' q hk).mono hsaid fun _ _ _ => hnc _
    | _ => exact absurd rfl he

theorem records_other {t : Tn} {h : Hist} {e : Event} {o : Out} {tk : Ticket} (hr : Records t h tk)
    (hsaid : o.said.any (Said.aborts t) = false)
    (hc : ∀ i k ty f cb, Call.tryLock i t k ty f cb ∉ o.calls) : Records t ((e, o) :: h) tk :=
  fun hna i k q hk => (hr hna i k q hk).mono hsaid fun ty f cb => hc i k ty f cb

theorem Disciplined.run {n : Nat} {h : Hist} {s : State} (hr : Disciplined n h s) : Run n h s := by
  induction hr with
  | start => exact .start
  | step _ hp _ hs ih => exact .step ih hp hs

theorem lock_calls {s s' : State} {e : Event} {o : Out} {t : Tn} (hs : Steps s e t (s', o))
    (ht : e.ticket = some t) {i y : Nat} {k : Key} {ty : LockType} {f : Bool} {cb : Nat}
    (hm : Call.tryLock i y k ty f cb ∈ o.calls) : y = t := by
  have hcalls := hs.calls
  dsimp only at hcalls
  rw [hcalls] at hm
  by_cases he : e.other = true
  · exact nomatch (next_leaves he (s.tickets.lookup t)).calls _ hm
  · cases e with
    | foundKey cb' y' k' ty' r ok =>
      cases ht
      cases hx : s.tickets.lookup t with
      | none => rw [hx] at hm; cases r <;> nomatch hm
      | some tk =>
        rw [hx] at hm
        cases r with
        | none => nomatch hm
        | some j =>
          dsimp only [next] at hm
          split at hm
          · split at hm
            · nomatch hm
            · dsimp only at hm
              split at hm
              · cases List.mem_singleton.mp hm; rfl
              · nomatch hm
          · nomatch hm
    | locked cb' y' k' j r =>
      cases ht
      cases hx : s.tickets.lookup t with
      | none => rw [hx] at hm; cases r <;> nomatch hm
      | some tk =>
        rw [hx] at hm
        cases r with
        | error er => nomatch hm
        | value v =>
          dsimp only [next] at hm
          split at hm
          · nomatch hm
          · split at hm <;> nomatch hm
    | _ => exact absurd rfl he

theorem Disciplined.records {n : Nat} {h : Hist} {s : State} (hr : Disciplined n h s) :
    ∀ t tk, s.tickets.lookup t = some tk → Records t h tk := by
  induction hr with
  | start => intro t tk h; nomatch h
  | step hr hp ho hs ih =>
    rename_i h s s' e o
    intro t tk hl
    cases ht : e.ticket with
    | some y =>
      have hst := step_next hp.plain ht hs
      by_cases hty : t = y
      · subst hty
        exact records_next hp ho ht hst (ih t) hl
      · rw [hst.other t hty] at hl
        refine records_other (ih t tk hl) (hst.saidOther t hty) fun i k ty f cb hm => ?_
        exact hty (lock_calls hst ht hm)
    | none =>
      cases e with
      | ticketNumber cb r =>
        cases r with
        | some r => nomatch ht
        | none =>
          cases hs
          exact records_other (ih t tk hl) (by simp [Said.aborts]) fun _ _ _ _ _ h => nomatch h
      | recover cb => exact hp.elim
      | gotTickets cb i r p => exact hp.elim
      | _ => nomatch ht

end Verif.Parsec.Broker
