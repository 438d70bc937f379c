import Verif.Parsec.Shard

/-!
# One lock of the PArSEC shard

The invariant of the lock of one key, and what granting, enqueueing and
releasing do to it.
-/
namespace Verif.Parsec

/-- A transaction `h` is in the way of waiter `w`: it holds the lock and not
both only want to read. -/
def Conflicts (held : Tn → Option LockType) (w : Waiter) (h : Tn) : Prop :=
  h ≠ w.ticket ∧
  (held h = some .write ∨ (held h = some .read ∧ w.type = .write))

/-- The state of the lock of one key, with the holders and waiters according
to the transaction records.  `P` are the transactions that cannot be
wounded. -/
structure KeyOk (P : Tn → Prop) (lk : Lock) (held : Tn → Option LockType)
    (queued : Tn → Prop) : Prop where
  writer : ∀ t, lk.writer = some t ↔ held t = some .write
  reader : ∀ t, t ∈ lk.readers ↔ held t = some .read
  waiter : ∀ t, (∃ w ∈ lk.queue, w.ticket = t) ↔ queued t
  excl : lk.writer.isSome → lk.readers = []
  nodup : lk.readers.Nodup
  sorted : lk.queue.Pairwise (fun a b => a.ticket < b.ticket)
  upgrade : ∀ w ∈ lk.queue, held w.ticket ≠ some .write ∧
    (held w.ticket = some .read → w.type = .write)
  order : ∀ w ∈ lk.queue, ∀ h, Conflicts held w h → h < w.ticket ∨ P h

/-- Nobody can be granted the lock. -/
def Stuck (lk : Lock) : Prop := lk.grant.2 = []

theorem Stuck.grant {lk : Lock} (h : Stuck lk) : lk.grant.1 = lk := by
  obtain ⟨wr, rs, q⟩ := lk
  cases q with
  | nil => rfl
  | cons w q =>
    revert h
    unfold Stuck Lock.grant Parsec.grant
    cases w.type with
    | read =>
      simp only
      split
      · simp
      · simp
    | write =>
      simp only
      split
      · simp
      · split
        · simp
        · simp

theorem mem_addReader {rs : List Tn} {t x : Tn} :
    x ∈ addReader rs t ↔ x = t ∨ x ∈ rs := by
  unfold addReader
  split
  · constructor
    · exact Or.inr
    · rintro (rfl | h)
      · assumption
      · exact h
  · simp

theorem nodup_addReader {rs : List Tn} {t : Tn} (h : rs.Nodup) :
    (addReader rs t).Nodup := by
  unfold addReader
  split
  · exact h
  · exact List.nodup_cons.mpr ⟨by assumption, h⟩

theorem grant_sub (wr : Option Tn) (rs : List Tn) (q : List Waiter) :
    ∀ w ∈ (grant wr rs q).2, w ∈ q := by
  induction q generalizing rs with
  | nil => simp [grant]
  | cons w q ih =>
    intro x hx
    unfold grant at hx
    cases hw : w.type with
    | read =>
      simp only [hw] at hx
      split at hx
      · simp at hx
      · rcases List.mem_cons.mp hx with rfl | hx
        · simp
        · exact List.mem_cons_of_mem _ (ih _ x hx)
    | write =>
      simp only [hw] at hx
      split at hx
      · simp at hx
      · split at hx
        · simp at hx
        · simp at hx
          simp [hx]

/-- Granted waiters and those still waiting make up the queue. -/
theorem grant_queue (wr : Option Tn) (rs : List Tn) (q : List Waiter) :
    (grant wr rs q).2 ++ (grant wr rs q).1.queue = q := by
  induction q generalizing rs with
  | nil => simp [grant]
  | cons w q ih =>
    unfold grant
    cases hw : w.type with
    | read =>
      simp only
      split
      · simp
      · simp [ih]
    | write =>
      simp only
      split
      · simp
      · split
        · simp
        · simp

theorem find_none {gs : List Waiter} {t : Tn}
    (h : ∀ w ∈ gs, w.ticket ≠ t) : gs.find? (fun w => w.ticket = t) = none := by
  simp [List.find?_eq_none]
  exact fun w hw => h w hw

theorem heldAfter_cons (w : Waiter) (gs : List Waiter) (t : Tn)
    (h : Option LockType) :
    heldAfter (w :: gs) t h =
      if w.ticket = t then some w.type else heldAfter gs t h := by
  unfold heldAfter
  by_cases hw : w.ticket = t
  · simp [hw]
  · simp [hw]

/-- Granting the lock to the front reader. -/
theorem KeyOk.grantRead {P : Tn → Prop} {rs : List Tn} {w : Waiter}
    {q : List Waiter} {held : Tn → Option LockType} {queued : Tn → Prop}
    (ok : KeyOk P { writer := none, readers := rs, queue := w :: q } held
      queued) (hw : w.type = .read) :
    KeyOk P { writer := none, readers := addReader rs w.ticket, queue := q }
      (fun t => if w.ticket = t then some .read else held t)
      (fun t => queued t ∧ w.ticket ≠ t) := by
  have hsort := List.pairwise_cons.mp ok.sorted
  have hnw : ∀ t, held t ≠ some .write := by
    intro t ht
    have := (ok.writer t).mpr ht
    simp at this
  constructor
  · intro t
    simp only
    split
    · simp
    · constructor
      · simp
      · intro h
        exact absurd h (hnw t)
  · intro t
    simp only [mem_addReader]
    by_cases ht : w.ticket = t
    · simp [ht]
    · simp only [ht, if_false]
      rw [← ok.reader t]
      constructor
      · rintro (rfl | h)
        · exact absurd rfl ht
        · exact h
      · exact Or.inr
  · intro t
    simp only
    rw [← ok.waiter t]
    constructor
    · rintro ⟨x, hx, rfl⟩
      exact ⟨⟨x, List.mem_cons_of_mem _ hx, rfl⟩, Nat.ne_of_lt (hsort.1 x hx)⟩
    · rintro ⟨⟨x, hx, rfl⟩, hne⟩
      rcases List.mem_cons.mp hx with rfl | hx
      · exact absurd rfl hne
      · exact ⟨x, hx, rfl⟩
  · simp
  · exact nodup_addReader ok.nodup
  · exact hsort.2
  · intro x hx
    have hne : w.ticket ≠ x.ticket := Nat.ne_of_lt (hsort.1 x hx)
    simp only [hne, if_false]
    exact ok.upgrade x (List.mem_cons_of_mem _ hx)
  · intro x hx h hc
    by_cases hh : w.ticket = h
    · subst hh
      exact Or.inl (hsort.1 x hx)
    · apply ok.order x (List.mem_cons_of_mem _ hx) h
      simpa [Conflicts, hh] using hc

/-- Granting the lock to the front writer. -/
theorem KeyOk.grantWrite {P : Tn → Prop} {rs : List Tn} {w : Waiter}
    {q : List Waiter} {held : Tn → Option LockType} {queued : Tn → Prop}
    (ok : KeyOk P { writer := none, readers := rs, queue := w :: q } held
      queued) (hrs : ∀ r ∈ rs, r = w.ticket) :
    KeyOk P { writer := some w.ticket, readers := [], queue := q }
      (fun t => if w.ticket = t then some .write else held t)
      (fun t => queued t ∧ w.ticket ≠ t) := by
  have hsort := List.pairwise_cons.mp ok.sorted
  have hnone : ∀ t, w.ticket ≠ t → held t = none := by
    intro t ht
    cases hh : held t with
    | none => rfl
    | some ty =>
      cases ty with
      | read => exact absurd (hrs t ((ok.reader t).mpr hh)).symm ht
      | write =>
        have := (ok.writer t).mpr hh
        simp at this
  constructor
  · intro t
    by_cases ht : w.ticket = t
    · simp [ht]
    · simp [ht, hnone t ht]
  · intro t
    by_cases ht : w.ticket = t
    · simp [ht]
    · simp [ht, hnone t ht]
  · intro t
    simp only
    rw [← ok.waiter t]
    constructor
    · rintro ⟨x, hx, rfl⟩
      exact ⟨⟨x, List.mem_cons_of_mem _ hx, rfl⟩, Nat.ne_of_lt (hsort.1 x hx)⟩
    · rintro ⟨⟨x, hx, rfl⟩, hne⟩
      rcases List.mem_cons.mp hx with rfl | hx
      · exact absurd rfl hne
      · exact ⟨x, hx, rfl⟩
  · simp
  · simp
  · exact hsort.2
  · intro x hx
    have hne : w.ticket ≠ x.ticket := Nat.ne_of_lt (hsort.1 x hx)
    simp only [hne, if_false]
    exact ok.upgrade x (List.mem_cons_of_mem _ hx)
  · intro x hx h hc
    by_cases hh : w.ticket = h
    · subst hh
      exact Or.inl (hsort.1 x hx)
    · apply ok.order x (List.mem_cons_of_mem _ hx) h
      simpa [Conflicts, hh] using hc

theorem KeyOk.congr {P : Tn → Prop} {lk : Lock}
    {held held' : Tn → Option LockType} {queued queued' : Tn → Prop}
    (ok : KeyOk P lk held queued) (hh : ∀ t, held' t = held t)
    (hq : ∀ t, queued' t ↔ queued t) : KeyOk P lk held' queued' := by
  have h1 : held' = held := funext hh
  have h2 : queued' = queued := funext fun t => propext (hq t)
  subst h1
  subst h2
  exact ok

theorem grant_ok (P : Tn → Prop) (wr : Option Tn) (rs : List Tn)
    (q : List Waiter) (held : Tn → Option LockType) (queued : Tn → Prop)
    (ok : KeyOk P { writer := wr, readers := rs, queue := q } held queued) :
    KeyOk P (grant wr rs q).1
      (fun t => heldAfter (grant wr rs q).2 t (held t))
      (fun t => queued t ∧ ∀ w ∈ (grant wr rs q).2, w.ticket ≠ t) ∧
    Stuck (grant wr rs q).1 := by
  induction q generalizing rs held queued with
  | nil =>
    refine ⟨ok.congr (fun t => ?_) (fun t => ?_), ?_⟩
    · simp [grant, heldAfter]
    · simp [grant]
    · simp [grant, Stuck, Lock.grant]
  | cons w q ih =>
    have hsort := List.pairwise_cons.mp ok.sorted
    have hsub := grant_sub wr (addReader rs w.ticket) q
    have hstop : (grant wr rs (w :: q)) =
        ({ writer := wr, readers := rs, queue := w :: q }, []) →
        KeyOk P (grant wr rs (w :: q)).1
          (fun t => heldAfter (grant wr rs (w :: q)).2 t (held t))
          (fun t => queued t ∧ ∀ x ∈ (grant wr rs (w :: q)).2, x.ticket ≠ t) ∧
        Stuck (grant wr rs (w :: q)).1 := by
      intro he
      refine ⟨?_, ?_⟩
      · rw [he]
        exact ok.congr (fun t => by simp [heldAfter]) (fun t => by simp)
      · rw [he]
        unfold Stuck Lock.grant
        simp only [he]
    cases hw : w.type with
    | read =>
      by_cases hwr : wr.isSome
      · apply hstop
        unfold grant
        simp [hw, hwr]
      · have hn : wr = none := by simpa using hwr
        subst hn
        have he : grant none rs (w :: q) =
            ((grant none (addReader rs w.ticket) q).1,
             w :: (grant none (addReader rs w.ticket) q).2) := by
          rw [grant]
          simp [hw]
        obtain ⟨h1, h2⟩ := ih _ _ _ (ok.grantRead hw)
        rw [he]
        refine ⟨h1.congr (fun t => ?_) (fun t => ?_), h2⟩
        · simp only
          rw [heldAfter_cons, hw]
          by_cases ht : w.ticket = t
          · rw [if_pos ht, if_pos ht]
            unfold heldAfter
            rw [find_none]
            intro x hx hxt
            have := hsort.1 x (hsub x hx)
            omega
          · simp [ht]
        · simp only [List.mem_cons, forall_eq_or_imp]
          constructor
          · rintro ⟨a, b, c⟩
            exact ⟨⟨a, b⟩, c⟩
          · rintro ⟨⟨a, b⟩, c⟩
            exact ⟨a, b, c⟩
    | write =>
      by_cases h1 : 1 < rs.length ∨ wr.isSome
      · apply hstop
        rw [grant]
        simp only [hw]
        rw [if_pos h1]
      · by_cases h2 : rs.length = 1 ∧ rs.head? ≠ some w.ticket
        · apply hstop
          rw [grant]
          simp only [hw]
          rw [if_neg h1, if_pos h2]
        · have he : grant wr rs (w :: q) =
              ({ writer := some w.ticket, readers := [], queue := q },
               [w]) := by
            rw [grant]
            simp only [hw]
            rw [if_neg h1, if_neg h2]
          have hn : wr = none := by
            cases wr with
            | none => rfl
            | some x => exact absurd (Or.inr rfl) h1
          subst hn
          have hrs : ∀ r ∈ rs, r = w.ticket := by
            intro r hr
            match rs, hr with
            | [x], hr =>
              simp at hr
              subst hr
              simp at h2
              exact h2
            | x :: y :: l, _ => simp at h1
          rw [he]
          refine ⟨(ok.grantWrite hrs).congr (fun t => ?_) (fun t => ?_), ?_⟩
          · simp only
            rw [heldAfter_cons, hw]
            simp [heldAfter]
          · simp
          · unfold Stuck Lock.grant
            cases q with
            | nil => simp [grant]
            | cons y q =>
              rw [grant]
              cases y.type with
              | read => simp
              | write => simp

/-- Removing a transaction from the lock. -/
theorem KeyOk.unlock {P : Tn → Prop} {lk : Lock}
    {held : Tn → Option LockType} {queued : Tn → Prop}
    (ok : KeyOk P lk held queued) (t : Tn) (b : Bool)
    (hb : b = true ↔ queued t) :
    KeyOk P (unlock t (held t) b lk)
      (fun x => if x = t then none else held x)
      (fun x => queued x ∧ x ≠ t) := by
  have hq : ∀ w, w ∈ (Parsec.unlock t (held t) b lk).queue ↔
      w ∈ lk.queue ∧ w.ticket ≠ t := by
    intro w
    unfold Parsec.unlock
    simp only
    cases b with
    | true => simp [List.mem_filter]
    | false =>
      simp only [Bool.false_eq_true, if_false]
      constructor
      · intro hw
        refine ⟨hw, fun he => ?_⟩
        have := hb.mpr ((ok.waiter t).mp ⟨w, hw, he⟩)
        simp at this
      · exact And.left
  constructor
  · intro x
    unfold Parsec.unlock
    simp only
    by_cases hx : x = t
    · subst hx
      simp only [if_true, reduceCtorEq, iff_false]
      split
      · simp
      · intro h
        have := (ok.writer x).mp h
        contradiction
    · simp only [hx, if_false]
      split
      · rename_i h
        constructor
        · simp
        · intro h'
          have h1 := (ok.writer x).mpr h'
          have h2 := (ok.writer t).mpr h
          rw [h1] at h2
          exact absurd (Option.some.inj h2) hx
      · exact ok.writer x
  · intro x
    unfold Parsec.unlock
    simp only
    by_cases hx : x = t
    · subst hx
      simp only [if_true, reduceCtorEq, iff_false]
      split
      · simp [List.mem_filter]
      · intro h
        have := (ok.reader x).mp h
        contradiction
    · simp only [hx, if_false]
      rw [← ok.reader x]
      split
      · simp [List.mem_filter, hx]
      · rfl
  · intro x
    rw [← ok.waiter x]
    constructor
    · rintro ⟨w, hw, rfl⟩
      have := (hq w).mp hw
      exact ⟨⟨w, this.1, rfl⟩, this.2⟩
    · rintro ⟨⟨w, hw, rfl⟩, hne⟩
      exact ⟨w, (hq w).mpr ⟨hw, hne⟩, rfl⟩
  · intro h
    have h' : lk.writer.isSome := by
      revert h
      unfold Parsec.unlock
      simp only
      split
      · simp
      · exact id
    unfold Parsec.unlock
    simp only [ok.excl h']
    split <;> rfl
  · unfold Parsec.unlock
    simp only
    split
    · exact ok.nodup.sublist List.filter_sublist
    · exact ok.nodup
  · unfold Parsec.unlock
    simp only
    split
    · exact ok.sorted.sublist List.filter_sublist
    · exact ok.sorted
  · intro w hw
    have h1 := (hq w).mp hw
    simp only [h1.2, if_false]
    exact ok.upgrade w h1.1
  · intro w hw h hc
    have h1 := (hq w).mp hw
    apply ok.order w h1.1 h
    obtain ⟨ha, hb⟩ := hc
    refine ⟨ha, ?_⟩
    by_cases hx : h = t
    · simp [hx] at hb
    · simpa [hx] using hb

theorem mem_enqueue {w x : Waiter} {q : List Waiter}
    (h : ∀ y ∈ q, y.ticket ≠ w.ticket) :
    x ∈ enqueue w q ↔ x = w ∨ x ∈ q := by
  induction q with
  | nil => simp [enqueue]
  | cons y q ih =>
    unfold enqueue
    have hy : y.ticket ≠ w.ticket := h y (List.mem_cons_self)
    split
    · simp
    · split
      · rename_i h1
        exact absurd h1.symm hy
      · rw [List.mem_cons, ih fun z hz => h z (List.mem_cons_of_mem _ hz)]
        constructor
        · rintro (h | h | h)
          · exact Or.inr (List.mem_cons.mpr (Or.inl h))
          · exact Or.inl h
          · exact Or.inr (List.mem_cons_of_mem _ h)
        · rintro (h | h)
          · exact Or.inr (Or.inl h)
          · rcases List.mem_cons.mp h with h | h
            · exact Or.inl h
            · exact Or.inr (Or.inr h)

theorem sorted_enqueue {w : Waiter} {q : List Waiter}
    (h : ∀ y ∈ q, y.ticket ≠ w.ticket)
    (hs : q.Pairwise (fun a b => a.ticket < b.ticket)) :
    (enqueue w q).Pairwise (fun a b => a.ticket < b.ticket) := by
  induction q with
  | nil => simp [enqueue]
  | cons y q ih =>
    have hy : y.ticket ≠ w.ticket := h y (List.mem_cons_self)
    have hs' := List.pairwise_cons.mp hs
    unfold enqueue
    split
    · rename_i h1
      refine List.pairwise_cons.mpr ⟨?_, hs⟩
      intro z hz
      rcases List.mem_cons.mp hz with rfl | hz
      · exact h1
      · exact Nat.lt_trans h1 (hs'.1 z hz)
    · split
      · exact hs
      · rename_i h1 h2
        have hq : ∀ z ∈ q, z.ticket ≠ w.ticket :=
          fun z hz => h z (List.mem_cons_of_mem _ hz)
        refine List.pairwise_cons.mpr ⟨?_, ih hq hs'.2⟩
        intro z hz
        rcases (mem_enqueue hq).mp hz with rfl | hz
        · omega
        · exact hs'.1 z hz

theorem mem_waitingOn {P : Tn → Prop} {lk : Lock}
    {held : Tn → Option LockType} {queued : Tn → Prop}
    (ok : KeyOk P lk held queued) (t : Tn) (ty : LockType) (h : Tn) :
    h ∈ waitingOn t ty lk ↔ t < h ∧
      (held h = some .write ∨ (held h = some .read ∧ ty = .write)) := by
  unfold waitingOn
  rw [List.mem_append]
  have hw := ok.writer h
  have hr := ok.reader h
  constructor
  · rintro (h1 | h1)
    · split at h1
      · rename_i hty
        have := List.mem_filter.mp h1
        exact ⟨by simpa using this.2, Or.inr ⟨hr.mp this.1, hty⟩⟩
      · simp at h1
    · cases hlk : lk.writer with
      | none => simp [hlk] at h1
      | some x =>
        simp only [hlk] at h1
        split at h1
        · rename_i hlt
          simp at h1
          subst h1
          exact ⟨hlt, Or.inl (hw.mp hlk)⟩
        · simp at h1
  · rintro ⟨hlt, h1 | ⟨h1, hty⟩⟩
    · right
      have := hw.mpr h1
      rw [this]
      simp [hlt]
    · left
      rw [if_pos hty]
      exact List.mem_filter.mpr ⟨hr.mpr h1, by simpa using hlt⟩

/-- Putting a request in the queue.  The younger holders in its way are
exempt from the ordering until they are wounded. -/
theorem KeyOk.enqueue {P : Tn → Prop} {lk : Lock}
    {held : Tn → Option LockType} {queued : Tn → Prop}
    (ok : KeyOk P lk held queued) (t : Tn) (ty : LockType) (cb : Nat)
    (hq : ¬ queued t) (hw : held t ≠ some .write)
    (hr : held t = some .read → ty = .write) :
    KeyOk (fun h => P h ∨ h ∈ waitingOn t ty lk)
      { lk with queue := Parsec.enqueue ⟨t, ty, cb⟩ lk.queue } held
      (fun x => queued x ∨ x = t) := by
  have hne : ∀ y ∈ lk.queue, y.ticket ≠ (⟨t, ty, cb⟩ : Waiter).ticket := by
    intro y hy he
    exact hq ((ok.waiter t).mp ⟨y, hy, he⟩)
  constructor
  · exact ok.writer
  · exact ok.reader
  · intro x
    rw [← ok.waiter x]
    constructor
    · rintro ⟨w, hw, rfl⟩
      rcases (mem_enqueue hne).mp hw with rfl | hw
      · exact Or.inr rfl
      · exact Or.inl ⟨w, hw, rfl⟩
    · rintro (⟨w, hw, rfl⟩ | rfl)
      · exact ⟨w, (mem_enqueue hne).mpr (Or.inr hw), rfl⟩
      · exact ⟨_, (mem_enqueue hne).mpr (Or.inl rfl), rfl⟩
  · exact ok.excl
  · exact ok.nodup
  · exact sorted_enqueue hne ok.sorted
  · intro w hw'
    rcases (mem_enqueue hne).mp hw' with rfl | hw'
    · exact ⟨hw, hr⟩
    · exact ok.upgrade w hw'
  · intro w hw' h hc
    rcases (mem_enqueue hne).mp hw' with rfl | hw'
    · by_cases hlt : h < t
      · exact Or.inl hlt
      · right
        right
        rw [mem_waitingOn ok]
        have : h ≠ t := hc.1
        exact ⟨by omega, hc.2⟩
    · rcases ok.order w hw' h hc with h1 | h1
      · exact Or.inl h1
      · exact Or.inr (Or.inl h1)

/-- The ordering may be stated with any set that agrees on the holders. -/
theorem KeyOk.mono {P Q : Tn → Prop} {lk : Lock}
    {held : Tn → Option LockType} {queued : Tn → Prop}
    (ok : KeyOk P lk held queued)
    (h : ∀ t, held t ≠ none → P t → Q t) : KeyOk Q lk held queued := by
  refine { ok with order := ?_ }
  intro w hw x hc
  rcases ok.order w hw x hc with h1 | h1
  · exact Or.inl h1
  · right
    apply h x _ h1
    rcases hc.2 with h2 | ⟨h2, _⟩ <;> simp [h2]

end Verif.Parsec
