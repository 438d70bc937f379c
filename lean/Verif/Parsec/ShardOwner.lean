import Verif.Parsec.ShardProps

/-!
# Which tickets a shard tells a broker about (C48)
-/
namespace Verif.Parsec

/-- The broker in the record of a ticket. -/
def askedBy (s : State) (t : Tn) : Option Nat := (s.ticket t).map (·.broker)

theorem brokerOf_acquire (s : State) (keys : Key → Bool) (t : Tn) :
    askedBy (acquire s keys).1 t = askedBy s t := by
  unfold askedBy acquire
  dsimp only
  cases s.ticket t <;> rfl

theorem brokerOf_release (s : State) {t : Tn} {tk tk' : Ticket} (h : s.ticket t = some tk)
    (hb : tk'.broker = tk.broker) (x : Tn) : askedBy (release s t tk').1 x = askedBy s x := by
  unfold askedBy release
  dsimp only
  split
  · next hx => subst hx; rw [h]; simp [hb]
  · rfl

theorem brokerOf_wound (s : State) (key : Key) (bs : List Tn) (blocked : Tn)
    (hb : ∀ b ∈ bs, (s.ticket b).isSome = true) (t : Tn) :
    askedBy (woundFold s key bs blocked).st t = askedBy s t := by
  unfold woundFold
  have h : ∀ (l : List Tn) (a : Wounding), (∀ b ∈ l, (a.st.ticket b).isSome = true) →
      askedBy (l.foldl (woundOne blocked key) a).st t = askedBy a.st t := by
    intro l
    induction l with
    | nil => intro a _; rfl
    | cons b l ih =>
      intro a ha
      obtain ⟨tk, htk⟩ := Option.isSome_iff_exists.mp (ha b List.mem_cons_self)
      have hstep : ∀ x, askedBy (woundOne blocked key a b).st x = askedBy a.st x := by
        intro x
        unfold woundOne
        rw [htk]
        dsimp only [Option.getD_some]
        split
        · rfl
        · exact brokerOf_release a.st (tk' := { tk with
            state := .wounded
            details := some (blocked, key) }) htk rfl x
      rw [List.foldl_cons, ih, hstep]
      intro c hc
      have h1 := ha c (List.mem_cons_of_mem _ hc)
      have h2 := hstep c
      unfold askedBy at h2
      cases hs : (woundOne blocked key a b).st.ticket c with
      | some _ => rfl
      | none =>
        rw [hs] at h2
        obtain ⟨tk', h3⟩ := Option.isSome_iff_exists.mp h1
        rw [h3] at h2
        nomatch h2
  exact h bs _ hb

/-- A ticket belongs to the broker that asked for a lock last. -/
theorem exec_broker {s s' : State} (inv : Inv s) {op : Op} {o : Out} (h : exec s op = some (s', o)) {x : Tn}
    {b : Nat} (hb : askedBy s' x = some b) :
    askedBy s x = some b ∨ ∃ k ty f cb, op = .tryLock x b k ty f cb := by
  cases op with
  | tryLock t b' k ty f cb =>
    rcases tryLock_cases h with ⟨e, he⟩ | ⟨he, hs, -⟩
    · unfold refuse at he
      cases he
      exact .inl hb
    · rw [hs, woundTickets_eq, brokerOf_acquire, brokerOf_wound] at hb
      · by_cases hx : x = t
        · subst hx
          simp [askedBy, addWaiter] at hb
          subst hb
          exact .inr ⟨k, ty, f, cb, rfl⟩
        · left
          simpa [askedBy, addWaiter, hx] using hb
      · intro c hc
        obtain ⟨_, h2⟩ := waitingOn_known inv hc
        unfold addWaiter
        dsimp only
        split
        · rfl
        · exact h2
  | prepare t u =>
    left
    have hs : s' = (prepare s t u).1 := congrArg Prod.fst (Option.some.inj h).symm
    rw [hs] at hb
    unfold prepare at hb
    split at hb
    · exact hb
    · next tk htk =>
      split at hb
      · exact hb
      · by_cases hx : x = t
        · subst hx
          simp [askedBy, State.setTicket] at hb
          simp [askedBy, htk, hb]
        · simpa [askedBy, State.setTicket, hx] using hb
  | commit t =>
    left
    have hs : s' = (commit s t).1 := congrArg Prod.fst (Option.some.inj h).symm
    rw [hs] at hb
    unfold commit at hb
    split at hb
    · exact hb
    · next tk htk =>
      split at hb
      · exact hb
      · dsimp only at hb
        rw [brokerOf_acquire, brokerOf_release (tk := tk) _ (by exact htk) (by rfl)] at hb
        exact hb
  | rollback t =>
    left
    have hs : s' = (rollback s t).1 := congrArg Prod.fst (Option.some.inj h).symm
    rw [hs] at hb
    unfold rollback at hb
    split at hb
    · exact hb
    · next tk htk =>
      dsimp only at hb
      rw [brokerOf_acquire] at hb
      by_cases hx : x = t
      · subst hx; simp [askedBy, State.setTicket] at hb
      · simpa [askedBy, State.setTicket, release, hx] using hb
  | finish t =>
    left
    have hs : s' = (finish s t).1 := congrArg Prod.fst (Option.some.inj h).symm
    rw [hs] at hb
    unfold finish at hb
    split at hb
    · exact hb
    · split at hb
      · exact hb
      · by_cases hx : x = t
        · subst hx; simp [askedBy, State.setTicket] at hb
        · simpa [askedBy, State.setTicket, hx] using hb

/-- **C48.** A shard tells a broker only about tickets for which this broker asked for a lock, or which were recorded as
its own when the shard was started. -/
theorem C48_owner {value : Key → Value} {ts : List (Tn × RTicket)} {h : List (Op × Out)} {s : State}
    (hh : Hist value ts h s) {b : Nat} {t : Tn} {st : TState} (hg : getTickets s b t = some st) :
    (∃ k ty f cb o, (.tryLock t b k ty f cb, o) ∈ h) ∨ ∃ r, ts.lookup t = some r ∧ r.broker = b := by
  have hb : askedBy s t = some b := by
    unfold getTickets at hg
    unfold askedBy
    split at hg
    · next tk htk =>
      split at hg
      · next hb => rw [htk]; simp [hb]
      · nomatch hg
    · nomatch hg
  clear hg
  induction hh with
  | start wf =>
    right
    unfold askedBy recover at hb
    dsimp only at hb
    cases hl : ts.lookup t with
    | none => rw [hl] at hb; nomatch hb
    | some r =>
      rw [hl] at hb
      exact ⟨r, rfl, by simpa [recoverTicket] using hb⟩
  | step hh he ih =>
    rcases exec_broker hh.reach.inv he hb with h1 | ⟨k, ty, f, cb, rfl⟩
    · rcases ih h1 with ⟨k, ty, f, cb, o, hm⟩ | h2
      · exact .inl ⟨k, ty, f, cb, o, List.mem_cons_of_mem _ hm⟩
      · exact .inr h2
    · exact .inl ⟨k, ty, f, cb, _, List.mem_cons_self⟩

/-- **C48.** A ticket is told to one broker only. -/
theorem C48_one_owner {s : State} {b b' : Nat} {t : Tn} {st st' : TState} (h : getTickets s b t = some st)
    (h' : getTickets s b' t = some st') : b = b' ∧ st = st' := by
  unfold getTickets at h h'
  split at h
  · next tk htk =>
    rw [htk] at h'
    dsimp only at h'
    split at h
    · next hb =>
      split at h'
      · next hb' =>
        cases h; cases h'
        exact ⟨hb.symm.trans hb', rfl⟩
      · nomatch h'
    · nomatch h
  · nomatch h

/-- **C48.** A ticket that was prepared is told to the broker it belongs to, as prepared, until it is committed,
rolled back or the shard stops. -/
theorem C48_prepared_told {s s1 s' : State} {t : Tn} {u : List (Key × Value)} {o : Out} (hr : Reach s)
    (h : exec s (.prepare t u) = some (s1, o)) (ho : o.result = none) (hs : Others t s1 s') :
    ∃ b, getTickets s' b t = some .prepared := by
  have hs1 : ∃ tk, s1.ticket t = some tk ∧ tk.state = .prepared := by
    have h1 : s1 = (prepare s t u).1 := congrArg Prod.fst (Option.some.inj h).symm
    have h2 : o = (prepare s t u).2 := congrArg Prod.snd (Option.some.inj h).symm
    rw [h2] at ho
    rw [h1]
    unfold prepare at ho ⊢
    cases htk : s.ticket t with
    | none => rw [htk] at ho; nomatch ho
    | some tk =>
      rw [htk] at ho
      dsimp only at ho ⊢
      cases hp : prepareError tk u with
      | some e => rw [hp] at ho; nomatch ho
      | none => exact ⟨_, if_pos rfl, rfl⟩
  obtain ⟨tk, h1, h2⟩ := hs1
  have h3 := (C42_prepared_safe (.step hr h) hs h1 h2).1
  exact ⟨tk.broker, by simp [getTickets, h3, h2]⟩

/-- A ticket of broker 3 is told to it, and not to broker 4 which has one of its own. -/
example : (runOps fresh [.tryLock 5 3 [1] .write true 50, .tryLock 6 4 [2] .write true 60,
    .prepare 5 [([1], [7])]]).map (fun r => (getTickets r.1 3 5, getTickets r.1 4 5, getTickets r.1 4 6)) =
    some (some .prepared, none, some .begun) := by decide

end Verif.Parsec
