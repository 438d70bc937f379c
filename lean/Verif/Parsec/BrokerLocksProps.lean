import Verif.Parsec.BrokerLocks

/-!
# A lock that a PArSEC broker reports is held as asked for (C126)
-/
namespace Verif.Parsec.Broker

/-- **C126.** What the user is told when a shard answers is what the shard said. -/
theorem C126_answer {h : Hist} {s s' : State} {cb : Nat} {t : Tn} {k : Key} {i : Nat} {r : Answer}
    {o : Out} {v : Value} (hp : Plain h (.locked cb t k i r))
    (hs : step s (.locked cb t k i r) = some (s', o)) (hv : .lock cb t (.ok v) ∈ o.said) :
    r = .value v ∧ ∃ ty, Granted t ((.locked cb t k i r, o) :: h) i k ty v := by
  obtain ⟨ty, f, ha⟩ := hp
  have hrv : r = .value v := by
    have ho : o = (handleLock s cb t k i r).2 := congrArg Prod.snd (Option.some.inj hs).symm
    rw [ho] at hv
    cases r with
    | error e => cases List.mem_singleton.mp hv
    | value w =>
      dsimp only [handleLock] at hv
      split at hv
      · cases List.mem_singleton.mp hv
      · split at hv
        · cases List.mem_singleton.mp hv
        · split at hv
          · cases List.mem_singleton.mp hv
          · cases List.mem_singleton.mp hv; rfl
  subst hrv
  have hsaid := (step_next (e := .locked cb t k i (.value v)) rfl rfl hs).said
  have hno : o.said.any (Said.aborts t) = false := by
    rw [hsaid]
    cases s.tickets.lookup t with
    | none => rfl
    | some tk =>
      dsimp only [next]
      split
      · rfl
      · split <;> rfl
  exact ⟨rfl, ty, cb, f, ha.mono hno, _, by rw [attempt_cons hno]; exact List.mem_cons_self, rfl⟩

/-- **C126.** A request goes to the shard which the directory named, as it is, unless it is answered. -/
theorem C126_asked {s s' : State} {cb : Nat} {t : Tn} {k : Key} {ty : LockType} {r : Option Nat} {ok : Bool}
    {o : Out} (hs : step s (.foundKey cb t k ty r ok) = some (s', o)) :
    (∃ x, o.said = [.lock cb t x] ∧ o.calls = []) ∨
      ∃ i first, r = some i ∧ o.said = [] ∧ o.calls = [.tryLock i t k ty first cb] := by
  have ho : o = (handleFindKey s cb t k ty r ok).2 := congrArg Prod.snd (Option.some.inj hs).symm
  rw [ho]
  unfold handleFindKey
  split
  · exact .inl ⟨_, rfl, rfl⟩
  · split
    · exact .inl ⟨_, rfl, rfl⟩
    · exact .inl ⟨_, rfl, rfl⟩
    · exact .inl ⟨_, rfl, rfl⟩
    · split
      · exact .inl ⟨_, rfl, rfl⟩
      · dsimp only
        split
        · exact .inl ⟨_, rfl, rfl⟩
        · split
          · exact .inr ⟨_, _, rfl, rfl, rfl⟩
          · exact .inl ⟨_, rfl, rfl⟩

/-- **C126** for users that make one request for each key at a time: a lock that is reported without asking the
shard was granted by it before, in the same attempt, for this key, with this value and a sufficient type. -/
theorem C126_held_partial {n : Nat} {h : Hist} {s s' : State} {cb : Nat} {t : Tn} {k : Key} {ty : LockType}
    {r : Option Nat} {ok : Bool} {o : Out} {v : Value} (hr : Disciplined n h s)
    (hs : step s (.foundKey cb t k ty r ok) = some (s', o)) (hv : .lock cb t (.ok v) ∈ o.said) :
    ∃ i held, r = some i ∧ Granted t h i k held v ∧ Suffices held ty := by
  have ho : o = (handleFindKey s cb t k ty r ok).2 := congrArg Prod.snd (Option.some.inj hs).symm
  rw [ho] at hv
  unfold handleFindKey at hv
  split at hv
  · cases List.mem_singleton.mp hv
  · next tk htk =>
    split at hv
    · cases List.mem_singleton.mp hv
    · cases List.mem_singleton.mp hv
    · cases List.mem_singleton.mp hv
    · next hb =>
      split at hv
      · cases List.mem_singleton.mp hv
      · next i =>
        dsimp only at hv
        split at hv
        · next w hc =>
          cases List.mem_singleton.mp hv
          unfold cached at hc
          split at hc
          · nomatch hc
          · next q hq =>
            split at hc
            · next hcov =>
              have hkey : key tk.shards i k = some q := by
                rw [← key_touch tk.shards i]
                unfold key
                cases hl : (touch tk.shards i).lookup i with
                | none => rw [hl] at hq; nomatch hq
                | some sh => rw [hl] at hq; exact hq
              obtain ⟨h1, h2⟩ := Bool.and_eq_true_iff.mp hcov
              obtain ⟨v', h3, h4⟩ := ((hr.records t tk htk) (by rw [hb]; exact (nomatch ·)) i k q hkey).held h1
              rw [h3] at hc
              cases hc
              refine ⟨i, q.type, rfl, h4, ?_⟩
              cases hty : q.type with
              | write => exact .inr rfl
              | read =>
                rw [hty] at h2
                exact .inl (by simpa [covers] using h2)
            · nomatch hc
        · split at hv
          · nomatch hv
          · cases List.mem_singleton.mp hv

/-! ### Concrete runs -/

/-- A key is read, then locked for writing while the first request is under way; the shard answers the first
request. -/
def upgrade : List Event :=
  [.ticketNumber 0 (some (7, 8)),
   .tryLock 1 7 true,
   .foundKey 1 7 [1] .read (some 0) true,
   .tryLock 2 7 true,
   .foundKey 2 7 [1] .write (some 0) true,
   .locked 1 7 [1] 0 (.value [10]),
   .tryLock 3 7 true]

/-- **C126 is violated**: a user with two requests for a key under way is told that it holds a lock for
writing although the shard only granted one for reading. -/
theorem C126_violated : ∃ h s s' o, Run 2 h s ∧ Plain h (.foundKey 3 7 [1] .write (some 0) true) ∧
    step s (.foundKey 3 7 [1] .write (some 0) true) = some (s', o) ∧
    o.said = [.lock 3 7 (.ok [10])] ∧ o.calls = [] ∧
    ∀ i v, ¬Granted 7 h i [1] .write v := by
  refine ⟨(after upgrade).1, (after upgrade).2, _, _, after_run rfl, trivial, rfl, rfl, rfl, ?_⟩
  rintro i v ⟨cb, f, ⟨x, hx, hc⟩, y, hy, he⟩
  have h1 : x.2.calls = [] ∨ x.2.calls = [.tryLock 0 7 [1] .read true 1] ∨
      x.2.calls = [.tryLock 0 7 [1] .write false 2] := by
    have : ∀ x ∈ attempt 7 (after upgrade).1, x.2.calls = [] ∨
        x.2.calls = [.tryLock 0 7 [1] .read true 1] ∨
        x.2.calls = [.tryLock 0 7 [1] .write false 2] := by decide +kernel
    exact this x hx
  have hcb : cb = 2 := by
    rcases h1 with h1 | h1 | h1 <;> rw [h1] at hc
    · nomatch hc
    · cases List.mem_singleton.mp hc
    · cases List.mem_singleton.mp hc; rfl
  subst hcb
  have h2 : ∀ y ∈ attempt 7 (after upgrade).1, (match y.1 with
      | .locked c _ _ _ _ => c = 1
      | _ => True) := by
    intro y hy
    have : y ∈ (after upgrade).1 := attempt_subset hy
    have hall : (after upgrade).1.all fun y => match y.1 with
      | .locked c _ _ _ _ => c = 1
      | _ => true := by rfl
    have := List.all_eq_true.mp hall y this
    revert this
    cases y.1 <;> simp
  have := h2 y hy
  rw [he] at this
  nomatch this

/-- the second answer of the shard is then taken for a mistake -/
example : (step (after upgrade).2 (.locked 2 7 [1] 0 (.value [10]))).map (·.2.said) =
    some [.lock 2 7 (.error (.broker .invalidShardState))] := rfl

/-- A user that waits: the key is read, then locked for writing, then wanted again. -/
def patient : List Event :=
  [.ticketNumber 0 (some (7, 8)),
   .tryLock 1 7 true,
   .foundKey 1 7 [1] .read (some 0) true,
   .locked 1 7 [1] 0 (.value [10]),
   .tryLock 2 7 true,
   .foundKey 2 7 [1] .write (some 0) true,
   .locked 2 7 [1] 0 (.value [10]),
   .tryLock 3 7 true]

/-- `Once` as a test. -/
def once (h : Hist) : Event → Bool
  | .foundKey _ t k _ _ _ => (attempt t h).all fun x => x.2.calls.all fun
    | .tryLock i y q _ _ cb => y ≠ t || q ≠ k || (attempt t h).any fun x => match x.1 with
      | .locked d z p j _ => d = cb && z = t && p = k && j = i
      | _ => false
    | _ => true
  | .locked cb t k i _ => (attempt t h).all fun x => match x.1 with
    | .locked d z p j _ => !(d = cb && z = t && p = k && j = i)
    | _ => true
  | _ => true

theorem once_sound {h : Hist} {e : Event} (he : once h e = true) : Once h e := by
  cases e with
  | foundKey cb t k ty r ok =>
    rintro i ty' f d ⟨x, hx, hc⟩
    have h1 := List.all_eq_true.mp (List.all_eq_true.mp he x hx) _ hc
    dsimp only at h1
    simp only [ne_eq, not_true_eq_false, decide_false, Bool.false_or] at h1
    obtain ⟨y, hy, h2⟩ := List.any_eq_true.mp h1
    refine ⟨y, hy, ?_⟩
    revert h2
    cases y.1 <;> simp
    rintro rfl rfl rfl rfl
    trivial
  | locked cb t k i r =>
    rintro ⟨x, hx, r', hr⟩
    have h1 := List.all_eq_true.mp he x hx
    rw [hr] at h1
    simp at h1
  | _ => trivial

/-- A sequence of events that must be `Plain` and `Once`. -/
def execOnce : State → Hist → List Event → Option (Hist × State)
  | s, h, [] => some (h, s)
  | s, h, e :: es =>
    if plain h e && once h e then
      match step s e with
      | none => none
      | some (s', o) => execOnce s' ((e, o) :: h) es
    else none

theorem execOnce_run {n : Nat} (es : List Event) : ∀ {s : State} {h : Hist},
    Disciplined n h s → ∀ {r : Hist × State}, execOnce s h es = some r → Disciplined n r.1 r.2 := by
  induction es with
  | nil =>
    intro s h hr r he
    simp only [execOnce, Option.some.injEq] at he
    rw [← he]
    exact hr
  | cons e es ih =>
    intro s h hr r he
    simp only [execOnce] at he
    split at he
    · rename_i hp
      obtain ⟨h1, h2⟩ := Bool.and_eq_true_iff.mp hp
      cases hs : step s e with
      | none => simp [hs] at he
      | some q =>
        simp only [hs] at he
        exact ih (.step hr (plain_sound h1) (once_sound h2) hs) he
    · simp at he

/-- `C126_held_partial` applies: the lock for writing is reported from memory, after one for reading was not
enough. -/
example : ∃ h s, Disciplined 2 h s ∧
    ((step s (.foundKey 3 7 [1] .write (some 0) true)).map fun r => (r.2.said, r.2.calls)) =
      some ([.lock 3 7 (.ok [10])], []) ∧
    Asked 7 h (.tryLock 0 7 [1] .write false 2) := by
  obtain ⟨r, hr⟩ := Option.isSome_iff_exists.mp
    (show (execOnce { shards := 2 } [] patient).isSome = true from rfl)
  have h1 := execOnce_run patient .start hr
  cases hr
  exact ⟨_, _, h1, rfl, by decide +kernel⟩

end Verif.Parsec.Broker
