import Verif.Http.ClientInv
/-!
# C113: calls over HTTP
-/
namespace Verif.Http.Client

variable {P J : Type}

/-! ### Specification -/

/-- Nothing is called once the destructor has begun. -/
def Quiet (es : List (Event P)) : Prop :=
  ∀ xs ys p, es = xs ++ .destroy :: ys → Event.call p ∉ ys

/-- The call with number `i` was made with `p`. -/
def Made (s : State P J) (i : Nat) (p : P) : Prop := s.calls[i]? = some p

/-! ### What holds -/

/-- **C113.** No callback is called twice, and none without a call. -/
theorem C113_once (parse : List UInt8 → Option J) {n : Nat} {es : List (Event P)} {s : State P J}
    (h : run parse (start P J n) es = some s) :
    (s.told.map (·.1)).Nodup ∧ ∀ t ∈ s.told, ∃ p, Made s t.1 p := by
  have hi := inv_run (inv_start parse n) h
  refine ⟨(List.nodup_append.mp hi.ids).1, ?_⟩
  intro t ht
  have : t.1 < s.calls.length :=
    (hi.all t.1).mpr (List.mem_append_left _ (List.mem_map.mpr ⟨t, ht, rfl⟩))
  exact ⟨s.calls[t.1], List.getElem?_eq_getElem this⟩

/-- **C113.** What is posted for a call is what the call was made with, and it is posted to one of
the endpoints. -/
theorem C113_posted (parse : List UInt8 → Option J) {n : Nat} (hn : 0 < n) {es : List (Event P)}
    {s : State P J} (h : run parse (start P J n) es = some s) :
    ∀ a ∈ s.past, Made s a.call a.post ∧ a.url < n := by
  have hi := inv_run (inv_start parse n) h
  have he : s.endpoints = n := by
    have key : ∀ (s₀ : State P J) es, run parse s₀ es = some s → s.endpoints = s₀.endpoints := by
      intro s₀ es h
      clear hi
      induction es generalizing s₀ with
      | nil => simp [run] at h; rw [h]
      | cons e es ih =>
        simp only [run, Option.bind_eq_some_iff] at h
        obtain ⟨s₁, h1, h2⟩ := h
        rw [ih _ h2]
        cases e <;> simp only [step] at h1
        case call p =>
          split at h1
          · cases h1
          injection h1 with h1; subst h1
          unfold State.call State.add
          repeat' split
          all_goals rfl
        case data k b =>
          split at h1
          · cases h1
          unfold State.data at h1
          split at h1
          · injection h1 with h1; subst h1; rfl
          · cases h1
        case finish k r =>
          split at h1
          · cases h1
          unfold State.finish at h1
          split at h1
          · cases r <;> (injection h1 with h1; subst h1; rfl)
          · cases h1
        case ret =>
          split at h1
          · split at h1
            · cases h1
            · injection h1 with h1; subst h1; rfl
          · cases h1
        case destroy =>
          split at h1
          · cases h1
          · injection h1 with h1; subst h1; rfl
        case drop k =>
          split at h1
          · cases h1
          · split at h1
            · injection h1 with h1; subst h1; rfl
            · cases h1
    exact key _ es h
  intro a ha
  obtain ⟨k, hk⟩ := hi.past_url a ha
  refine ⟨hi.posts a ha, ?_⟩
  rw [hk, he]; exact Nat.mod_lt _ hn

/-- **C113.** If a callback is called before the client is destroyed, then attempts were made for
its call, of which all but the last failed; it is called with what the JSON library makes of all
that came back, if the code of the last attempt says success, and with nothing otherwise. -/
theorem C113_value (parse : List UInt8 → Option J) {n : Nat} {es : List (Event P)} {s : State P J}
    (h : run parse (start P J n) es = some s) (hc : s.closing = false) {i : Nat} {v : Option J}
    (ht : (i, v) ∈ s.told) :
    ∃ before last c, s.past.filter (·.call == i) = before ++ [last] ∧
      (∀ a ∈ before, a.result = .failed) ∧ last.result = .code c ∧
      (200 ≤ c ∧ c < 300 → v = parse (before.flatMap (·.bytes) ++ last.bytes)) ∧
      (c < 200 ∨ 300 ≤ c → v = none) := by
  have hi := inv_run (inv_start parse n) h
  have ho : Explained parse s i v := hi.out _ ht
  rcases ho with ⟨before, last, c, h1, h2, h3, h4⟩ | ⟨_, h2, _⟩
  · refine ⟨before, last, c, h1, h2, h3, ?_, ?_⟩
    · intro hr; rw [h4, if_pos (by omega)]; rfl
    · intro hr; rw [h4, if_neg (by omega)]
  · rw [hc] at h2; cases h2

/-- **C113, in part.** If nothing came back in the attempts that failed, the callback is called
with what the JSON library makes of the reply to the last attempt.  Without that it is not so: see
`C113_mixed_violated`. -/
theorem C113_reply_partial (parse : List UInt8 → Option J) {n : Nat} {es : List (Event P)}
    {s : State P J} (h : run parse (start P J n) es = some s) (hc : s.closing = false) {i : Nat}
    {v : J} (ht : (i, some v) ∈ s.told)
    (hb : ∀ a ∈ s.past, a.call = i → a.result = .failed → a.bytes = []) :
    ∃ a ∈ s.past, ∃ c, a.call = i ∧ a.result = .code c ∧ 200 ≤ c ∧ c < 300 ∧
      parse a.bytes = some v := by
  obtain ⟨before, last, c, h1, h2, h3, h4, h5⟩ := C113_value parse h hc ht
  have hall : ∀ a ∈ before ++ [last], a ∈ s.past ∧ a.call = i := by
    intro a ha
    rw [← h1] at ha
    obtain ⟨ha, hx⟩ := List.mem_filter.mp ha
    exact ⟨ha, by simpa using hx⟩
  have hl := hall last (by simp)
  have hcode : 200 ≤ c ∧ c < 300 := by
    rcases Nat.lt_or_ge c 200 with hx | hx
    · cases h5 (Or.inl hx)
    · rcases Nat.lt_or_ge c 300 with hy | hy
      · exact ⟨hx, hy⟩
      · cases h5 (Or.inr hy)
  have hempty : before.flatMap (·.bytes) = [] := by
    rw [List.flatMap_eq_nil_iff]
    intro a ha
    have := hall a (List.mem_append_left _ ha)
    exact hb a this.1 this.2 (h2 a ha)
  refine ⟨last, hl.1, c, hl.2, h3, hcode.1, hcode.2, ?_⟩
  have := h4 hcode
  rw [hempty] at this
  exact this.symm

theorem run_append (parse : List UInt8 → Option J) (s : State P J) (xs ys : List (Event P)) :
    run parse s (xs ++ ys) = (run parse s xs).bind (run parse · ys) := by
  induction xs generalizing s with
  | nil => rfl
  | cons x xs ih =>
    simp only [List.cons_append, run, Option.bind_assoc]
    congr 1; funext s'; exact ih s'

/-- **C113.** The destructor can go through all transfers, and when it has done so every callback
of a call has been called. -/
theorem C113_closed (parse : List UInt8 → Option J) {n : Nat} {es : List (Event P)}
    {s : State P J} (h : run parse (start P J n) es = some s) (hc : s.closing = true)
    (hb : s.broken = false) :
    (∃ (hs : List Nat) (s' : State P J), run parse s (hs.map .drop) = some s' ∧ s'.transfers = []) ∧
    (s.transfers = [] → ∀ i p, Made s i p → ∃ v, (i, v) ∈ s.told) := by
  have hi := inv_run (inv_start parse n) h
  constructor
  · clear h hi
    generalize hl : s.transfers.length = l
    induction l using Nat.strongRecOn generalizing s with
    | _ l ih =>
    cases ht : s.transfers with
    | nil => exact ⟨[], s, rfl, ht⟩
    | cons e rest =>
      have hstep : step parse s (.drop e.1) = some { s with
          transfers := s.transfers.filter (·.1 != e.1)
          told := s.told ++ [(e.2.call, none)] } := by
        simp only [step]
        rw [if_neg (by simp [hc, hb]), ht]
        simp
      obtain ⟨hs, s', h1, h2⟩ := ih _ (by
        rw [← hl, ht]
        simp only [List.filter_cons, bne_self_eq_false, Bool.false_eq_true, if_false,
          List.length_cons]
        exact Nat.lt_succ_of_le (List.length_filter_le _ _))
        (s := { s with
          transfers := s.transfers.filter (·.1 != e.1)
          told := s.told ++ [(e.2.call, none)] }) hc hb rfl
      exact ⟨e.1 :: hs, s', by simp [run, hstep, h1], h2⟩
  · intro ht i p hp
    obtain ⟨hlt, -⟩ := List.getElem?_eq_some_iff.mp hp
    have := (hi.all i).mp hlt
    rw [ht] at this
    simp only [List.map_nil, List.append_nil] at this
    obtain ⟨t, htm, rfl⟩ := List.mem_map.mp this
    exact ⟨t.2, htm⟩

theorem call_sound {parse : List UInt8 → Option J} {s : State P J} (hi : Inv parse s)
    (hb : s.broken = false) (hn : 0 < s.endpoints) (hc : s.closing = false) (p : P) :
    (s.call p).broken = false ∧ (s.call p).endpoints = s.endpoints ∧
      (s.call p).closing = false := by
  have hfresh : ∀ k ∈ s.transfers.map (·.1), k < s.handles.length := by
    intro k hk
    obtain ⟨e, he, rfl⟩ := List.mem_map.mp hk
    obtain ⟨x, hx, _⟩ := hi.live e he
    exact (List.getElem?_eq_some_iff.mp hx).1
  unfold State.call
  rw [if_neg (by simp [hc])]
  split
  · next h rest hidle =>
    unfold State.add
    rw [if_neg]
    · exact ⟨hb, rfl, hc⟩
    · intro ha
      obtain ⟨e, he, hek⟩ := List.any_eq_true.mp ha
      have hk := hi.keys
      rw [hidle, List.nodup_append] at hk
      exact hk.2.2 h (by simp) e.1 (List.mem_map.mpr ⟨e, he, rfl⟩) (by simp only [beq_iff_eq] at hek; exact hek.symm)
  · rw [if_neg (by omega)]
    unfold State.add
    rw [if_neg]
    · exact ⟨hb, rfl, hc⟩
    · intro ha
      obtain ⟨e, he, hek⟩ := List.any_eq_true.mp ha
      have := hfresh e.1 (List.mem_map.mpr ⟨e, he, rfl⟩)
      simp only [beq_iff_eq] at hek
      omega

/-- **C113, in part.** If there are endpoints and nothing is called once the destructor has begun,
nothing undefined is done: in particular no call is given the handle of another.  Otherwise see
`C113_recall_violated` and `C113_empty_violated`. -/
theorem C113_defined_partial (parse : List UInt8 → Option J) {n : Nat} (hn : 0 < n)
    {es : List (Event P)} {s : State P J} (hq : Quiet es)
    (h : run parse (start P J n) es = some s) : s.broken = false := by
  have key : ∀ (es : List (Event P)) (s₀ : State P J), Inv parse s₀ → s₀.broken = false →
      0 < s₀.endpoints → Quiet es → (s₀.closing = true → ∀ p, Event.call p ∉ es) →
      run parse s₀ es = some s → s.broken = false := by
    intro es
    induction es with
    | nil => intro s₀ _ hb _ _ _ h; simp [run] at h; rw [← h]; exact hb
    | cons e es ih =>
      intro s₀ hi hb hn hq hcl h
      simp only [run, Option.bind_eq_some_iff] at h
      obtain ⟨s₁, h1, h2⟩ := h
      have hi₁ := inv_step hi h1
      have hq₁ : Quiet es := by
        intro xs ys p he
        exact hq (e :: xs) ys p (by rw [he]; rfl)
      have go : s₁.broken = false → s₁.endpoints = s₀.endpoints →
          (s₁.closing = true → ∀ p, Event.call p ∉ es) → s.broken = false :=
        fun hb he hc => ih s₁ hi₁ hb (by omega) hq₁ hc h2
      have hcl' : s₀.closing = true → ∀ p, Event.call p ∉ es :=
        fun hc p hm => hcl hc p (List.mem_cons_of_mem _ hm)
      cases e <;> simp only [step] at h1
      case call p =>
        have hc : s₀.closing = false := by
          cases hx : s₀.closing with
          | false => rfl
          | true => exact absurd List.mem_cons_self (hcl hx p)
        have hs := call_sound hi hb hn hc p
        split at h1
        · cases h1
        injection h1 with h1; subst h1
        exact go hs.1 hs.2.1 (fun hx => absurd hx (by rw [hs.2.2]; simp))
      case data k b =>
        split at h1
        · cases h1
        unfold State.data at h1
        split at h1
        · injection h1 with h1; subst h1; exact go hb rfl hcl'
        · cases h1
      case finish k r =>
        split at h1
        · cases h1
        unfold State.finish at h1
        split at h1
        · cases r <;> (injection h1 with h1; subst h1; exact go hb rfl hcl')
        · cases h1
      case ret =>
        split at h1
        · split at h1
          · cases h1
          · injection h1 with h1; subst h1; exact go hb rfl hcl'
        · cases h1
      case destroy =>
        split at h1
        · cases h1
        · injection h1 with h1; subst h1
          exact go hb rfl (fun _ p => hq [] es p rfl)
      case drop k =>
        split at h1
        · cases h1
        · split at h1
          · injection h1 with h1; subst h1; exact go hb rfl hcl'
          · cases h1
  exact key es _ (inv_start parse n) rfl hn hq (by simp [start]) h

/-! ### What does not hold -/

/-- The state after a call and `k` attempts that failed. -/
def tried (P J : Type) (n : Nat) (p : P) (k : Nat) : State P J :=
  { start P J n with
    lb := 1 % n
    handles := [⟨0, p, 0, []⟩]
    transfers := [(0, ⟨0, []⟩)]
    calls := [p]
    past := List.replicate k ⟨0, 0, p, [], .failed⟩ }

theorem tried_run (parse : List UInt8 → Option J) {n : Nat} (p : P) (k : Nat) :
    run parse (tried P J n p 0) (List.replicate k (.finish 0 .failed)) =
      some (tried P J n p k) := by
  have key : ∀ j, run parse (tried P J n p j) (List.replicate k (.finish 0 .failed)) =
      some (tried P J n p (j + k)) := by
    induction k with
    | zero => intro j; rfl
    | succ k ih =>
      intro j
      have hstep : step parse (tried P J n p j) (.finish 0 .failed) =
          some (tried P J n p (j + 1)) := by
        simp [step, tried, start, State.finish, List.replicate_succ']
      rw [List.replicate_succ]
      simp only [run, hstep, Option.bind_some]
      rw [ih (j + 1)]
      congr 2; omega
  simpa using key 0

/-- **C113 does not hold**: an attempt that fails, for example because the time given to the
constructor is over, is not told to the callback.  What was called is posted again, to the same
endpoint, any number of times, although there are other endpoints. -/
theorem C113_retried_violated (parse : List UInt8 → Option J) {n : Nat} (hn : 0 < n) (p : P)
    (k : Nat) :
    ∃ s, run parse (start P J n) (.call p :: List.replicate k (.finish 0 .failed)) = some s ∧
      s.told = [] ∧ s.past = List.replicate k ⟨0, 0, p, [], .failed⟩ := by
  refine ⟨tried P J n p k, ?_, rfl, rfl⟩
  have hc : step parse (start P J n) (.call p) = some (tried P J n p 0) := by
    have : ¬ n = 0 := by omega
    simp [step, start, State.call, State.add, tried, this]
  simp only [run, hc, Option.bind_some]
  exact tried_run parse p k

/-- **C113 does not hold**: what came back in an attempt that failed stays before the reply, so the
callback is called with what the JSON library makes of both: with nothing, if that is no JSON,
although the server replied. -/
theorem C113_mixed_violated (part reply : List UInt8) (v : J) (p : P)
    (parse : List UInt8 → Option J) (h1 : parse reply = some v) (h2 : parse (part ++ reply) = none) :
    ∃ s, run parse (start P J 1) [.call p, .data 0 part, .finish 0 .failed, .data 0 reply,
        .finish 0 (.code 200)] = some s ∧ s.told = [(0, none)] ∧
      ∃ a ∈ s.past, a.call = 0 ∧ a.result = .code 200 ∧ parse a.bytes = some v := by
  have hr : run parse (start P J 1) [.call p, .data 0 part, .finish 0 .failed, .data 0 reply,
      .finish 0 (.code 200)] = some { start P J 1 with
        lb := 0
        handles := [⟨0, p, 0, reply⟩]
        calls := [p]
        cb := some 0
        past := [⟨0, 0, p, part, .failed⟩, ⟨0, 0, p, reply, .code 200⟩]
        told := [(0, parse (part ++ reply))] } := by
    simp [run, step, start, State.call, State.add, State.data, State.finish]
  exact ⟨_, hr, by simp [h2], ⟨0, 0, p, reply, .code 200⟩, by simp, rfl, rfl, h1⟩

/-- The events of a call that is replied to before the next. -/
def exchange (p : P) (b : List UInt8) : List (Event P) :=
  [.call p, .data 0 b, .finish 0 (.code 200), .ret]

/-- After the first exchange there is one idle handle, for the first endpoint. -/
structure Single (s : State P J) : Prop where
  idle : s.idle = [0]
  transfers : s.transfers = []
  handles : ∃ x, s.handles = [x] ∧ x.url = 0
  flags : s.broken = false ∧ s.closing = false ∧ s.cb = none
  past : ∀ a ∈ s.past, a.url = 0

theorem single_step (parse : List UInt8 → Option J) {s : State P J} (hs : Single s) (p : P)
    (b : List UInt8) :
    ∃ s', run parse s (exchange p b) = some s' ∧ Single s' ∧ s'.past.length = s.past.length + 1 := by
  obtain ⟨hi, ht, ⟨x, hx, hu⟩, ⟨f1, f2, f3⟩, hp⟩ := hs
  have hr : run parse s (exchange p b) = some { s with
      handles := [⟨x.url, p, s.calls.length, b⟩]
      calls := s.calls ++ [p]
      past := s.past ++ [⟨s.calls.length, x.url, p, b, .code 200⟩]
      told := s.told ++ [(s.calls.length, parse b)] } := by
    obtain ⟨e, lb, hs, idle, tr, cb, cl, br, calls, past, told⟩ := s
    simp only at hi ht hx f1 f2 f3
    subst hi ht hx f1 f2 f3
    simp [exchange, run, step, State.call, State.add, State.data, State.finish]
  refine ⟨_, hr, ⟨hi, ht, ⟨_, rfl, hu⟩, ⟨f1, f2, f3⟩, ?_⟩, by simp⟩
  intro a ha
  rcases List.mem_append.mp ha with ha | ha
  · exact hp a ha
  · simp only [List.mem_singleton] at ha; subst ha; exact hu

/-- **C113 does not hold**: calls are not spread over the endpoints.  As long as each call is
replied to before the next is made, all go to the first endpoint, however many there are. -/
theorem C113_spread_violated (parse : List UInt8 → Option J) {n : Nat} (hn : 0 < n)
    (ps : List (P × List UInt8)) :
    ∃ s, run parse (start P J n) (ps.flatMap fun e => exchange e.1 e.2) = some s ∧
      s.past.length = ps.length ∧ ∀ a ∈ s.past, a.url = 0 := by
  have key : ∀ (ps : List (P × List UInt8)) (s : State P J), Single s →
      ∃ s', run parse s (ps.flatMap fun e => exchange e.1 e.2) = some s' ∧ Single s' ∧
        s'.past.length = s.past.length + ps.length := by
    intro ps
    induction ps with
    | nil => intro s hs; exact ⟨s, rfl, hs, rfl⟩
    | cons e ps ih =>
      intro s hs
      obtain ⟨s₁, h1, h2, h3⟩ := single_step parse hs e.1 e.2
      obtain ⟨s₂, g1, g2, g3⟩ := ih s₁ h2
      refine ⟨s₂, ?_, g2, by simp only [List.length_cons]; omega⟩
      rw [List.flatMap_cons, run_append, h1]
      exact g1
  cases ps with
  | nil => exact ⟨_, rfl, rfl, by simp [start]⟩
  | cons e ps =>
    have hne : ¬ n = 0 := by omega
    have h1 : run parse (start P J n) (exchange e.1 e.2) = some { start P J n with
        lb := 1 % n
        idle := [0]
        handles := [⟨0, e.1, 0, e.2⟩]
        calls := [e.1]
        past := [⟨0, 0, e.1, e.2, .code 200⟩]
        told := [(0, parse e.2)] } := by
      simp [exchange, run, step, start, State.call, State.add, State.data, State.finish, hne]
    obtain ⟨s₂, g1, g2, g3⟩ := key ps ({ start P J n with
        lb := 1 % n
        idle := [0]
        handles := [⟨0, e.1, 0, e.2⟩]
        calls := [e.1]
        past := [⟨0, 0, e.1, e.2, .code 200⟩]
        told := [(0, parse e.2)] })
      ⟨rfl, rfl, ⟨_, rfl, rfl⟩, ⟨rfl, rfl, rfl⟩, by simp⟩
    refine ⟨s₂, ?_, by rw [g3]; simp only [List.length_cons, List.length_nil]; omega, g2.past⟩
    rw [List.flatMap_cons, run_append, h1]
    exact g1

/-- **C113 does not hold**: a callback that makes a call when it is called by the destructor, as
one that tries again does, changes the map the destructor goes through. -/
theorem C113_recall_violated (parse : List UInt8 → Option J) (p q : P) :
    ∃ s, run parse (start P J 1) [.call p, .destroy, .drop 0, .call q] = some s ∧
      s.broken = true := by
  exact ⟨_, rfl, rfl⟩

/-- **C113 does not hold**: a client without endpoints reads outside of the list. -/
theorem C113_empty_violated (parse : List UInt8 → Option J) (p : P) :
    ∃ s, run parse (start P J 0) [.call p] = some s ∧ s.broken = true := by
  exact ⟨_, rfl, rfl⟩

/-! ### Examples -/

/-- A reply is a list of one number. -/
def one (b : List UInt8) : Option UInt8 :=
  match b with
  | [x] => some x
  | _ => none

/-- The hypotheses of `C113_mixed_violated` can be met. -/
example : one [7] = some 7 ∧ one ([5] ++ [7]) = none := by decide

/-- Two calls at a time; the first attempt of the second fails; the callback of the first makes a
third call; the client is destroyed before it is replied to. -/
example : ∃ es s, Quiet es ∧ run one (start Nat UInt8 2) es = some s ∧ s.closing = true ∧
    s.told = [(0, some 7), (1, some 9), (2, none)] ∧ s.past.map (·.url) = [1, 0, 1] := by
  refine ⟨[.call 10, .call 11, .finish 1 .failed, .data 0 [7], .finish 0 (.code 200), .call 12,
    .ret, .data 1 [9], .finish 1 (.code 201), .ret, .destroy, .drop 2], _, ?_, rfl, rfl, rfl, rfl⟩
  intro xs ys p h hm
  have hl := congrArg List.reverse h
  simp only [List.reverse_append, List.reverse_cons, List.reverse_nil, List.nil_append,
    List.cons_append] at hl
  have hm' : Event.call p ∈ ys.reverse := by simpa using hm
  match hy : ys.reverse with
  | [] => rw [hy] at hm'; cases hm'
  | [a] =>
    rw [hy] at hl hm'
    simp only [List.cons_append, List.nil_append, List.cons.injEq] at hl
    simp only [List.mem_singleton] at hm'
    rw [← hl.1] at hm'; cases hm'
  | a :: b :: rest =>
    rw [hy] at hl
    simp only [List.append_assoc, List.cons_append, List.cons.injEq] at hl
    have hcount := congrArg (List.countP (fun e => match e with | Event.destroy => true | _ => false))
      hl.2.2
    simp at hcount

/-- An attempt fails before anything came back, and the next one is replied to. -/
example : ∃ s, run one (start Nat UInt8 1) [.call 10, .finish 0 .failed, .data 0 [7],
      .finish 0 (.code 200), .ret] = some s ∧ s.closing = false ∧ (0, some 7) ∈ s.told ∧
    ∀ a ∈ s.past, a.call = 0 → a.result = .failed → a.bytes = [] := by
  refine ⟨{ start Nat UInt8 1 with
    idle := [0]
    handles := [⟨0, 10, 0, [7]⟩]
    calls := [10]
    past := [⟨0, 0, 10, [], .failed⟩, ⟨0, 0, 10, [7], .code 200⟩]
    told := [(0, some 7)] }, rfl, rfl, by simp, ?_⟩
  intro a ha _ hf
  have ha : a ∈ [(⟨0, 0, 10, [], .failed⟩ : Attempt Nat), ⟨0, 0, 10, [7], .code 200⟩] := ha
  simp only [List.mem_cons, List.not_mem_nil, or_false] at ha
  rcases ha with rfl | rfl
  · rfl
  · cases hf

/-- The destructor begins while a call waits. -/
example : ∃ s, run one (start Nat UInt8 1) [.call 10, .destroy] = some s ∧ s.closing = true ∧
    s.broken = false ∧ s.transfers ≠ [] :=
  ⟨_, rfl, rfl, rfl, by simp [State.call, State.add, start]⟩

end Verif.Http.Client
