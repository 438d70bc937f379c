import Verif.Rpc.Trace
/-!
# C35: replies reach the caller that asked, at most once
-/
namespace Verif.Rpc

variable {Q P : Type}

/-! ### Specification, in terms of the events alone -/

/-- Call `n` was registered, and a reply with payload `p` to its id came later. -/
def Answered (s : Client Q P) (tr : List (Event Q P)) (n : Nat) (p : Option P) : Prop :=
  ∃ c a b, s.calls[n]? = some c ∧ tr = a ++ .reply c.id p :: b ∧ .register n ∈ a

/-- Call `n` was registered, and no reply to its id has come since. -/
def Unanswered (s : Client Q P) (tr : List (Event Q P)) (n : Nat) : Prop :=
  ∃ c a b, s.calls[n]? = some c ∧ tr = a ++ .register n :: b ∧ ∀ p, .reply c.id p ∉ b

/-- Servers answer only what they were sent. -/
def Honest (s : Client Q P) (tr : List (Event Q P)) : Prop :=
  ∀ a b id p, tr = a ++ .reply id p :: b →
    ∃ n c, s.calls[n]? = some c ∧ c.id = id ∧ .send n true ∈ a

/-! ### At most once -/

/-- **C35.** The callback of a call runs at most once, whatever the servers send. -/
theorem C35_once (tr : List (Event Q P)) (s : Client Q P) (h : Reach tr s) (n : Nat) :
    s.runs.countP (fun r => r.1 == n) ≤ 1 := by
  have := h.inv.one n
  unfold tokens at this
  omega

/-- **C35.** Carrying out an action never fails: no promise is set twice. -/
theorem C35_no_crash (tr : List (Event Q P)) (s : Client Q P) (h : Reach tr s)
    (k : Nat) (hk : k < s.held.length) : ∃ s', step s (.run k) = some s' := by
  have hi := h.inv
  obtain ⟨q, hq⟩ : ∃ q, s.held[k]? = some q := ⟨_, List.getElem?_eq_getElem hk⟩
  obtain ⟨n, v⟩ := q
  have hmem : (n, v) ∈ s.held := List.mem_of_getElem? hq
  have hcnt : 0 < s.held.countP (fun p => p.1 == n) :=
    List.countP_pos_iff.mpr ⟨(n, v), hmem, by simp⟩
  have hone := hi.one n
  unfold tokens at hone
  have hset : isSet s n = 0 := by omega
  cases hc : s.calls[n]? with
  | none =>
    exfalso
    have := hi.fresh n (by rintro ⟨c, h1, _⟩; rw [hc] at h1; cases h1)
    unfold tokens at this
    omega
  | some c =>
    have hpr : c.promise = none := by
      unfold isSet at hset
      rw [hc] at hset
      cases hx : c.promise with
      | none => rfl
      | some v => simp [hx] at hset
    simp only [step, hq, Client.perform, hc]
    cases hkind : c.kind with
    | sync t => exact ⟨_, by simp only [hpr]; rfl⟩
    | async =>
      cases v with
      | none => exact ⟨_, rfl⟩
      | some p => exact ⟨_, rfl⟩

/-! ### The right caller -/

/-- **C35.** A callback only runs with the payload of a reply to its own request
id, received after the call was registered. -/
theorem C35_callback (tr : List (Event Q P)) (s : Client Q P) (h : Reach tr s)
    (n : Nat) (p : Option P) (hr : (n, p) ∈ s.runs) : Answered s tr n p := by
  obtain ⟨a, b, c, h1, h2, h3⟩ := h.inv.runs _ hr
  exact ⟨c, a, b, h1, h2, h3⟩

/-- **C35.** A waiting call only returns a value that came in a reply to its own
request id, received after the call was registered. -/
theorem C35_returned (tr : List (Event Q P)) (s : Client Q P) (h : Reach tr s)
    (n : Nat) (c : Call Q P) (p : P) (hc : s.calls[n]? = some c)
    (hr : c.phase = .returned (.value (some p))) : Answered s tr n (some p) := by
  obtain ⟨a, b, c, h1, h2, h3⟩ := h.inv.ret n c p hc hr
  exact ⟨c, a, b, h1, h2, h3⟩

/-- **C35.** No two of the first 2^64 calls have the same id. -/
theorem C35_distinct (tr : List (Event Q P)) (s : Client Q P) (h : Reach tr s)
    (hb : s.calls.length ≤ 2 ^ 64) (n m : Nat) (c d : Call Q P)
    (hc : s.calls[n]? = some c) (hd : s.calls[m]? = some d) (he : c.id = d.id) :
    n = m := h.inv.uniq hb hc hd he

/-! ### Unknown and repeated replies -/

theorem extract_absent (s : Client Q P) (id : Nat) (v : Option (Option P))
    (h : ∀ p ∈ s.pending, p.1 ≠ id) : s.extract id v = s := by
  unfold Client.extract
  rw [List.find?_eq_none.mpr]
  intro p hp
  simpa using h p hp

/-- **C35.** A reply to an id that no call has changes nothing. -/
theorem C35_unknown (tr : List (Event Q P)) (s : Client Q P) (h : Reach tr s)
    (id : Nat) (p : Option P)
    (hid : ∀ (n : Nat) (c : Call Q P), s.calls[n]? = some c → c.id ≠ id) :
    step s (.reply id p) = some s := by
  simp only [step, Option.some.injEq]
  refine extract_absent s id _ fun q hq he => ?_
  obtain ⟨c, h1, h2, _⟩ := h.inv.keys q hq
  exact hid _ c h1 (h2.trans he)

/-- **C35.** Further replies to a call that has been answered change nothing. -/
theorem C35_repeated (tr : List (Event Q P)) (s : Client Q P) (h : Reach tr s)
    (hb : s.calls.length ≤ 2 ^ 64) (n : Nat) (c : Call Q P)
    (hc : s.calls[n]? = some c) (p q : Option P) (ha : Answered s tr n p) :
    step s (.reply c.id q) = some s := by
  simp only [step, Option.some.injEq]
  refine extract_absent s _ _ fun e he hk => ?_
  obtain ⟨d, h1, h2, _⟩ := h.inv.keys e he
  have hn := h.inv.uniq hb h1 hc (h2.trans hk)
  obtain ⟨x, a, b, g1, g2, g3⟩ := ha
  rw [hc] at g1
  cases g1
  obtain ⟨a1, a2, ha⟩ := List.append_of_mem g3
  refine h.inv2.stale e he a1 (a2 ++ .reply c.id p :: b) ?_ p ?_
  · rw [g2, ha, hn]
    simp
  · rw [hk]
    simp

/-! ### Delivery -/

/-- **C35.** The first reply to a call that is still waiting reaches it: the
callback runs with its payload, or the promise is given its payload. -/
theorem C35_delivered (tr : List (Event Q P)) (s : Client Q P) (h : Reach tr s)
    (hb : s.calls.length ≤ 2 ^ 64) (n : Nat) (c : Call Q P)
    (hc : s.calls[n]? = some c)
    (hp : c.phase = .registered ∨ c.phase = .waiting ∨
      c.phase = .returned (.sent true))
    (hu : Unanswered s tr n) (p : Option P) :
    ∃ s1 k s2, step s (.reply c.id p) = some s1 ∧ step s1 (.run k) = some s2 ∧
      (c.kind = .async → (n, p) ∈ s2.runs) ∧
      (c.kind ≠ .async →
        ∃ d, s2.calls[n]? = some d ∧ d.promise = some (some p)) := by
  obtain ⟨x, a, b, h1, h2, h3⟩ := hu
  rw [hc] at h1
  cases h1
  have hlive : c.phase.live = true := by rcases hp with h | h | h <;> (rw [h]; rfl)
  have hpend := h.inv2.pend hb n c hc hlive a b h2 h3
  have hs1 : step s (.reply c.id p) = some (s.extract c.id (some p)) := rfl
  have hr1 : Reach (tr ++ [.reply c.id p]) (s.extract c.id (some p)) := .step _ h hs1
  have hheld : (s.extract c.id (some p)).held[s.held.length]? = some (n, some p) := by
    unfold Client.extract
    cases hf : s.pending.find? fun q => q.1 == c.id with
    | none =>
      exfalso
      have := List.find?_eq_none.mp hf _ hpend
      simp at this
    | some q =>
      obtain ⟨i, m⟩ := q
      have hi := List.find?_some hf
      simp only [beq_iff_eq] at hi
      subst hi
      obtain ⟨d, g1, g2, _⟩ := h.inv.keys _ (List.mem_of_find?_eq_some hf)
      have := h.inv.uniq hb g1 hc g2
      simp only at this
      subst this
      simp
  have hcalls : (s.extract c.id (some p)).calls[n]? = some c := by
    rw [extract_calls]; exact hc
  obtain ⟨s2, hs2⟩ := C35_no_crash _ _ hr1 s.held.length (by
    apply Decidable.byContradiction
    intro hn
    rw [List.getElem?_eq_none (by omega)] at hheld
    cases hheld)
  refine ⟨_, s.held.length, s2, hs1, hs2, ?_, ?_⟩
  · intro hk
    simp only [step, hheld, Client.perform, hcalls, hk, Option.some.injEq] at hs2
    subst hs2
    simp
  · intro hk
    cases hkind : c.kind with
    | async => exact absurd hkind hk
    | sync t =>
      simp only [step, hheld, Client.perform, hcalls, hkind] at hs2
      cases hpr : c.promise with
      | some v => simp [hpr] at hs2
      | none =>
        simp only [hpr, Option.some.injEq] at hs2
        subst hs2
        refine ⟨{ c with promise := some (some p) }, ?_, rfl⟩
        simp only
        rw [getElem?_mod, if_pos rfl, hcalls]
        simp [hkind, hpr]

/-! ### Calls that failed to send -/

/-- **C35.** If servers answer only what they were sent, a call that reported a
failure to send never runs its callback. -/
theorem C35_not_sent (tr : List (Event Q P)) (s : Client Q P) (h : Reach tr s)
    (hb : s.calls.length ≤ 2 ^ 64) (hon : Honest s tr) (n : Nat) (c : Call Q P)
    (hc : s.calls[n]? = some c) (hp : c.phase = .returned (.sent false)) :
    ∀ p, (n, p) ∉ s.runs := by
  intro p hr
  obtain ⟨x, a, b, h1, h2, _⟩ := C35_callback tr s h n p hr
  rw [hc] at h1
  cases h1
  obtain ⟨m, d, g1, g2, g3⟩ := hon a b c.id p h2
  have := h.inv.uniq hb g1 hc g2
  subst this
  refine h.inv2.unsent m ?_ (by rw [h2]; exact List.mem_append_left _ g3)
  intro y hy
  rw [hc] at hy
  cases hy
  rw [hp]
  rfl

/-! ### Answers that never come -/

/-- **C35.** What happens without an answer: a callback never runs; a call without
a timeout returns only if the request could not be sent.  A lost reply therefore
leaves the caller waiting for ever, as `C35_lost` shows. -/
theorem C35_unanswered (tr : List (Event Q P)) (s : Client Q P) (h : Reach tr s)
    (hb : s.calls.length ≤ 2 ^ 64) (n : Nat) (c : Call Q P)
    (hc : s.calls[n]? = some c) (hu : ∀ p, .reply c.id p ∉ tr) :
    (∀ p, (n, p) ∉ s.runs) ∧
    (c.kind = .sync false → ∀ r, c.phase = .returned (.value r) →
      .send n false ∈ tr) := by
  constructor
  · intro p hr
    obtain ⟨x, a, b, h1, h2, _⟩ := C35_callback tr s h n p hr
    rw [hc] at h1
    cases h1
    exact hu p (by rw [h2]; simp)
  · intro hk r hp
    rcases h.inv2.rets hb n c r hc hp with h1 | h1 | ⟨v, h1⟩
    · exact h1
    · have := (h.inv2.sf n c hc).2.2 h1
      rw [hk] at this
      cases this
    · exact absurd h1 (hu v)

/-- Running a list of events. -/
def play (s : Client Q P) : List (Event Q P) → Option (Client Q P)
  | [] => some s
  | e :: es => (step s e).bind fun s => play s es

theorem play_reach {tr : List (Event Q P)} {s s' : Client Q P} (h : Reach tr s)
    (es : List (Event Q P)) (hp : play s es = some s') : Reach (tr ++ es) s' := by
  induction es generalizing tr s with
  | nil => cases hp; simpa using h
  | cons e es ih =>
    simp only [play] at hp
    cases hs : step s e with
    | none => simp [hs] at hp
    | some s1 =>
      rw [hs] at hp
      have := ih (.step e h hs) hp
      simpa using this

/-- **C35.** A request is sent and its reply lost: the call waits, and the client
can only be destroyed; the callback of a lost reply is not even run then. -/
theorem C35_lost :
    ∃ (tr : List (Event Nat Nat)) (s : Client Nat Nat), Reach tr s ∧
      (s.calls.map (·.phase)) = [.waiting, .returned (.sent true)] ∧ s.held = [] ∧
      ∃ s', s.destroy = some s' ∧ s'.runs = [] ∧
        s'.calls.map (·.promise) = [some none, none] := by
  refine ⟨_, _, play_reach .init
    [.start (.sync false) 7, .register 0, .send 0 true,
     .start .async 8, .register 1, .send 1 true] rfl, ?_, rfl, _, rfl, rfl, rfl⟩
  rfl

/-! ### Examples -/

/-- Two calls answered in the other order, with a repeated and an unknown reply;
the third times out and its late reply is ignored. -/
example :
    ∃ (tr : List (Event Nat Nat)) (s : Client Nat Nat), Reach tr s ∧
      s.runs = [(1, some 80)] ∧
      s.calls.map (·.phase) = [.returned (.value (some 70)), .returned (.sent true),
        .returned (.value none)] := by
  refine ⟨_, _, play_reach .init
    [.start (.sync false) 7, .start .async 8, .register 1, .register 0,
     .send 1 true, .send 0 true, .reply 1 (some 80), .run 0, .reply 1 (some 81),
     .reply 9 none, .reply 0 (some 70), .start (.sync true) 9, .run 0, .get 0,
     .register 2, .send 2 true, .timeout 2, .expire 2, .run 0, .reply 2 (some 90)]
    rfl, rfl, rfl⟩

/-- A failed send: the call returns false and the entry is gone. -/
example :
    ∃ (tr : List (Event Nat Nat)) (s : Client Nat Nat), Reach tr s ∧
      s.pending = [] ∧ s.calls.map (·.phase) = [.returned (.sent false)] := by
  refine ⟨_, _, play_reach .init
    [.start .async 8, .register 0, .send 0 false, .failed 0] rfl, rfl, rfl⟩

/-- A call that is unanswered and waiting, as `C35_delivered` needs. -/
example : ∃ (tr : List (Event Nat Nat)) (s : Client Nat Nat), Reach tr s ∧
    Unanswered s tr 0 := by
  refine ⟨_, _, play_reach .init
    [.start .async 8, .register 0, .send 0 true] rfl, ?_⟩
  exact ⟨⟨.async, 8, 0, .returned (.sent true), none⟩, [.start .async 8],
    [.send 0 true], rfl, rfl, by simp⟩

end Verif.Rpc
