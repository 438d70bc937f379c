import Verif.Net.Inbox
import Mathlib.Data.List.Nodup

/-!
# C92, C93: the messages a node has received
-/
namespace Verif.Net.Inbox

open Verif.Serial

/-- What came from, or was handled for, the peer `p`. -/
def ofPeer (p : Nat) (l : List (Nat × Bytes)) : List Bytes :=
  l.filterMap fun x => if x.1 = p then some x.2 else none

theorem ofPeer_append (p : Nat) (a b : List (Nat × Bytes)) :
    ofPeer p (a ++ b) = ofPeer p a ++ ofPeer p b := by simp [ofPeer]

theorem ofPeer_cons (p : Nat) (x : Nat × Bytes) (l : List (Nat × Bytes)) :
    ofPeer p (x :: l) = (if x.1 = p then [x.2] else []) ++ ofPeer p l := by
  unfold ofPeer
  by_cases h : x.1 = p <;> simp [h]

/-- What waits in the queues of the peer `p`. -/
def waiting (p : Nat) (qs : List (Nat × List Bytes)) : List Bytes :=
  qs.flatMap fun q => if q.1 = p then q.2 else []

/-- What the handler thread has taken and not yet handled. -/
def Handler.pkts : Handler → List (Nat × Bytes)
  | .batch l => l
  | _ => []

theorem waiting_none {p : Nat} {qs : List (Nat × List Bytes)} (h : p ∉ qs.map (·.1)) :
    waiting p qs = [] := by
  unfold waiting
  rw [List.flatMap_eq_nil_iff]
  intro q hq
  rw [if_neg]
  intro he
  exact h (List.mem_map.mpr ⟨q, hq, he⟩)

theorem take_keys (qs : List (Nat × List Bytes)) : (take qs).1.map (·.1) = qs.map (·.1) := by
  induction qs with
  | nil => rfl
  | cons q qs ih =>
    obtain ⟨p, l⟩ := q
    cases l <;> simp [take, ih]

theorem take_pkts_keys (qs : List (Nat × List Bytes)) :
    ∀ x ∈ (take qs).2.1, x.1 ∈ qs.map (·.1) := by
  induction qs with
  | nil => simp [take]
  | cons q qs ih =>
    obtain ⟨p, l⟩ := q
    cases l with
    | nil => intro x hx; simp only [take] at hx; simpa using Or.inr (by simpa using ih x hx)
    | cons m l =>
      intro x hx
      simp only [take, List.mem_cons] at hx
      rcases hx with rfl | hx
      · simp
      · simpa using Or.inr (by simpa using ih x hx)

theorem ofPeer_none {p : Nat} {l : List (Nat × Bytes)} (h : ∀ x ∈ l, x.1 ≠ p) : ofPeer p l = [] := by
  unfold ofPeer
  rw [List.filterMap_eq_nil_iff]
  intro x hx
  rw [if_neg (h x hx)]

theorem take_waiting {p : Nat} {qs : List (Nat × List Bytes)} (hn : (qs.map (·.1)).Nodup) :
    ofPeer p (take qs).2.1 ++ waiting p (take qs).1 = waiting p qs := by
  induction qs with
  | nil => rfl
  | cons q qs ih =>
    obtain ⟨r, l⟩ := q
    simp only [List.map_cons, List.nodup_cons] at hn
    have ih := ih hn.2
    by_cases hr : r = p
    · subst hr
      have hw : waiting r qs = [] := waiting_none hn.1
      have hw' : waiting r (take qs).1 = [] := waiting_none (by rw [take_keys]; exact hn.1)
      have hp : ofPeer r (take qs).2.1 = [] := ofPeer_none fun x hx he =>
        hn.1 (he ▸ take_pkts_keys qs x hx)
      cases l with
      | nil =>
        simp only [take, hp, waiting, List.flatMap_cons, List.nil_append]
        simp only [waiting] at hw hw'
        simp [hw, hw']
      | cons m l =>
        simp only [take, ofPeer_cons, hp, waiting, List.flatMap_cons]
        simp only [waiting] at hw hw'
        simp [hw, hw']
    · cases l with
      | nil => simpa [take, waiting, hr] using ih
      | cons m l => simpa [take, waiting, ofPeer_cons, hr] using ih

theorem take_flag (qs : List (Nat × List Bytes)) :
    (take qs).2.2 = true ↔ ∃ q ∈ (take qs).1, q.2 ≠ [] := by
  induction qs with
  | nil => simp [take]
  | cons q qs ih =>
    obtain ⟨p, l⟩ := q
    cases l with
    | nil => simp [take, ih]
    | cons m l =>
      simp only [take, Bool.or_eq_true, ih, List.mem_cons, exists_eq_or_imp]
      cases l <;> simp

theorem waiting_set {p r : Nat} {qs : List (Nat × List Bytes)} {i : Nat} {l : List Bytes} {m : Bytes}
    (hn : (qs.map (·.1)).Nodup) (h : qs[i]? = some (r, l)) :
    waiting p (qs.set i (r, l ++ [m])) = waiting p qs ++ (if r = p then [m] else []) := by
  induction qs generalizing i with
  | nil => simp at h
  | cons q qs ih =>
    simp only [List.map_cons, List.nodup_cons] at hn
    cases i with
    | zero =>
      simp only [List.getElem?_cons_zero, Option.some.injEq] at h
      subst h
      simp only [List.set_cons_zero, waiting, List.flatMap_cons]
      by_cases hr : r = p
      · subst hr
        have hw : waiting r qs = [] := waiting_none hn.1
        simp only [waiting] at hw
        simp [hw]
      · simp [hr]
    | succ i =>
      simp only [List.getElem?_cons_succ] at h
      have := ih hn.2 h
      simp only [waiting] at this
      simp only [List.set_cons_succ, waiting, List.flatMap_cons, this, List.append_assoc]

theorem keys_set {qs : List (Nat × List Bytes)} {i r : Nat} {l l' : List Bytes}
    (h : qs[i]? = some (r, l)) : (qs.set i (r, l')).map (·.1) = qs.map (·.1) := by
  induction qs generalizing i with
  | nil => simp at h
  | cons q qs ih =>
    cases i with
    | zero =>
      simp only [List.getElem?_cons_zero, Option.some.injEq] at h
      subst h
      simp
    | succ i =>
      simp only [List.getElem?_cons_succ] at h
      simp [ih h]

/-- What holds of a node at all times. -/
structure Inv (s : State) : Prop where
  keys : (s.queues.map (·.1) ++ s.adding).Nodup
  small : ∀ p ∈ s.queues.map (·.1) ++ s.adding, p < s.next
  flow : ∀ p, ofPeer p s.handled ++ (ofPeer p s.handler.pkts ++ waiting p s.queues) =
    ofPeer p s.received
  flag : (∃ q ∈ s.queues, q.2 ≠ []) → s.data = true
  drowsy : s.handler = .drowsy → s.data = false
  asleep : s.handler = .asleep → s.data = true → 0 < s.notifies

theorem inv_init : Inv .init := by
  constructor <;> simp [State.init, ofPeer, waiting, Handler.pkts]

/-- Only the handler's place changes. -/
theorem Inv.handler {s : State} {h : Handler} {b c : Bool} {n : Nat} (hi : Inv s)
    (hp : h.pkts = s.handler.pkts) (hd : h = .drowsy → s.data = false)
    (ha : h = .asleep → s.data = true → 0 < n) :
    Inv { s with handler := h, running := b, closing := c, notifies := n } :=
  ⟨hi.keys, hi.small, fun p => by dsimp only; rw [hp]; exact hi.flow p, hi.flag, hd, ha⟩

theorem inv_step {s s' : State} {e : Event} (hi : Inv s) (hs : step s e = some s') : Inv s' := by
  cases e with
  | newId =>
    simp only [step, Option.some.injEq] at hs
    subst hs
    refine ⟨?_, ?_, hi.flow, hi.flag, hi.drowsy, hi.asleep⟩
    · dsimp only
      rw [← List.append_assoc, List.nodup_append]
      refine ⟨hi.keys, by simp, ?_⟩
      intro a ha b hb
      rw [List.mem_singleton.mp hb]
      exact Nat.ne_of_lt (hi.small a ha)
    · intro p hp
      dsimp only at hp ⊢
      rw [← List.append_assoc] at hp
      rcases List.mem_append.mp hp with hp | hp
      · exact Nat.lt_succ_of_lt (hi.small p hp)
      · rw [List.mem_singleton.mp hp]; exact Nat.lt_succ_self _
  | newQueue id =>
    simp only [step] at hs
    split at hs
    · next hc =>
      simp only [Bool.and_eq_true, decide_eq_true_eq] at hc
      simp only [Option.some.injEq] at hs
      subst hs
      have hperm : (s.queues.map (·.1) ++ s.adding).Perm
          ((s.queues ++ [((id, []) : Nat × List Bytes)]).map (·.1) ++ s.adding.erase id) := by
        simp only [List.map_append, List.map_cons, List.map_nil, List.append_assoc]
        exact List.Perm.append_left _ (List.perm_cons_erase hc.1)
      refine ⟨hperm.nodup hi.keys, fun p hp => hi.small p (hperm.mem_iff.mpr hp), ?_, ?_, hi.drowsy,
        hi.asleep⟩
      · intro p
        have : waiting p (s.queues ++ [(id, [])]) = waiting p s.queues := by simp [waiting]
        dsimp only
        rw [this]
        exact hi.flow p
      · rintro ⟨q, hq, hne⟩
        rcases List.mem_append.mp hq with hq | hq
        · exact hi.flag ⟨q, hq, hne⟩
        · rw [List.mem_singleton.mp hq] at hne; exact absurd rfl hne
    · exact absurd hs (by simp)
  | receive q pkt =>
    simp only [step] at hs
    split at hs
    · next p l hq =>
      split at hs
      · exact absurd hs (by simp)
      · next hh =>
        simp only [Option.some.injEq] at hs
        subst hs
        have hkeys := keys_set (l' := l ++ [pkt]) hq
        refine ⟨by dsimp only; rw [hkeys]; exact hi.keys,
          by dsimp only; rw [hkeys]; exact hi.small, ?_, fun _ => rfl, ?_, fun _ _ => Nat.succ_pos _⟩
        · intro r
          dsimp only
          rw [waiting_set (List.nodup_append.mp hi.keys).1 hq, ofPeer_append, ← hi.flow r,
            ofPeer_cons]
          simp [ofPeer]
        · intro hd
          dsimp only at hd
          simp [State.held, hd] at hh
    · exact absurd hs (by simp)
  | notifyOne =>
    simp only [step] at hs
    split at hs
    · exact absurd hs (by simp)
    · simp only [Option.some.injEq] at hs
      subst hs
      refine hi.handler (b := s.running) (c := s.closing) ?_ ?_ ?_
      · split
        · next h => rw [h]; rfl
        · rfl
      · split
        · intro h; cases h
        · exact hi.drowsy
      · split
        · intro h; cases h
        · next h => exact fun h' => absurd h' h
  | look =>
    simp only [step] at hs
    split at hs
    · next ht =>
      simp only [Option.some.injEq] at hs
      subst hs
      refine hi.handler (b := s.running) (c := s.closing) (n := s.notifies) ?_ ?_ ?_
      · rw [ht]; split <;> rfl
      · split <;> (intro h; cases h)
      · split <;> (intro h; cases h)
    · exact absurd hs (by simp)
  | eval =>
    simp only [step] at hs
    split at hs
    · next ht =>
      split at hs
      · simp only [Option.some.injEq] at hs
        subst hs
        refine ⟨by dsimp only; rw [take_keys]; exact hi.keys,
          by dsimp only; rw [take_keys]; exact hi.small, ?_, ?_, fun h => (by cases h),
          fun h => (by cases h)⟩
        · intro p
          have := hi.flow p
          rw [ht] at this
          dsimp only [Handler.pkts] at this ⊢
          rw [take_waiting (List.nodup_append.mp hi.keys).1]
          simpa [ofPeer] using this
        · exact (take_flag s.queues).mpr
      · next hc =>
        simp only [Option.some.injEq] at hs
        subst hs
        refine hi.handler (b := s.running) (c := s.closing) (n := s.notifies) (by rw [ht]; rfl) ?_
          (fun h => (by cases h))
        intro _
        simp only [Bool.or_eq_true, not_or, Bool.not_eq_true] at hc
        exact hc.2
    · exact absurd hs (by simp)
  | sleep =>
    simp only [step] at hs
    split at hs
    · next ht =>
      simp only [Option.some.injEq] at hs
      subst hs
      refine hi.handler (b := s.running) (c := s.closing) (n := s.notifies) (by rw [ht]; rfl)
        (fun h => (by cases h)) ?_
      intro _ hd
      rw [hi.drowsy ht] at hd
      cases hd
    · exact absurd hs (by simp)
  | spurious =>
    simp only [step] at hs
    split at hs
    · next ht =>
      simp only [Option.some.injEq] at hs
      subst hs
      exact hi.handler (b := s.running) (c := s.closing) (n := s.notifies) (by rw [ht]; rfl)
        (fun h => (by cases h)) (fun h => (by cases h))
    · exact absurd hs (by simp)
  | lock =>
    simp only [step] at hs
    split at hs
    · next ht =>
      simp only [Option.some.injEq] at hs
      subst hs
      exact hi.handler (b := s.running) (c := s.closing) (n := s.notifies) (by rw [ht]; rfl)
        (fun h => (by cases h)) (fun h => (by cases h))
    · exact absurd hs (by simp)
  | handle =>
    simp only [step] at hs
    split at hs
    · next ht =>
      simp only [Option.some.injEq] at hs
      subst hs
      exact hi.handler (b := s.running) (c := s.closing) (n := s.notifies) (by rw [ht]; rfl)
        (fun h => (by cases h)) (fun h => (by cases h))
    · next pkt rest ht =>
      simp only [Option.some.injEq] at hs
      subst hs
      refine ⟨hi.keys, hi.small, ?_, hi.flag, fun h => (by cases h), fun h => (by cases h)⟩
      intro p
      have := hi.flow p
      rw [ht] at this
      dsimp only [Handler.pkts] at this ⊢
      rw [← this, ofPeer_append, ofPeer_cons p pkt rest, ofPeer_cons p pkt []]
      simp [ofPeer]
    · exact absurd hs (by simp)
  | close =>
    simp only [step, Option.some.injEq] at hs
    subst hs
    exact hi.handler (n := s.notifies) rfl hi.drowsy hi.asleep
  | notifyAll =>
    simp only [step] at hs
    split at hs
    · simp only [Option.some.injEq] at hs
      subst hs
      refine hi.handler (b := s.running) (c := false) (n := s.notifies) ?_ ?_ ?_
      · split
        · next h => rw [h]; rfl
        · rfl
      · split
        · intro h; cases h
        · exact hi.drowsy
      · split
        · intro h; cases h
        · exact hi.asleep
    · exact absurd hs (by simp)

theorem inv_run {es : List Event} {s s' : State} (h : Inv s) (hr : run s es = some s') : Inv s' := by
  induction es generalizing s with
  | nil => simp only [run, Option.some.injEq] at hr; rw [← hr]; exact h
  | cons e es ih =>
    simp only [run, Option.bind_eq_some_iff] at hr
    obtain ⟨t, ht, hr⟩ := hr
    exact ih (inv_step h ht) hr

/-- **C92.** Whatever peers come and whenever their packets arrive, the handler is given the
packets of each peer unchanged, in the order of arrival, none twice and none left out. -/
theorem C92_order {es : List Event} {s : State} (hr : run .init es = some s) (p : Nat) :
    ofPeer p s.handled <+: ofPeer p s.received :=
  ⟨_, (inv_run inv_init hr).flow p⟩

/-- **C92.** The handler never sleeps over a packet: if it sleeps and no notification is under way, all packets
received have been handled. -/
theorem C92_awake {es : List Event} {s : State} (hr : run .init es = some s)
    (ha : s.handler = .asleep) (hn : s.notifies = 0) (p : Nat) :
    ofPeer p s.handled = ofPeer p s.received := by
  have hi := inv_run inv_init hr
  have hd : ¬ s.data = true := fun hd => Nat.lt_irrefl 0 (hn ▸ hi.asleep ha hd)
  have hq : waiting p s.queues = [] := by
    unfold waiting
    rw [List.flatMap_eq_nil_iff]
    intro q hq
    have : q.2 = [] := Classical.byContradiction fun hne => hd (hi.flag ⟨q, hq, hne⟩)
    simp [this]
  have := hi.flow p
  rw [ha, hq] at this
  simpa [Handler.pkts, ofPeer] using this

theorem take_heads {qs : List (Nat × List Bytes)} {p : Nat} {m : Bytes} {l : List Bytes}
    (h : (p, m :: l) ∈ qs) : (p, m) ∈ (take qs).2.1 := by
  induction qs with
  | nil => simp at h
  | cons q qs ih =>
    obtain ⟨r, k⟩ := q
    rcases List.mem_cons.mp h with h | h'
    · cases h; simp [take]
    · cases k with
      | nil => exact ih h'
      | cons a k => exact List.mem_cons_of_mem _ (ih h')

/-- **C92.** No peer can starve another: the handler takes one packet of every peer that has one
waiting, and only one. -/
theorem C92_fair {s s' : State} (hs : step s .eval = some s') {p : Nat} {m : Bytes} {l : List Bytes}
    {es : List Event} (hr : run .init es = some s) (hq : (p, m :: l) ∈ s.queues)
    : ofPeer p s'.handler.pkts = [m] := by
  have hi := inv_run inv_init hr
  have hd := hi.flag ⟨_, hq, by simp⟩
  have hn := (List.nodup_append.mp hi.keys).1
  simp only [step] at hs
  split at hs
  · rw [hd] at hs
    simp only [Bool.or_true, if_true, Option.some.injEq] at hs
    subst hs
    dsimp only [Handler.pkts]
    clear hr hi hd
    revert hq hn
    induction s.queues with
    | nil => intro h; simp at h
    | cons q qs ih =>
      obtain ⟨r, k⟩ := q
      intro h hn
      simp only [List.map_cons, List.nodup_cons] at hn
      rcases List.mem_cons.mp h with h | h'
      · cases h
        simp only [take, ofPeer_cons, if_true]
        have : ofPeer p (take qs).2.1 = [] := ofPeer_none fun x hx he =>
          hn.1 (he ▸ take_pkts_keys qs x hx)
        rw [this]
        rfl
      · have hrp : r ≠ p := fun he => hn.1 (he ▸ List.mem_map.mpr ⟨_, h', rfl⟩)
        cases k with
        | nil => simpa [take] using ih h' hn.2
        | cons a k => simpa [take, ofPeer_cons, hrp] using ih h' hn.2
  · exact absurd hs (by simp)

/-- Two peers; the second one's packet comes while the first one's are waiting. -/
def exTwo : List Event :=
  [.newId, .newId, .newQueue 1, .newQueue 0, .look, .eval, .sleep, .receive 0 [1], .receive 0 [2],
    .receive 1 [3], .notifyOne, .lock, .eval, .handle, .handle, .handle, .look, .notifyOne, .eval,
    .handle, .handle, .notifyOne, .look, .eval, .sleep]

example : (run .init exTwo).map (fun s => (s.received, s.handled)) =
    some ([(1, [1]), (1, [2]), (0, [3])], [(1, [1]), (0, [3]), (1, [2])]) ∧
    (run .init exTwo).map (fun s => (s.handler, s.notifies)) = some (.asleep, 0) := by
  refine ⟨by decide +kernel, by decide +kernel⟩

/-! ### C93: closing -/

/-- Whether the handler thread has gone to sleep, or is bound to. -/
def Handler.sleepy : Handler → Bool
  | .drowsy | .asleep => true
  | _ => false

/-- What the handler thread of a node that closes has still to do. -/
def State.left (s : State) : Nat :=
  match s.handler with
  | .ended => 0
  | .top => 1
  | .batch l => 2 + l.length
  | .eval => 3 + s.queues.length
  | .woken => 4 + s.queues.length
  | .drowsy | .asleep => 0

theorem take_short (l : List (Nat × List Bytes)) : (take l).2.1.length ≤ l.length := by
  induction l with
  | nil => simp [take]
  | cons x l ih =>
    obtain ⟨p, q⟩ := x
    cases q with
    | nil => simp only [take, List.length_cons]; omega
    | cons m q => simp only [take, List.length_cons]; omega

/-- Whether an event is the addition of a peer's queue. -/
def Event.adds : Event → Bool
  | .newQueue _ => true
  | _ => false

/-- Every step of the handler thread leaves it less to do, and others add no more than a queue. -/
theorem left_step {s t : State} {e : Event} (hr : s.running = false) (hs : s.handler.sleepy = false)
    (h : step s e = some t) : t.running = false ∧ t.handler.sleepy = false ∧
      (if e.own then 1 else 0) + t.left ≤ s.left + (if e.adds then 1 else 0) := by
  cases e with
  | newId => cases h; exact ⟨hr, hs, by simp [Event.own, State.left]⟩
  | newQueue id =>
    simp only [step] at h
    split at h <;> cases h
    refine ⟨hr, hs, ?_⟩
    simp only [Event.own, State.left, List.length_append, List.length_cons, List.length_nil,
      Bool.false_eq_true, if_false, Event.adds, if_true]
    split <;> omega
  | receive q m =>
    simp only [step] at h
    split at h
    · split at h <;> cases h
      exact ⟨hr, hs, by simp [Event.own, State.left]⟩
    · cases h
  | notifyOne =>
    simp only [step] at h
    split at h <;> cases h
    have hna : s.handler ≠ .asleep := fun he => by rw [he] at hs; cases hs
    rw [if_neg hna]
    exact ⟨hr, hs, by simp [Event.own, State.left]⟩
  | look =>
    simp only [step] at h
    split at h <;> cases h
    next ht => exact ⟨hr, by simp [hr, Handler.sleepy], by simp [Event.own, State.left, hr, ht]⟩
  | eval =>
    simp only [step, hr] at h
    split at h
    · next ht =>
      simp only [Bool.not_false, Bool.true_or, if_true, Option.some.injEq] at h
      subst h
      have := take_short s.queues
      refine ⟨rfl, rfl, ?_⟩
      simp only [Event.own, State.left, ht, if_true]
      omega
    · cases h
  | sleep =>
    simp only [step] at h
    split at h
    · next ht => rw [ht] at hs; cases hs
    · cases h
  | spurious =>
    simp only [step] at h
    split at h
    · next ht => rw [ht] at hs; cases hs
    · cases h
  | lock =>
    simp only [step] at h
    split at h <;> cases h
    next ht =>
      refine ⟨hr, rfl, ?_⟩
      simp only [Event.own, State.left, ht, if_true]
      omega
  | handle =>
    simp only [step] at h
    split at h
    · next ht =>
      cases h
      refine ⟨hr, rfl, ?_⟩
      simp only [Event.own, State.left, ht, if_true, List.length_nil]
      omega
    · next ht =>
      cases h
      refine ⟨hr, rfl, ?_⟩
      simp only [Event.own, State.left, ht, if_true, List.length_cons]
      omega
    · cases h
  | close => cases h; exact ⟨rfl, hs, by simp [Event.own, State.left]⟩
  | notifyAll =>
    simp only [step] at h
    split at h <;> cases h
    have hna : s.handler ≠ .asleep := fun he => by rw [he] at hs; cases hs
    rw [if_neg hna]
    exact ⟨hr, hs, by simp [Event.own, State.left]⟩

/-- **C93, partial.** Once `close` has been called, and whatever else happens meanwhile, a handler thread that does not
sleep takes a bounded number of steps, and can always take one until it has ended: the messages it
has taken already, and at most one of each queue.  Missing: a handler thread that is about to
sleep when `close` is called may never be woken, `C93_handler_violated`. -/
theorem C93_handler_partial (s : State) (hr : s.running = false) (hs : s.handler.sleepy = false)
    {fs : List Event} {t : State} (h : run s fs = some t) :
    fs.countP Event.own ≤ s.left + fs.countP Event.adds ∧
    (t.handler = .ended ∨ ∃ e : Event, e.own = true ∧ step t e ≠ none) := by
  have key : ∀ (fs : List Event) (s : State), s.running = false → s.handler.sleepy = false →
      run s fs = some t → fs.countP Event.own + t.left ≤ s.left + fs.countP Event.adds ∧
        t.running = false ∧ t.handler.sleepy = false := by
    intro fs
    induction fs with
    | nil =>
      intro s hr hs h
      simp only [run, Option.some.injEq] at h
      subst h
      exact ⟨by simp, hr, hs⟩
    | cons e fs ih =>
      intro s hr hs h
      simp only [run, Option.bind_eq_some_iff] at h
      obtain ⟨u, hu, h⟩ := h
      obtain ⟨h1, h2, h3⟩ := left_step hr hs hu
      obtain ⟨h4, h5⟩ := ih u h1 h2 h
      refine ⟨?_, h5⟩
      simp only [List.countP_cons]
      omega
  obtain ⟨h1, h2, h3⟩ := key fs s hr hs h
  refine ⟨by omega, ?_⟩
  cases hh : t.handler with
  | ended => exact .inl rfl
  | top => exact .inr ⟨.look, rfl, by simp [step, hh]⟩
  | eval => exact .inr ⟨.eval, rfl, by simp [step, hh, h2]⟩
  | drowsy => rw [hh] at h3; cases h3
  | asleep => rw [hh] at h3; cases h3
  | woken => exact .inr ⟨.lock, rfl, by simp [step, hh]⟩
  | batch l => exact .inr ⟨.handle, rfl, by cases l <;> simp [step, hh]⟩

/-- **C93, partial.** A handler thread that sleeps before `close` calls `notify_all` is woken by it, and ends
likewise. -/
theorem C93_woken_partial (s s' : State) (hr : s.running = false) (hs : s.handler = .asleep)
    (hst : step s .notifyAll = some s') {fs : List Event} {t : State} (h : run s' fs = some t) :
    fs.countP Event.own ≤ s'.left + fs.countP Event.adds ∧
    (t.handler = .ended ∨ ∃ e : Event, e.own = true ∧ step t e ≠ none) := by
  simp only [step, hs, if_true] at hst
  split at hst
  · simp only [Option.some.injEq] at hst
    subst hst
    exact C93_handler_partial { s with closing := false, handler := .woken } hr rfl h
  · exact absurd hst (by simp)

/-- No event but a packet, a notification or chance wakes a sleeping handler. -/
theorem sleeps_on {s s' : State} {e : Event} (hs : s.handler = .asleep) (hn : s.notifies = 0)
    (hc : s.closing = false) (he : step s e = some s')
    (hne : e ≠ .spurious ∧ (∀ q m, e ≠ .receive q m) ∧ e ≠ .close) :
    s'.handler = .asleep ∧ s'.notifies = 0 ∧ s'.closing = false := by
  cases e with
  | newId => simp only [step, Option.some.injEq] at he; subst he; exact ⟨hs, hn, hc⟩
  | newQueue id =>
    simp only [step] at he
    split at he
    · simp only [Option.some.injEq] at he; subst he; exact ⟨hs, hn, hc⟩
    · exact absurd he (by simp)
  | receive q m => exact absurd rfl (hne.2.1 q m)
  | notifyOne => simp [step, hn] at he
  | look => simp [step, hs] at he
  | eval => simp [step, hs] at he
  | sleep => simp [step, hs] at he
  | spurious => exact absurd rfl hne.1
  | lock => simp [step, hs] at he
  | handle => simp [step, hs] at he
  | close => exact absurd rfl hne.2.2
  | notifyAll => simp [step, hc] at he

/-- **C93 does not hold.** `close` returns while the handler thread is about to sleep, which it then does: no peer
is left to send it a packet, and none of the node's own steps wakes it. -/
theorem C93_handler_violated : ∃ (es : List Event) (s : State), run .init es = some s ∧
    s.running = false ∧ s.closing = false ∧ s.handler = .asleep ∧
    ∀ (fs : List Event) (t : State), (∀ e ∈ fs, e ≠ .spurious ∧ (∀ q m, e ≠ .receive q m) ∧ e ≠ .close) →
      run s fs = some t → t.handler = .asleep := by
  refine ⟨[.look, .eval, .close, .notifyAll, .sleep],
    ⟨0, [], [], false, false, 0, false, .asleep, [], []⟩, by decide +kernel, rfl, rfl, rfl, ?_⟩
  intro fs t hfs hrun
  suffices h : ∀ s : State, s.handler = .asleep → s.notifies = 0 → s.closing = false →
      run s fs = some t → t.handler = .asleep from h _ rfl rfl rfl hrun
  clear hrun
  induction fs with
  | nil => intro s hs _ _ hrun; simp only [run, Option.some.injEq] at hrun; rw [← hrun]; exact hs
  | cons f fs ih =>
    intro s hs hn hc hrun
    simp only [run, Option.bind_eq_some_iff] at hrun
    obtain ⟨u, hu, hrun⟩ := hrun
    obtain ⟨h1, h2, h3⟩ := sleeps_on hs hn hc hu (hfs f (by simp))
    exact ih (fun e he => hfs e (by simp [he])) u h1 h2 h3 hrun

/-- A run that ends: the handler sleeps when `close` is called. -/
example : (run .init [.look, .eval, .sleep, .close, .notifyAll, .lock, .eval, .handle, .look]).map
    (·.handler) = some .ended := by decide +kernel

end Verif.Net.Inbox
