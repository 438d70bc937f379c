import Verif.Net.Shutdown

/-!
# C93: shutting a peer down
-/
namespace Verif.Net.Shutdown

/-- A step that the peer takes by itself: it does not wait for the network, for chance or for someone who
calls `send` or `shutdown`. -/
def Inside (s : State) : Event → Prop
  | .push | .spurious | .shutdown => False
  | .send _ => ¬ (s.send = .write ∧ s.sock = true)
  | .recv _ => ¬ (s.recv = .read ∧ s.sock = true)
  | .rc _ => ¬ (s.rc = .connect ∧ s.shutDown = false)
  | .main => True

/-- Events that are steps of the peer itself when they happen. -/
def Insides : State → List Event → Prop
  | _, [] => True
  | s, e :: es => Inside s e ∧ ∀ t, step s e = some t → Insides t es

/-- Nothing is left that the peer could do by itself. -/
def Still (s : State) : Prop := ∀ e : Event, Inside s e → step s e = none

/-! ### What holds at all times -/

/-- What the lines before line `c` of `close` have brought about. -/
structure Before (s : State) (c : Close) : Prop where
  running : c ≠ .running → s.running = false
  sock : c ≠ .running → c ≠ .disconnect → s.sock = false
  pop : c = .joinSend → s.send = .pop → s.wake = true ∨ s.items ≠ 0
  send : c = .joinRecv ∨ c = .reset → s.send = .off
  recv : c = .reset → s.recv = .off

/-- What holds of a peer at all times. -/
structure Inv (s : State) : Prop where
  down : s.main ≠ .idle → s.shutDown = true
  rc : ∀ c, s.rc = .closing c ∨ s.rc = .final c → Before s c
  main : ∀ c, s.main = .closing c → Before s c
  gone : (∃ c, s.main = .closing c) → s.rc = .exited

theorem inv_init (a : Bool) : Inv (.init a) := by
  constructor <;> simp [State.init]

/-- `Before` is not spoiled by a step of the send thread. -/
theorem Before.sendStep {s s' : State} {c : Close} {ok : Bool} (hb : Before s c)
    (h : sendStep s ok = some s') : Before s' c := by
  unfold Shutdown.sendStep at h
  split at h
  · exact absurd h (by simp)
  · exact absurd h (by simp)
  · next ht =>
    simp only [Option.some.injEq] at h
    subst h
    refine ⟨hb.running, hb.sock, ?_, ?_, hb.recv⟩
    · intro hc
      have hr := hb.running (by rw [hc]; simp)
      simp [hr]
    · intro hc
      have := hb.send hc
      rw [ht] at this
      cases this
  · next ht =>
    split at h
    · split at h
      · simp only [Option.some.injEq] at h
        subst h
        refine ⟨hb.running, hb.sock, by simp, ?_, hb.recv⟩
        intro hc
        have := hb.send hc
        rw [ht] at this
        cases this
      · exact absurd h (by simp)
    · simp only [Option.some.injEq] at h
      subst h
      refine ⟨hb.running, hb.sock, by simp, ?_, hb.recv⟩
      intro hc
      have := hb.send hc
      rw [ht] at this
      cases this
  · next ht =>
    split at h
    · exact absurd h (by simp)
    · simp only [Option.some.injEq] at h
      subst h
      refine ⟨hb.running, hb.sock, ?_, ?_, hb.recv⟩
      · dsimp only; split <;> simp
      · intro hc
        have := hb.send hc
        rw [ht] at this
        cases this
  · next ht =>
    split at h
    · exact absurd h (by simp)
    · simp only [Option.some.injEq] at h
      subst h
      refine ⟨hb.running, hb.sock, by simp, ?_, hb.recv⟩
      intro hc
      have := hb.send hc
      rw [ht] at this
      cases this
  · next ht =>
    simp only [Option.some.injEq] at h
    subst h
    refine ⟨hb.running, hb.sock, by simp, ?_, hb.recv⟩
    intro hc
    have := hb.send hc
    rw [ht] at this
    cases this

theorem Before.recvStep {s s' : State} {c : Close} {ok : Bool} (hb : Before s c)
    (h : recvStep s ok = some s') : Before s' c := by
  unfold Shutdown.recvStep at h
  split at h
  · exact absurd h (by simp)
  · exact absurd h (by simp)
  · next ht =>
    simp only [Option.some.injEq] at h
    subst h
    refine ⟨hb.running, hb.sock, hb.pop, hb.send, ?_⟩
    intro hc
    have := hb.recv hc
    rw [ht] at this
    cases this
  · next ht =>
    split at h
    · exact absurd h (by simp)
    · simp only [Option.some.injEq] at h
      subst h
      refine ⟨hb.running, hb.sock, hb.pop, hb.send, ?_⟩
      intro hc
      have := hb.recv hc
      rw [ht] at this
      cases this
  · next ht =>
    split at h
    · exact absurd h (by simp)
    · simp only [Option.some.injEq] at h
      subst h
      refine ⟨hb.running, hb.sock, hb.pop, hb.send, ?_⟩
      intro hc
      have := hb.recv hc
      rw [ht] at this
      cases this
  · next ht =>
    simp only [Option.some.injEq] at h
    subst h
    refine ⟨hb.running, hb.sock, hb.pop, hb.send, ?_⟩
    intro hc
    have := hb.recv hc
    rw [ht] at this
    cases this

/-- A line of `close` does its part. -/
theorem Before.closeStep {s : State} {c : Close} {r : State × Option Close} (hb : Before s c)
    (h : closeStep s c = some r) : (∀ c', r.2 = some c' → Before r.1 c') ∧
      r.1.shutDown = s.shutDown ∧ r.1.main = s.main ∧ r.1.rc = s.rc := by
  cases c with
  | running =>
    cases h
    exact ⟨fun c' h => by cases h; exact ⟨fun _ => rfl, by simp, by simp, by simp, by simp⟩,
      rfl, rfl, rfl⟩
  | disconnect =>
    cases h
    refine ⟨fun c' h => ?_, rfl, rfl, rfl⟩
    cases h
    exact ⟨fun _ => hb.running (by simp), fun _ _ => rfl, by simp, by simp, by simp⟩
  | clear =>
    cases h
    refine ⟨fun c' h => ?_, rfl, rfl, rfl⟩
    cases h
    exact ⟨fun _ => hb.running (by simp), fun _ _ => hb.sock (by simp) (by simp),
      fun _ _ => .inl rfl, by simp, by simp⟩
  | joinSend =>
    simp only [Shutdown.closeStep] at h
    split at h
    · next hs =>
      cases h
      refine ⟨fun c' h => ?_, rfl, rfl, rfl⟩
      cases h
      exact ⟨fun _ => hb.running (by simp), fun _ _ => hb.sock (by simp) (by simp), by simp,
        fun _ => hs, by simp⟩
    · cases h
      refine ⟨fun c' h => ?_, rfl, rfl, rfl⟩
      cases h
      exact ⟨fun _ => hb.running (by simp), fun _ _ => hb.sock (by simp) (by simp), by simp,
        fun _ => rfl, by simp⟩
    · exact absurd h (by simp)
  | joinRecv =>
    simp only [Shutdown.closeStep] at h
    split at h
    · next hs =>
      cases h
      refine ⟨fun c' h => ?_, rfl, rfl, rfl⟩
      cases h
      exact ⟨fun _ => hb.running (by simp), fun _ _ => hb.sock (by simp) (by simp), by simp,
        fun _ => hb.send (.inl rfl), fun _ => hs⟩
    · cases h
      refine ⟨fun c' h => ?_, rfl, rfl, rfl⟩
      cases h
      exact ⟨fun _ => hb.running (by simp), fun _ _ => hb.sock (by simp) (by simp), by simp,
        fun _ => hb.send (.inl rfl), fun _ => rfl⟩
    · exact absurd h (by simp)
  | reset =>
    cases h
    exact ⟨fun c' h => (by cases h), rfl, rfl, rfl⟩

/-- `Before` speaks of the socket, the flags and the two threads only. -/
theorem Before.congr {s t : State} {c : Close} (hb : Before s c) (h1 : t.running = s.running)
    (h2 : t.sock = s.sock) (h3 : t.send = s.send) (h4 : t.recv = s.recv) (h5 : t.wake = s.wake)
    (h6 : t.items = s.items) : Before t c := by
  obtain ⟨a, b, d, e, f⟩ := hb
  exact ⟨by rw [h1]; exact a, by rw [h2]; exact b, by rw [h3, h5, h6]; exact d,
    by rw [h3]; exact e, by rw [h4]; exact f⟩

/-- What the send and the receive thread leave alone. -/
theorem sendStep_rest {s s' : State} {ok : Bool} (h : sendStep s ok = some s') :
    s'.shutDown = s.shutDown ∧ s'.main = s.main ∧
      (s'.rc = s.rc ∨ (s.rc = .asleep ∧ s'.rc = .woken)) := by
  unfold sendStep at h
  split at h
  · exact absurd h (by simp)
  · exact absurd h (by simp)
  · cases h; exact ⟨rfl, rfl, .inl rfl⟩
  · split at h
    · split at h
      · cases h; exact ⟨rfl, rfl, .inl rfl⟩
      · exact absurd h (by simp)
    · cases h; exact ⟨rfl, rfl, .inl rfl⟩
  · split at h
    · exact absurd h (by simp)
    · cases h; exact ⟨rfl, rfl, .inl rfl⟩
  · split at h
    · exact absurd h (by simp)
    · cases h; exact ⟨rfl, rfl, .inl rfl⟩
  · cases h
    refine ⟨rfl, rfl, ?_⟩
    simp only [State.notified]
    split
    · next h => exact .inr ⟨h, rfl⟩
    · exact .inl rfl

theorem recvStep_rest {s s' : State} {ok : Bool} (h : recvStep s ok = some s') :
    s'.shutDown = s.shutDown ∧ s'.main = s.main ∧
      (s'.rc = s.rc ∨ (s.rc = .asleep ∧ s'.rc = .woken)) := by
  unfold recvStep at h
  split at h
  · exact absurd h (by simp)
  · exact absurd h (by simp)
  · cases h; exact ⟨rfl, rfl, .inl rfl⟩
  · split at h
    · exact absurd h (by simp)
    · cases h; exact ⟨rfl, rfl, .inl rfl⟩
  · split at h
    · exact absurd h (by simp)
    · cases h; exact ⟨rfl, rfl, .inl rfl⟩
  · cases h
    refine ⟨rfl, rfl, ?_⟩
    simp only [State.notified]
    split
    · next h => exact .inr ⟨h, rfl⟩
    · exact .inl rfl

theorem inv_threads {s s' : State} (hi : Inv s) (hd : s'.shutDown = s.shutDown) (hm : s'.main = s.main)
    (hrc : s'.rc = s.rc ∨ (s.rc = .asleep ∧ s'.rc = .woken))
    (hb : ∀ c, Before s c → Before s' c) : Inv s' := by
  refine ⟨by rw [hd, hm]; exact hi.down, ?_, ?_, ?_⟩
  · intro c hc
    rcases hrc with h | ⟨-, h⟩
    · rw [h] at hc; exact hb c (hi.rc c hc)
    · rw [h] at hc; rcases hc with hc | hc <;> cases hc
  · intro c hc
    rw [hm] at hc
    exact hb c (hi.main c hc)
  · intro hc
    rw [hm] at hc
    have := hi.gone hc
    rcases hrc with h | ⟨h, -⟩
    · rw [h]; exact this
    · rw [h] at this; cases this

theorem inv_rc {s s' : State} {ok : Bool} (hi : Inv s) (h : recStep s ok = some s') : Inv s' := by
  have hne : ∀ {x : RecT}, s.rc = x → x ≠ .exited → ¬ ∃ c, s.main = .closing c := by
    intro x hx hn hc
    exact hn (hx.symm.trans (hi.gone hc))
  -- a step that leaves `main` alone and does not enter `close`
  have key : ∀ t : State, s.rc ≠ .exited → (s.shutDown = true → t.shutDown = true) → t.main = s.main →
      (∀ c, t.rc = .closing c ∨ t.rc = .final c → Before t c) → Inv t := by
    intro t hn hd hm hb
    refine ⟨fun h => hd (hi.down (by rw [← hm]; exact h)), hb, ?_, ?_⟩
    · intro c hc
      exact absurd ⟨c, hm ▸ hc⟩ (hne rfl hn)
    · rintro ⟨c, hc⟩
      exact absurd ⟨c, hm ▸ hc⟩ (hne rfl hn)
  unfold recStep at h
  split at h
  · next ht =>
    cases h
    refine key _ (by rw [ht]; simp) id rfl ?_
    intro c hc
    dsimp only at hc
    split at hc <;> rcases hc with hc | hc <;> cases hc
  · next ht =>
    cases h
    exact key _ (by rw [ht]; simp) id rfl (fun c hc => by rcases hc with hc | hc <;> cases hc)
  · next ht =>
    split at h <;> cases h
    · exact key _ (by rw [ht]; simp) id rfl (fun c hc => by rcases hc with hc | hc <;> cases hc)
    · exact key _ (by rw [ht]; simp) id rfl (fun c hc => by rcases hc with hc | hc <;> cases hc)
  · next ht =>
    cases h
    exact key _ (by rw [ht]; simp) id rfl (fun c hc => by rcases hc with hc | hc <;> cases hc)
  · exact absurd h (by simp)
  · next ht =>
    cases h
    exact key _ (by rw [ht]; simp) id rfl (fun c hc => by rcases hc with hc | hc <;> cases hc)
  · next ht =>
    split at h
    · cases h
      exact key _ (by rw [ht]; simp) id rfl (fun c hc => by rcases hc with hc | hc <;> cases hc)
    · split at h <;> cases h
      · refine key _ (by rw [ht]; simp) id rfl (fun c hc => ?_)
        rcases hc with hc | hc <;> cases hc
        exact ⟨by simp, by simp, by simp, by simp, by simp⟩
      · refine key _ (by rw [ht]; simp) (fun _ => rfl) rfl (fun c hc => ?_)
        rcases hc with hc | hc <;> cases hc
        exact ⟨by simp, by simp, by simp, by simp, by simp⟩
  · next c ht =>
    simp only [Option.map_eq_some_iff] at h
    obtain ⟨r, hr, rfl⟩ := h
    obtain ⟨h1, h2, h3, h4⟩ := (hi.rc c (.inl ht)).closeStep hr
    refine key _ (by rw [ht]; simp) (fun hd => h2.trans hd) h3 (fun c' hc => ?_)
    dsimp only at hc
    split at hc
    · next c'' hc'' =>
      rcases hc with hc | hc <;> cases hc
      exact (h1 _ hc'').congr rfl rfl rfl rfl rfl rfl
    · rcases hc with hc | hc <;> cases hc
  · next ht =>
    split at h
    · cases h
      exact key _ (by rw [ht]; simp) id rfl (fun c hc => by rcases hc with hc | hc <;> cases hc)
    · cases h
      refine key _ (by rw [ht]; simp) id rfl (fun c hc => ?_)
      dsimp only at hc
      split at hc <;> rcases hc with hc | hc <;> cases hc
  · next ht =>
    cases h
    exact key _ (by rw [ht]; simp) id rfl (fun c hc => by rcases hc with hc | hc <;> cases hc)
  · next ht =>
    split at h <;> cases h
    · exact key _ (by rw [ht]; simp) id rfl (fun c hc => by rcases hc with hc | hc <;> cases hc)
    · exact key _ (by rw [ht]; simp) id rfl (fun c hc => by rcases hc with hc | hc <;> cases hc)
  · next c ht =>
    simp only [Option.map_eq_some_iff] at h
    obtain ⟨r, hr, rfl⟩ := h
    obtain ⟨h1, h2, h3, h4⟩ := (hi.rc c (.inr ht)).closeStep hr
    refine key _ (by rw [ht]; simp) (fun hd => h2.trans hd) h3 (fun c' hc => ?_)
    dsimp only at hc
    split at hc
    · next c'' hc'' =>
      rcases hc with hc | hc <;> cases hc
      exact (h1 _ hc'').congr rfl rfl rfl rfl rfl rfl
    · rcases hc with hc | hc <;> cases hc
  · next ht =>
    cases h
    exact key _ (by rw [ht]; simp) id rfl (fun c hc => by rcases hc with hc | hc <;> cases hc)
  · exact absurd h (by simp)

theorem inv_step {s s' : State} {e : Event} (hi : Inv s) (h : step s e = some s') : Inv s' := by
  cases e with
  | push =>
    simp only [step] at h
    split at h
    · exact absurd h (by simp)
    · cases h
      exact inv_threads hi rfl rfl (.inl rfl) fun c hb =>
        ⟨hb.running, hb.sock, fun _ _ => .inl rfl, hb.send, hb.recv⟩
  | send ok =>
    have := sendStep_rest h
    exact inv_threads hi this.1 this.2.1 this.2.2 fun c hb => hb.sendStep h
  | recv ok =>
    have := recvStep_rest h
    exact inv_threads hi this.1 this.2.1 this.2.2 fun c hb => hb.recvStep h
  | rc ok => exact inv_rc hi h
  | spurious =>
    simp only [step] at h
    split at h
    · next ha =>
      cases h
      exact inv_threads hi rfl rfl (.inr ⟨ha, rfl⟩) fun c hb => hb.congr rfl rfl rfl rfl rfl rfl
    · exact absurd h (by simp)
  | shutdown =>
    simp only [step] at h
    split at h
    · cases h
      refine ⟨fun _ => rfl, fun c hc => (hi.rc c hc).congr rfl rfl rfl rfl rfl rfl, ?_, ?_⟩
      · intro c hc; cases hc
      · rintro ⟨c, hc⟩; cases hc
    · exact absurd h (by simp)
  | main =>
    simp only [step, mainStep] at h
    split at h
    · exact absurd h (by simp)
    · exact absurd h (by simp)
    · next hm =>
      cases h
      have hd := hi.down (by rw [hm]; simp)
      refine ⟨fun _ => hd, ?_, ?_, ?_⟩
      · intro c hc
        simp only [State.notified] at hc
        split at hc
        · rcases hc with hc | hc <;> cases hc
        · exact (hi.rc c hc).congr rfl rfl rfl rfl rfl rfl
      · intro c hc; cases hc
      · rintro ⟨c, hc⟩; cases hc
    · next hm =>
      have hd := hi.down (by rw [hm]; simp)
      split at h
      · next hx =>
        cases h
        refine ⟨fun _ => hd, ?_, ?_, fun _ => hx⟩
        · intro c hc
          dsimp only at hc
          rw [hx] at hc
          rcases hc with hc | hc <;> cases hc
        · intro c hc
          cases hc
          exact ⟨by simp, by simp, by simp, by simp, by simp⟩
      · exact absurd h (by simp)
    · next c hm =>
      have hd := hi.down (by rw [hm]; simp)
      simp only [Option.map_eq_some_iff] at h
      obtain ⟨r, hr, rfl⟩ := h
      obtain ⟨h1, h2, h3, h4⟩ := (hi.main c hm).closeStep hr
      have hx := hi.gone ⟨c, hm⟩
      refine ⟨fun _ => h2.trans hd, ?_, ?_, fun _ => h4.trans hx⟩
      · intro c' hc
        dsimp only at hc
        rw [h4, hx] at hc
        rcases hc with hc | hc <;> cases hc
      · intro c' hc
        dsimp only at hc
        split at hc
        · next c'' hc'' =>
          cases hc
          exact (h1 _ hc'').congr rfl rfl rfl rfl rfl rfl
        · cases hc

theorem inv_run {es : List Event} {s s' : State} (hi : Inv s) (hr : run s es = some s') : Inv s' := by
  induction es generalizing s with
  | nil => simp only [run, Option.some.injEq] at hr; rw [← hr]; exact hi
  | cons e es ih =>
    simp only [run, Option.bind_eq_some_iff] at hr
    obtain ⟨t, ht, hr⟩ := hr
    exact ih (inv_step hi ht) hr

/-! ### The property -/

/-- Whether the reconnect thread sleeps, or is bound to. -/
def RecT.sleepy : RecT → Bool
  | .drowsy | .asleep => true
  | _ => false

/-- What is still to be done in `close`. -/
def Close.work : Close → Nat
  | .running => 6
  | .disconnect => 5
  | .clear => 4
  | .joinSend => 3
  | .joinRecv => 2
  | .reset => 1

/-- What the send thread has still to do by itself. -/
def SendT.work : SendT → Nat
  | .off | .exited => 0
  | .top => 9
  | .pop => 8
  | .write => 7
  | .failed => 6
  | .signalled => 5

/-- What the receive thread has still to do by itself. -/
def RecvT.work : RecvT → Nat
  | .off | .exited => 0
  | .top => 8
  | .read => 7
  | .failed => 6
  | .signalled => 5

/-- What the reconnect thread has still to do by itself when the peer shuts down. -/
def RecT.work : RecT → Nat
  | .exited | .asleep => 0
  | .top | .test | .drowsy | .finalClear => 1
  | .eval | .restart => 2
  | .lock | .woken | .connect => 3
  | .pause => 4
  | .closing c => 3 + c.work
  | .final c => 1 + c.work

/-- What `shutdown` has still to do. -/
def MainT.work : MainT → Nat
  | .idle | .returned => 0
  | .notify => 11
  | .join => 7
  | .closing c => c.work

/-- A bound on the steps that a peer that shuts down can still take by itself. -/
def State.work (s : State) : Nat := s.send.work + s.recv.work + s.rc.work + s.main.work

theorem notified_work (s : State) : s.notified.rc.work ≤ s.rc.work + 3 := by
  simp only [State.notified]
  split
  · next h => rw [h]; simp [RecT.work]
  · omega

theorem closeStep_work {s : State} {c : Close} {r : State × Option Close} (h : closeStep s c = some r) :
    r.1.send.work ≤ s.send.work ∧ r.1.recv.work ≤ s.recv.work ∧ r.1.main = s.main ∧ r.1.rc = s.rc ∧
      r.1.shutDown = s.shutDown ∧ (r.2.elim 0 Close.work) < c.work := by
  cases c with
  | running => cases h; exact ⟨Nat.le_refl _, Nat.le_refl _, rfl, rfl, rfl, by simp [Close.work]⟩
  | disconnect => cases h; exact ⟨Nat.le_refl _, Nat.le_refl _, rfl, rfl, rfl, by simp [Close.work]⟩
  | clear => cases h; exact ⟨Nat.le_refl _, Nat.le_refl _, rfl, rfl, rfl, by simp [Close.work]⟩
  | joinSend =>
    simp only [closeStep] at h
    split at h <;> cases h
    · exact ⟨Nat.le_refl _, Nat.le_refl _, rfl, rfl, rfl, by simp [Close.work]⟩
    · exact ⟨Nat.zero_le _, Nat.le_refl _, rfl, rfl, rfl, by simp [Close.work]⟩
  | joinRecv =>
    simp only [closeStep] at h
    split at h <;> cases h
    · exact ⟨Nat.le_refl _, Nat.le_refl _, rfl, rfl, rfl, by simp [Close.work]⟩
    · exact ⟨Nat.le_refl _, Nat.zero_le _, rfl, rfl, rfl, by simp [Close.work]⟩
  | reset => cases h; exact ⟨Nat.le_refl _, Nat.le_refl _, rfl, rfl, rfl, by simp [Close.work]⟩

/-- Every step of a peer that shuts down leaves it less to do. -/
theorem inside_work {s t : State} {e : Event} (hd : s.shutDown = true) (hin : Inside s e)
    (h : step s e = some t) : t.work < s.work := by
  cases e with
  | push => cases hin
  | spurious => cases hin
  | shutdown => cases hin
  | send ok =>
    simp only [step, sendStep] at h
    split at h
    · cases h
    · cases h
    · next hs =>
      cases h
      simp only [State.work, hs]
      split <;> simp only [SendT.work] <;> omega
    · next hs =>
      split at h
      · split at h <;> cases h
        simp only [State.work, hs, SendT.work]
        omega
      · cases h
        simp only [State.work, hs, SendT.work]
        omega
    · next hs =>
      split at h
      · cases h
      · next hok =>
        cases h
        have hf : ok = false := by
          cases ok with
          | false => rfl
          | true =>
            have : s.sock ≠ true := fun hk => hin ⟨hs, hk⟩
            simp [this] at hok
        simp only [State.work, hs, hf, Bool.false_eq_true, if_false, SendT.work]
        omega
    · next hs =>
      split at h <;> cases h
      simp only [State.work, hs, SendT.work]
      omega
    · next hs =>
      cases h
      have := notified_work s
      have e1 : s.notified.recv = s.recv := rfl
      have e2 : s.notified.main = s.main := rfl
      simp only [State.work, hs, SendT.work, e1, e2]
      omega
  | recv ok =>
    simp only [step, recvStep] at h
    split at h
    · cases h
    · cases h
    · next hs =>
      cases h
      simp only [State.work, hs]
      split <;> simp only [RecvT.work] <;> omega
    · next hs =>
      split at h
      · cases h
      · next hok =>
        cases h
        have hf : ok = false := by
          cases ok with
          | false => rfl
          | true =>
            have : s.sock ≠ true := fun hk => hin ⟨hs, hk⟩
            simp [this] at hok
        simp only [State.work, hs, hf, Bool.false_eq_true, if_false, RecvT.work]
        omega
    · next hs =>
      split at h <;> cases h
      simp only [State.work, hs, RecvT.work]
      omega
    · next hs =>
      cases h
      have := notified_work s
      have e1 : s.notified.send = s.send := rfl
      have e2 : s.notified.main = s.main := rfl
      simp only [State.work, hs, RecvT.work, e1, e2]
      omega
  | rc ok =>
    simp only [step, recStep] at h
    split at h
    · next hs => cases h; simp only [State.work, hs, hd, if_true, RecT.work]; omega
    · next hs => cases h; simp only [State.work, hs, RecT.work]; omega
    · next hs =>
      rw [if_pos (by simp [hd])] at h
      cases h
      simp only [State.work, hs, RecT.work]; omega
    · next hs => cases h; simp only [State.work, hs, RecT.work]; omega
    · cases h
    · next hs => cases h; simp only [State.work, hs, RecT.work]; omega
    · next hs =>
      rw [if_pos hd] at h
      cases h
      simp only [State.work, hs, RecT.work]; omega
    · next c hs =>
      simp only [Option.map_eq_some_iff] at h
      obtain ⟨r, hr, rfl⟩ := h
      obtain ⟨h1, h2, h3, -, -, h5⟩ := closeStep_work hr
      simp only [State.work, hs, RecT.work, h3]
      cases h2' : r.2 with
      | none => rw [h2'] at h5; simp only [Option.elim_none] at h5; simp only []; omega
      | some c' => rw [h2'] at h5; simp only [Option.elim_some] at h5; simp only []; omega
    · next hs =>
      rw [if_pos hd] at h
      cases h
      simp only [State.work, hs, RecT.work]; omega
    · next hs => cases h; simp only [State.work, hs, RecT.work]; omega
    · next hs =>
      rw [if_pos hd] at h
      cases h
      simp only [State.work, hs, RecT.work]; omega
    · next c hs =>
      simp only [Option.map_eq_some_iff] at h
      obtain ⟨r, hr, rfl⟩ := h
      obtain ⟨h1, h2, h3, -, -, h5⟩ := closeStep_work hr
      simp only [State.work, hs, RecT.work, h3]
      cases h2' : r.2 with
      | none =>
        rw [h2'] at h5; simp only [Option.elim_none] at h5; simp only []
        have : 0 < c.work := h5
        omega
      | some c' => rw [h2'] at h5; simp only [Option.elim_some] at h5; simp only []; omega
    · next hs => cases h; simp only [State.work, hs, RecT.work]; omega
    · cases h
  | main =>
    simp only [step, mainStep] at h
    split at h
    · cases h
    · cases h
    · next hs =>
      cases h
      have := notified_work s
      have e1 : s.notified.send = s.send := rfl
      have e2 : s.notified.recv = s.recv := rfl
      simp only [State.work, hs, MainT.work, e1, e2]
      omega
    · next hs =>
      split at h <;> cases h
      simp only [State.work, hs, MainT.work, Close.work]
      omega
    · next c hs =>
      simp only [Option.map_eq_some_iff] at h
      obtain ⟨r, hr, rfl⟩ := h
      obtain ⟨h1, h2, -, h4, -, h5⟩ := closeStep_work hr
      simp only [State.work, hs, MainT.work, h4]
      cases h2' : r.2 with
      | none => rw [h2'] at h5; simp only [Option.elim_none] at h5; simp only []; omega
      | some c' => rw [h2'] at h5; simp only [Option.elim_some] at h5; simp only []; omega

/-- The reconnect thread does not sleep, or is going to be notified. -/
def Roused (s : State) : Prop := s.rc.sleepy = false ∨ (s.main = .notify ∧ s.rc = .asleep)

/-- A peer that shuts down goes on to do so, and its reconnect thread does not fall asleep. -/
theorem inside_roused {s t : State} {e : Event} (hd : s.shutDown = true) (hm : s.main ≠ .idle)
    (hw : Roused s) (hin : Inside s e) (h : step s e = some t) :
    t.shutDown = true ∧ t.main ≠ .idle ∧ Roused t := by
  have hthr : ∀ {t : State}, t.shutDown = s.shutDown → t.main = s.main →
      (t.rc = s.rc ∨ (s.rc = .asleep ∧ t.rc = .woken)) →
      t.shutDown = true ∧ t.main ≠ .idle ∧ Roused t := by
    intro t h1 h2 h3
    refine ⟨h1.trans hd, by rw [h2]; exact hm, ?_⟩
    rcases h3 with h3 | ⟨-, h3⟩
    · unfold Roused; rw [h3, h2]; exact hw
    · exact .inl (by rw [h3]; rfl)
  cases e with
  | push => cases hin
  | spurious => cases hin
  | shutdown => cases hin
  | send ok => have := sendStep_rest h; exact hthr this.1 this.2.1 this.2.2
  | recv ok => have := recvStep_rest h; exact hthr this.1 this.2.1 this.2.2
  | rc ok =>
    have hne : s.rc ≠ .drowsy := by
      intro hr
      rcases hw with h | h
      · rw [hr] at h; cases h
      · rw [hr] at h; cases h.2
    simp only [step, recStep] at h
    split at h
    · cases h; exact ⟨hd, hm, .inl (by simp [hd, RecT.sleepy])⟩
    · cases h; exact ⟨hd, hm, .inl rfl⟩
    · rw [if_pos (by simp [hd])] at h
      cases h; exact ⟨hd, hm, .inl rfl⟩
    · next hr => exact absurd hr hne
    · cases h
    · cases h; exact ⟨hd, hm, .inl rfl⟩
    · rw [if_pos hd] at h
      cases h; exact ⟨hd, hm, .inl rfl⟩
    · simp only [Option.map_eq_some_iff] at h
      obtain ⟨r, hr, rfl⟩ := h
      obtain ⟨-, -, h3, -, h5, -⟩ := closeStep_work hr
      refine ⟨h5.trans hd, by rw [h3]; exact hm, .inl ?_⟩
      dsimp only
      split <;> rfl
    · rw [if_pos hd] at h
      cases h; exact ⟨hd, hm, .inl rfl⟩
    · cases h; exact ⟨hd, hm, .inl rfl⟩
    · rw [if_pos hd] at h
      cases h; exact ⟨hd, hm, .inl rfl⟩
    · simp only [Option.map_eq_some_iff] at h
      obtain ⟨r, hr, rfl⟩ := h
      obtain ⟨-, -, h3, -, h5, -⟩ := closeStep_work hr
      refine ⟨h5.trans hd, by rw [h3]; exact hm, .inl ?_⟩
      dsimp only
      split <;> rfl
    · cases h; exact ⟨hd, hm, .inl rfl⟩
    · cases h
  | main =>
    simp only [step, mainStep] at h
    split at h
    · cases h
    · cases h
    · cases h
      refine ⟨hd, by simp, .inl ?_⟩
      simp only [State.notified]
      split
      · rfl
      · next hna => exact hw.elim id fun h => absurd h.2 hna
    · split at h
      · next hx => cases h; exact ⟨hd, by simp, .inl (by dsimp only; rw [hx]; rfl)⟩
      · cases h
    · next c hc =>
      have hs : s.rc.sleepy = false := hw.elim id fun h => by rw [hc] at h; cases h.1
      simp only [Option.map_eq_some_iff] at h
      obtain ⟨r, hr, rfl⟩ := h
      obtain ⟨-, -, -, h4, h5, -⟩ := closeStep_work hr
      refine ⟨h5.trans hd, ?_, .inl (by dsimp only; rw [h4]; exact hs)⟩
      dsimp only
      split <;> simp

/-- A line of `close` is not waited for in vain. -/
theorem still_close {s : State} {c : Close} (hq : Still s) (hb : Before s c) (hh : s.held = false) :
    closeStep s c ≠ none := by
  intro hn
  cases c with
  | running => cases hn
  | disconnect => cases hn
  | clear => cases hn
  | reset => cases hn
  | joinSend =>
    have hr := hb.running (by simp)
    have hk := hb.sock (by simp) (by simp)
    have := hq (.send false) (by simp [Inside, hk])
    simp only [step, sendStep] at this
    cases hs : s.send with
    | off => simp [closeStep, hs] at hn
    | exited => simp [closeStep, hs] at hn
    | top => simp [hs] at this
    | pop =>
      simp only [hs] at this
      split at this
      · next h0 =>
        rw [if_pos ((hb.pop rfl hs).resolve_right (not_not_intro h0))] at this
        cases this
      · cases this
    | write => simp [hs] at this
    | failed => simp [hs, hh] at this
    | signalled => simp [hs] at this
  | joinRecv =>
    have hk := hb.sock (by simp) (by simp)
    have := hq (.recv false) (by simp [Inside, hk])
    simp only [step, recvStep] at this
    cases hs : s.recv with
    | off => simp [closeStep, hs] at hn
    | exited => simp [closeStep, hs] at hn
    | top => simp [hs] at this
    | read => simp [hs] at this
    | failed => simp [hs, hh] at this
    | signalled => simp [hs] at this

/-- **C93, partial.** Whatever the threads of the peer are doing when `shutdown` is called, also in the
middle of a reconnection, and in whatever order they run from then on: after a bounded number of steps
of the peer alone `shutdown` has returned, unless the reconnect thread sleeps when it has been notified already,
or is about to when it is notified.  Missing: that case, `C93_shutdown_violated`. -/
theorem C93_shutdown_partial {a : Bool} {es : List Event} {s : State}
    (hr : run (.init a) es = some s) (hm : s.main ≠ .idle)
    (hs : s.rc.sleepy = false ∨ (s.main = .notify ∧ s.rc = .asleep))
    {fs : List Event} {t : State} (hf : Insides s fs) (ht : run s fs = some t) :
    fs.length ≤ s.work ∧ (Still t → t.main = .returned) := by
  have hi := inv_run (inv_init a) hr
  have hd := hi.down hm
  clear hr
  have key : ∀ (fs : List Event) (s : State), Inv s → s.shutDown = true → s.main ≠ .idle → Roused s →
      Insides s fs → run s fs = some t → fs.length + t.work ≤ s.work ∧ Inv t ∧ t.main ≠ .idle ∧ Roused t ∧
        t.shutDown = true := by
    intro fs
    induction fs with
    | nil =>
      intro s hi hd hm hw _ h
      simp only [run, Option.some.injEq] at h
      subst h
      exact ⟨by simp, hi, hm, hw, hd⟩
    | cons e fs ih =>
      intro s hi hd hm hw hf h
      simp only [run, Option.bind_eq_some_iff] at h
      obtain ⟨u, hu, h⟩ := h
      have h1 := inside_work hd hf.1 hu
      obtain ⟨h2, h3, h4⟩ := inside_roused hd hm hw hf.1 hu
      obtain ⟨h5, h6⟩ := ih u (inv_step hi hu) h2 h3 h4 (hf.2 u hu) h
      exact ⟨by simp only [List.length_cons]; omega, h6⟩
  obtain ⟨h1, hi', hm', hw', hd'⟩ := key fs s hi hd hm hs hf ht
  refine ⟨by omega, fun hq => ?_⟩
  have hrc : t.rc = .exited ∨ t.rc = .asleep := by
    have hns := hq (.rc false) (by simp [Inside, hd'])
    simp only [step, recStep] at hns
    cases hx : t.rc with
    | exited => exact .inl rfl
    | asleep => exact .inr rfl
    | top => simp [hx] at hns
    | lock => simp [hx] at hns
    | eval => simp [hx, hd'] at hns
    | drowsy => simp [hx] at hns
    | woken => simp [hx] at hns
    | test => simp [hx, hd'] at hns
    | connect => simp [hx, hd'] at hns
    | pause => simp [hx] at hns
    | restart => simp [hx, hd'] at hns
    | finalClear => simp [hx] at hns
    | closing c =>
      simp only [hx, Option.map_eq_none_iff] at hns
      exact absurd hns (still_close hq (hi'.rc c (.inl hx)) (by simp [State.held, hx]))
    | final c =>
      simp only [hx, Option.map_eq_none_iff] at hns
      exact absurd hns (still_close hq (hi'.rc c (.inr hx)) (by simp [State.held, hx]))
  have hns := hq .main trivial
  simp only [step, mainStep] at hns
  cases hx : t.main with
  | returned => rfl
  | idle => exact absurd hx hm'
  | notify => simp [hx] at hns
  | join =>
    rcases hrc with h | h
    · simp [hx, h] at hns
    · rcases hw' with hw' | hw'
      · rw [h] at hw'; cases hw'
      · rw [hx] at hw'; cases hw'.1
  | closing c =>
    simp only [hx, Option.map_eq_none_iff] at hns
    exact absurd hns (still_close hq (hi'.main c hx) (by simp [State.held, hi'.gone ⟨c, hx⟩]))

/-- **C93 does not hold.** `shutdown` notifies the reconnect thread between its looking at the flags and
its going to sleep; then `shutdown` waits for a thread that nothing in the peer will wake, for as long
as the connection stays quiet. -/
theorem C93_shutdown_violated : ∃ (es : List Event) (s : State), run (.init true) es = some s ∧
    s.main = .join ∧ Still s := by
  refine ⟨[.rc false, .rc false, .rc false, .send false, .recv false, .shutdown, .main, .rc false],
    ⟨true, 0, false, true, true, false, true, .pop, .read, .asleep, .join⟩, by decide +kernel, rfl, ?_⟩
  intro e hin
  cases e <;> simp [Inside, step, sendStep, recStep, mainStep] at hin ⊢

/-- `shutdown` in the middle of a reconnection returns. -/
example : (run (.init true) [.rc false, .rc false, .rc false, .rc false, .send false, .recv false,
    .recv false, .recv false, .recv false, .rc false, .rc false, .rc false, .rc false, .rc false,
    .rc false, .shutdown, .main, .send false, .rc false, .rc false, .rc false, .rc false, .rc false,
    .rc false, .main, .main, .main, .main, .main, .main, .main]).map
    (fun s => (s.main, s.rc)) = some (.returned, .exited) := by decide +kernel

end Verif.Net.Shutdown
