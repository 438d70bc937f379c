/-!
# Listening for connections (C142)

`tcp_listener::listen`, the selector and the loop of `connection_manager::pump` that accepts
connections, with what the system calls may return.
-/
namespace Verif.Net.Listen

/-! ### Opening the listener -/

/-- What the system says to one of the addresses that `getaddrinfo` returned. -/
inductive Try where
  | noSocket
  | noOption
  | noBind
  | noListen
  | works
  deriving DecidableEq, Repr

/-- `m_sock_fd` of a listener, all descriptors that are open and those that listen. A descriptor is
named after the address it was made for. -/
structure Sock where
  fd : Option Nat := none
  opened : List Nat := []
  listening : List Nat := []
  deriving DecidableEq, Repr

/-- `socket::create_socket` (src/util/network/socket.cpp:45-48). -/
def Sock.create (s : Sock) (i : Nat) (t : Try) : Sock :=
  if t = .noSocket then { s with fd := none } else { s with fd := some i, opened := i :: s.opened }

/-- `::close(m_sock_fd); m_sock_fd = -1;` (src/util/network/socket.cpp:54-55 and
src/util/network/tcp_listener.cpp:30-31, 37-38). -/
def Sock.drop (s : Sock) : Sock :=
  match s.fd with
  | none => s
  | some i => { s with fd := none, opened := s.opened.filter (· ≠ i) }

/-- The loop of `tcp_listener::listen` (src/util/network/tcp_listener.cpp:18-43), from address `i`
on. -/
def Sock.loop (s : Sock) (i : Nat) : List Try → Sock
  | [] => s
  | t :: ts =>
    let s1 := s.create i t
    if s1.fd = none then s1.loop (i + 1) ts
    else if t = .noOption then s1.drop.loop (i + 1) ts
    else if t = .noBind then s1.drop.loop (i + 1) ts
    else if t = .noListen then s1.drop.loop (i + 1) ts
    else { s1 with listening := i :: s1.listening }

/-- `tcp_listener::listen` (src/util/network/tcp_listener.cpp:11-46) of a new listener. `none`: the
address cannot be resolved. -/
def open' (addrs : Option (List Try)) : Sock × Bool :=
  match addrs with
  | none => ({}, false)
  | some ts => let s := Sock.loop {} 0 ts; (s, s.fd.isSome)

/-! ### Accepting connections -/

/-- Where the thread of `pump` is. -/
inductive Pc where
  /-- before the test of `m_running` -/
  | top
  /-- in `select` -/
  | select
  /-- in the `read` from the pipe -/
  | read
  /-- before `accept` -/
  | accept
  /-- returned -/
  | done (r : Bool)
  deriving DecidableEq, Repr

/-- The listening side of a connection manager: `m_running`, the bytes in the pipe of the selector, the
connections that wait in the system, those handed to `add`, and whether the listener is open. -/
structure St (C : Type) where
  running : Bool := true
  pipe : Nat := 0
  backlog : List C := []
  added : List C := []
  opened : Bool := true
  pc : Pc := .top
  deriving DecidableEq

variable {C : Type}

/-- What the system does in a step of the thread. `fault` is an interrupted `select` or a failed
`accept`. -/
inductive Sys where
  | fine
  | fault
  deriving DecidableEq, Repr

/-- `wait` after `select` (src/util/network/socket_selector.cpp:25-33): the byte is read. -/
def St.unblocked (s : St C) : St C := { s with pipe := s.pipe - 1, pc := .top }

/-- One step of the thread of `pump` (src/util/network/connection_manager.cpp:24-38) with
`socket_selector::wait` (src/util/network/socket_selector.cpp:16-34) and `tcp_listener::accept`
(src/util/network/tcp_listener.cpp:48-53). `none`: the thread is blocked or has ended. A `select` that
fails leaves the sets as they were given to it, with the bit of the pipe set; it fails also if a
descriptor is closed. `add` (src/util/network/connection_manager.cpp:80-111) is not modelled here. -/
def St.pump (s : St C) (y : Sys) : Option (St C) :=
  match s.pc with
  | .top => if s.running then some { s with pc := .select } else some { s with pc := .done true }
  | .select =>
    if y = .fault ∨ s.opened = false then some { s with pc := .read }
    else if 0 < s.pipe then some { s with pc := .read }
    else if s.backlog ≠ [] then some { s with pc := .accept }
    else none
  | .read => if 0 < s.pipe then some s.unblocked else none
  | .accept =>
    if y = .fault ∨ s.opened = false then some { s with pc := .done false }
    else
      match s.backlog with
      | [] => none
      | c :: l => some { s with backlog := l, added := s.added ++ [c], pc := .top }
  | .done _ => none

/-- `connection_manager::close` (src/util/network/connection_manager.cpp:184-200), the part that
concerns the listener. -/
def St.close (s : St C) : St C := { s with running := false, pipe := s.pipe + 1, opened := false }

/-! ### Specification -/

/-- Runs of a listener, with the connections that arrived. `bad`: system calls may fail. -/
inductive Run (bad : Bool) : List C → St C → Prop
  | init : Run bad [] {}
  | arrive {l : List C} {s : St C} (h : Run bad l s) (c : C) :
      Run bad (l ++ [c]) { s with backlog := s.backlog ++ [c] }
  | pump {l : List C} {s s' : St C} {y : Sys} (h : Run bad l s) (hy : bad = true ∨ y = .fine)
      (hs : s.pump y = some s') : Run bad l s'
  | close {l : List C} {s : St C} (h : Run bad l s) : Run bad l s.close

/-- What the thread alone does, without faults. -/
inductive Alone : Nat → St C → St C → Prop
  | refl (s : St C) : Alone 0 s s
  | step {n : Nat} {s s' s'' : St C} (hs : s.pump .fine = some s') (h : Alone n s' s'') :
      Alone (n + 1) s s''

/-! ### Lemmas -/

theorem loop_works (ts : List Try) (i : Nat) (s : Sock) (hf : s.fd = none)
    (hi : ∀ j ∈ s.opened, j < i) :
    (∀ t ∈ ts, t ≠ .works) ∧ s.loop i ts = s ∨
    ∃ a b, ts = a ++ .works :: b ∧ (∀ t ∈ a, t ≠ .works) ∧
      s.loop i ts =
        ⟨some (i + a.length), (i + a.length) :: s.opened, (i + a.length) :: s.listening⟩ := by
  induction ts generalizing i with
  | nil => exact .inl ⟨by simp, rfl⟩
  | cons t ts ih =>
    have hfil : s.opened.filter (fun x => !decide (x = i)) = s.opened := by
      rw [List.filter_eq_self]
      intro j hj
      have := hi j hj
      simp only [Bool.not_eq_true', decide_eq_false_iff_not]
      omega
    have hs : ({ fd := none, opened := s.opened, listening := s.listening } : Sock) = s := by
      rw [← hf]
    have next : t ≠ .works → s.loop i (t :: ts) = s.loop (i + 1) ts := by
      intro ht
      cases t with
      | works => exact absurd rfl ht
      | noSocket => simp [Sock.loop, Sock.create, hs, hf]
      | noOption => simp [Sock.loop, Sock.create, Sock.drop, hfil, hs]
      | noBind => simp [Sock.loop, Sock.create, Sock.drop, hfil, hs]
      | noListen => simp [Sock.loop, Sock.create, Sock.drop, hfil, hs]
    by_cases ht : t = .works
    · right
      refine ⟨[], ts, by simp [ht], by simp, ?_⟩
      subst ht
      simp [Sock.loop, Sock.create]
    · rcases ih (i + 1) (fun j hj => Nat.lt_succ_of_lt (hi j hj)) with ⟨h1, h2⟩ | ⟨a, b, h1, h2, h3⟩
      · left
        refine ⟨?_, by rw [next ht, h2]⟩
        intro x hx
        rcases List.mem_cons.mp hx with hx | hx
        · rw [hx]; exact ht
        · exact h1 x hx
      · right
        refine ⟨t :: a, b, by rw [h1]; rfl, ?_, ?_⟩
        · intro x hx
          rcases List.mem_cons.mp hx with hx | hx
          · rw [hx]; exact ht
          · exact h2 x hx
        · rw [next ht, h3]
          have : i + 1 + a.length = i + (t :: a).length := by simp only [List.length_cons]; omega
          rw [this]

/-- The invariant of runs. -/
structure Ok (s : St C) : Prop where
  stop : s.running = false → s.pipe = 0 → s.pc = .top ∨ ∃ r, s.pc = .done r
  opened : s.opened = s.running
  ended : s.pc = .done true → s.running = false

theorem Run.ok {bad : Bool} {l : List C} {s : St C} (h : Run bad l s) : Ok s := by
  induction h with
  | init => exact ⟨by simp, rfl, by simp⟩
  | arrive h c ih => exact ⟨ih.stop, ih.opened, ih.ended⟩
  | close h ih => exact ⟨by simp [St.close], rfl, fun _ => rfl⟩
  | @pump l s s' y h hy hs ih =>
    obtain ⟨i1, i2, i3⟩ := ih
    unfold St.pump at hs
    split at hs
    · split at hs
      · next hr =>
        simp only [Option.some.injEq] at hs
        subst hs
        exact ⟨fun h => by simp [hr] at h, i2, by simp⟩
      · next hr =>
        simp only [Option.some.injEq] at hs
        subst hs
        exact ⟨fun _ _ => .inr ⟨_, rfl⟩, i2, fun _ => by simpa using hr⟩
    · next hpc =>
      have i1' : s.running = false → s.pipe = 0 → False := by
        intro h1 h2
        rcases i1 h1 h2 with h3 | ⟨r, h3⟩ <;> rw [hpc] at h3 <;> simp at h3
      split at hs
      · simp only [Option.some.injEq] at hs
        subst hs
        exact ⟨fun h1 h2 => (i1' h1 h2).elim, i2, by simp⟩
      · split at hs
        · simp only [Option.some.injEq] at hs
          subst hs
          exact ⟨fun h1 h2 => (i1' h1 h2).elim, i2, by simp⟩
        · split at hs
          · simp only [Option.some.injEq] at hs
            subst hs
            exact ⟨fun h1 h2 => (i1' h1 h2).elim, i2, by simp⟩
          · simp at hs
    · split at hs
      · simp only [Option.some.injEq] at hs
        subst hs
        exact ⟨fun _ _ => .inl rfl, i2, by simp [St.unblocked]⟩
      · simp at hs
    · split at hs
      · simp only [Option.some.injEq] at hs
        subst hs
        exact ⟨fun _ _ => .inr ⟨_, rfl⟩, i2, by simp⟩
      · split at hs
        · simp at hs
        · simp only [Option.some.injEq] at hs
          subst hs
          exact ⟨fun _ _ => .inl rfl, i2, by simp⟩
    · simp at hs

theorem Run.order {bad : Bool} {l : List C} {s : St C} (h : Run bad l s) :
    s.added ++ s.backlog = l := by
  induction h with
  | init => rfl
  | arrive h c ih =>
    simp only
    rw [← List.append_assoc, ih]
  | close h ih => exact ih
  | @pump l s s' y h hy hs ih =>
    unfold St.pump at hs
    split at hs
    · split at hs <;> (simp only [Option.some.injEq] at hs; subst hs; exact ih)
    · split at hs
      · simp only [Option.some.injEq] at hs; subst hs; exact ih
      · split at hs
        · simp only [Option.some.injEq] at hs; subst hs; exact ih
        · split at hs
          · simp only [Option.some.injEq] at hs; subst hs; exact ih
          · simp at hs
    · split at hs
      · simp only [Option.some.injEq] at hs; subst hs; exact ih
      · simp at hs
    · split at hs
      · simp only [Option.some.injEq] at hs; subst hs; exact ih
      · split at hs
        · simp at hs
        · next c l' hb =>
          simp only [Option.some.injEq] at hs
          subst hs
          rw [← ih, hb]
          simp
    · simp at hs

/-- Without faults and before `close` the thread is on its way to the next connection. -/
structure Ready (s : St C) : Prop where
  quiet : s.pipe = 0
  place : s.pc = .top ∨ s.pc = .select ∨ (s.pc = .accept ∧ s.backlog ≠ [])

theorem Run.ready {l : List C} {s : St C} (h : Run false l s) (hr : s.running = true) :
    Ready s := by
  induction h with
  | init => exact ⟨rfl, .inl rfl⟩
  | arrive h c ih =>
    obtain ⟨i1, i2⟩ := ih hr
    refine ⟨i1, ?_⟩
    rcases i2 with h | h | ⟨h, -⟩
    · exact .inl h
    · exact .inr (.inl h)
    · exact .inr (.inr ⟨h, by simp⟩)
  | close h ih => simp [St.close] at hr
  | @pump l s s' y h hy hs ih =>
    have hy' : y = .fine := by simpa using hy
    subst hy'
    have hok := h.ok
    have hrs : s.running = true := by
      unfold St.pump at hs
      split at hs
      · split at hs <;> (simp only [Option.some.injEq] at hs; subst hs; exact hr)
      · split at hs
        · simp only [Option.some.injEq] at hs; subst hs; exact hr
        · split at hs
          · simp only [Option.some.injEq] at hs; subst hs; exact hr
          · split at hs
            · simp only [Option.some.injEq] at hs; subst hs; exact hr
            · simp at hs
      · split at hs
        · simp only [Option.some.injEq] at hs; subst hs; exact hr
        · simp at hs
      · split at hs
        · simp only [Option.some.injEq] at hs; subst hs; exact hr
        · split at hs
          · simp at hs
          · simp only [Option.some.injEq] at hs; subst hs; exact hr
      · simp at hs
    have hop : s.opened = true := by rw [hok.opened, hrs]
    obtain ⟨i1, i2⟩ := ih hrs
    rcases i2 with hp | hp | ⟨hp, hb⟩
    · simp only [St.pump, hp, hrs, if_true, Option.some.injEq] at hs
      subst hs
      exact ⟨i1, .inr (.inl rfl)⟩
    · by_cases hb : s.backlog = []
      · simp [St.pump, hp, hop, i1, hb] at hs
      · simp [St.pump, hp, hop, i1, hb] at hs
        subst hs
        exact ⟨by first | exact i1 | rfl, .inr (.inr ⟨rfl, hb⟩)⟩
    · cases hbb : s.backlog with
      | nil => exact absurd hbb hb
      | cons c l' =>
        simp [St.pump, hp, hop, hbb] at hs
        subst hs
        exact ⟨i1, .inl rfl⟩

/-! ### The property -/

/-- **C142.** `listen` returns true exactly if one of the addresses can be used; then the listener
listens at the first that can, and no other descriptor is left open. -/
theorem C142_listen (ts : List Try) :
    ((open' (some ts)).2 = true ↔ .works ∈ ts) ∧
    ((open' (some ts)).2 = false → (open' (some ts)).1 = {}) ∧
    ∀ a b, ts = a ++ .works :: b → (∀ t ∈ a, t ≠ .works) →
      (open' (some ts)).1 = ⟨some a.length, [a.length], [a.length]⟩ := by
  rcases loop_works ts 0 {} rfl (by simp) with ⟨h1, h2⟩ | ⟨a, b, h1, h2, h3⟩
  · refine ⟨?_, ?_, ?_⟩
    · simp only [open', h2]
      constructor
      · simp
      · intro h; exact absurd rfl (h1 _ h)
    · simp [open', h2]
    · intro a b h; exact absurd rfl (h1 .works (by rw [h]; simp))
  · refine ⟨?_, ?_, ?_⟩
    · simp only [open', h3]
      simp [h1]
    · simp [open', h3]
    · intro a' b' h1' h2'
      have hlen : a.length = a'.length := by
        have key : ∀ (x y x' y' : List Try), x ++ .works :: y = x' ++ .works :: y' →
            (∀ t ∈ x, t ≠ .works) → (∀ t ∈ x', t ≠ .works) → x.length = x'.length := by
          intro x
          induction x with
          | nil =>
            intro y x' y' he _ hx'
            cases x' with
            | nil => rfl
            | cons c x' =>
              simp only [List.nil_append, List.cons_append, List.cons.injEq] at he
              exact absurd he.1.symm (hx' c List.mem_cons_self)
          | cons c x ih =>
            intro y x' y' he hx hx'
            cases x' with
            | nil =>
              simp only [List.nil_append, List.cons_append, List.cons.injEq] at he
              exact absurd he.1 (hx c List.mem_cons_self)
            | cons c' x' =>
              simp only [List.cons_append, List.cons.injEq] at he
              have := ih y x' y' he.2 (fun t ht => hx t (List.mem_cons_of_mem _ ht))
                (fun t ht => hx' t (List.mem_cons_of_mem _ ht))
              simp [this]
        exact key a b a' b' (by rw [← h1, h1']) h2 h2'
      simp only [open', h3, hlen, Nat.zero_add]

/-- **C142.** Connections are handed on in the order in which they arrived, each once, also when system
calls fail. -/
theorem C142_order {bad : Bool} {l : List C} {s : St C} (h : Run bad l s) :
    ∃ rest, l = s.added ++ rest := ⟨_, h.order.symm⟩

/-- **C142.** Before `close` a connection that has arrived is accepted after at most three steps per
connection before it. What is missing: no system call fails, see `C142_accept_violated` and
`C142_interrupted_violated`. -/
theorem C142_accepted_partial {l : List C} {s : St C} (h : Run false l s) (hr : s.running = true)
    {c : C} {rest : List C} (hb : s.backlog = c :: rest) :
    ∃ n s', n ≤ 3 ∧ Alone n s s' ∧ s'.added = s.added ++ [c] ∧ s'.backlog = rest := by
  have hop : s.opened = true := by rw [h.ok.opened, hr]
  obtain ⟨i1, i2⟩ := h.ready hr
  have acc : ∀ x : St C, x.pc = .accept → x.opened = true → x.backlog = c :: rest →
      x.pump .fine = some { x with backlog := rest, added := x.added ++ [c], pc := .top } := by
    intro x h1 h2 h3
    simp [St.pump, h1, h2, h3]
  have sel : ∀ x : St C, x.pc = .select → x.opened = true → x.pipe = 0 → x.backlog = c :: rest →
      x.pump .fine = some { x with pc := .accept } := by
    intro x h1 h2 h3 h4
    simp [St.pump, h1, h2, h3, h4]
  rcases i2 with hp | hp | ⟨hp, -⟩
  · have e1 : s.pump .fine = some { s with pc := .select } := by simp [St.pump, hp, hr]
    exact ⟨3, _, Nat.le_refl _, .step e1 (.step (sel _ rfl hop i1 hb)
      (.step (acc _ rfl hop hb) (.refl _))), rfl, rfl⟩
  · exact ⟨2, _, by omega, .step (sel _ hp hop i1 hb) (.step (acc _ rfl hop hb) (.refl _)), rfl, rfl⟩
  · exact ⟨1, _, by omega, .step (acc _ hp hop hb) (.refl _), rfl, rfl⟩

/-- **C142.** After `close` the thread ends in at most three steps, whatever failed before. -/
theorem C142_close {bad : Bool} {l : List C} {s : St C} (h : Run bad l s)
    (hr : s.running = false) : ∃ n s' r, n ≤ 3 ∧ Alone n s s' ∧ s'.pc = .done r := by
  have hop : s.opened = false := by rw [h.ok.opened, hr]
  have top : ∀ x : St C, x.pc = .top → x.running = false →
      x.pump .fine = some { x with pc := .done true } := by
    intro x h1 h2
    simp [St.pump, h1, h2]
  have rd : ∀ x : St C, x.pc = .read → 0 < x.pipe → x.pump .fine = some x.unblocked := by
    intro x h1 h2
    simp [St.pump, h1, h2]
  have hpos : s.pc ≠ .top → (∀ r, s.pc ≠ .done r) → 0 < s.pipe := by
    intro h1 h2
    apply Nat.pos_of_ne_zero
    intro h0
    rcases h.ok.stop hr h0 with h3 | ⟨r, h3⟩
    · exact h1 h3
    · exact h2 r h3
  cases hp : s.pc with
  | top => exact ⟨1, _, true, by omega, .step (top s hp hr) (.refl _), rfl⟩
  | select =>
    have e1 : s.pump .fine = some { s with pc := .read } := by simp [St.pump, hp, hop]
    have h0 := hpos (by simp [hp]) (by simp [hp])
    exact ⟨3, _, true, Nat.le_refl _, .step e1 (.step (rd _ rfl h0)
      (.step (top _ rfl hr) (.refl _))), rfl⟩
  | read =>
    have h0 := hpos (by simp [hp]) (by simp [hp])
    exact ⟨2, _, true, by omega, .step (rd s hp h0) (.step (top _ rfl hr) (.refl _)), rfl⟩
  | accept =>
    have e1 : s.pump .fine = some { s with pc := .done false } := by simp [St.pump, hp, hop]
    exact ⟨1, _, false, by omega, .step e1 (.refl _), rfl⟩
  | done r => exact ⟨0, s, r, by omega, .refl _, hp⟩

/-- **C142**, not met: one `accept` that fails ends the thread; it takes no step any more, so no
connection is accepted. -/
theorem C142_accept_violated {s : St C} (hp : s.pc = .accept) :
    ∃ s', s.pump .fault = some s' ∧ s'.running = s.running ∧
      ∀ c y, { s' with backlog := s'.backlog ++ c }.pump y = none := by
  refine ⟨{ s with pc := .done false }, by simp [St.pump, hp], rfl, ?_⟩
  intro c y
  simp [St.pump]

/-- **C142**, not met: after a `select` that was interrupted the thread waits for the pipe and accepts
no connection until `close` is called. -/
theorem C142_interrupted_violated {s : St C} (hp : s.pc = .select) (h0 : s.pipe = 0) :
    ∃ s', s.pump .fault = some s' ∧ s'.running = s.running ∧
      ∀ c y, { s' with backlog := s'.backlog ++ c }.pump y = none := by
  refine ⟨{ s with pc := .read }, by simp [St.pump, hp], rfl, ?_⟩
  intro c y
  simp [St.pump, h0]

/-! ### Concrete cases -/

/-- The third of four addresses is used. -/
example : open' (some [.noBind, .noOption, .works, .works]) = (⟨some 2, [2], [2]⟩, true) := by decide

/-- Two connections arrive, one is accepted. -/
theorem one_accepted : ∃ s : St Nat, Run false [7, 8] s ∧ s.running = true ∧ s.added = [7] ∧
    s.backlog = [8] :=
  ⟨_, .arrive (.pump (.pump (.pump (.arrive .init 7) (.inr rfl) (s' := { backlog := [7], pc := .select })
    rfl) (.inr rfl) (s' := { backlog := [7], pc := .accept }) (by decide)) (.inr rfl)
    (s' := { added := [7] }) (by decide)) 8, rfl, rfl, rfl⟩

/-- The second is accepted as well. -/
example : ∃ s s' : St Nat, ∃ n, Run false [7, 8] s ∧ Alone n s s' ∧ s'.added = [7, 8] := by
  obtain ⟨s, h1, h2, h3, h4⟩ := one_accepted
  obtain ⟨n, s', -, h5, h6, -⟩ := C142_accepted_partial h1 h2 h4
  exact ⟨s, s', n, h1, h5, by rw [h6, h3]; rfl⟩

/-- A listener in `select` is interrupted, and closed later. -/
example : ∃ s : St Nat, Run true [] s ∧ s.running = false ∧ s.pc = .read :=
  ⟨_, .close (.pump (.pump .init (.inl rfl) (y := .fine) (s' := { pc := .select }) rfl) (.inl rfl)
    (y := .fault) (s' := { pc := .read }) rfl), rfl, rfl⟩

end Verif.Net.Listen
