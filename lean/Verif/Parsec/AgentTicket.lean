import Verif.Parsec.ServerAgent

/-!
# An agent keeps its ticket number (C138)

All that an agent asks of the broker, in all attempts of its transaction, is for one ticket: a
transaction that was told to start again does not become younger.
-/
namespace Verif.Parsec.Agent

/-- The agent has not been given a ticket yet, or asks for one. -/
def early (s : State) : Prop := s = .init ∨ s = .beginSent ∨ s = .beginFailed

theorem Starting.ticket {a : Agent} {t n : Nat} {e : Event} (h : Starting a t e)
    (hn : a.ticket = some n) (he : ¬ early a.state) : t = n := by
  rcases h with ⟨h, -⟩ | ⟨-, -, h⟩
  · exact absurd (.inr (.inl h)) he
  · rw [hn] at h
    exact (Option.some.inj h).symm

theorem ticket_step {cfg : Config} {p : Can} {a : Agent} (rest : Rest a)
    (hn : a.ticket ≠ none → ¬ early a.state) (e : Event) :
    (∀ n, a.ticket = some n → (step cfg p a e).1.ticket = some n) ∧
    ((step cfg p a e).1.ticket ≠ none → ¬ early (step cfg p a e).1.state) := by
  have hk : ∀ n, a.ticket = some n → ¬ early a.state := fun n h => hn (by simp [h])
  have same : ∀ {t : Nat} {b : Option Nat}, a.ticket = some t → b = some t →
      ∀ n, a.ticket = some n → b = some n := by
    intro t b h1 h2 n h3
    rw [h2, ← h1, h3]
  cases outcome (cfg := cfg) (p := p) rest e with
  | idle _ hs ht _ _ =>
    rw [hs, ht]
    exact ⟨fun _ h => h, hn⟩
  | begun _ hb hs _ hkk _ =>
    have h0 : a.ticket = none := by
      cases h : a.ticket with
      | none => rfl
      | some n => exact absurd hb (hk n h)
    rw [hkk.2, h0]
    exact ⟨fun _ h => h, fun h => absurd rfl h⟩
  | beginFailed hb hs _ hkk _ _ _ =>
    have h0 : a.ticket = none := by
      cases h : a.ticket with
      | none => rfl
      | some n =>
        rcases hb with hb | hb
        · exact absurd hb.2 (hk n h)
        · exact absurd (.inr (.inl hb.2)) (hk n h)
    rw [hkk.2, h0]
    exact ⟨fun _ h => h, fun h => absurd rfl h⟩
  | get t h hs ht _ _ _ _ =>
    refine ⟨fun n h2 => ?_, fun _ => by rw [hs]; simp [early]⟩
    rw [ht, h.ticket h2 (hk n h2)]
  | run t h hs ht _ =>
    refine ⟨fun n h2 => ?_, fun _ => by rw [hs]; simp [early]⟩
    rcases h with h | ⟨-, h, -⟩
    · rw [ht, h.ticket h2 (hk n h2)]
    · exact same h ht n h2
  | fall t h hf =>
    have hft : (step cfg p a e).1.ticket = some t ∧ ¬ early (step cfg p a e).1.state := by
      cases hf with
      | sent _ hs ht => exact ⟨ht, by rw [hs]; simp [early]⟩
      | stuck _ hs ht => exact ⟨ht, by rw [hs]; simp [early]⟩
    refine ⟨fun n h2 => ?_, fun _ => hft.2⟩
    rcases h with h | ⟨h, -⟩
    · rw [hft.1, h.ticket h2 (hk n h2)]
    · exact same h hft.1 n h2
  | commit t u ha _ hs ht _ _ => exact ⟨same ha ht, fun _ => by rw [hs]; simp [early]⟩
  | finish t ha _ hs ht _ _ => exact ⟨same ha ht, fun _ => by rw [hs]; simp [early]⟩
  | finishFailed t ha _ hs ht _ _ _ _ => exact ⟨same ha ht, fun _ => by rw [hs]; simp [early]⟩
  | complete t r ha _ hs ht _ _ _ => exact ⟨same ha ht, fun _ => by rw [hs]; simp [early]⟩
  | rollbackFailed t ha _ hs ht _ _ => exact ⟨same ha ht, fun _ => by rw [hs]; simp [early]⟩
  | retry t ha _ hs ht _ _ => exact ⟨same ha ht, fun _ => by rw [hs]; simp [early]⟩
  | crash _ hm =>
    rw [hm]
    exact ⟨fun _ h => h, hn⟩

theorem Run.oneTicket {cfg : Config} {h : Trace} {a : Agent} (r : Run cfg h a) :
    (a.ticket ≠ none → ¬ early a.state) ∧
    ∀ x ∈ h, ∀ o ∈ x.2, ∀ n, outTicket o = some n → a.ticket = some n := by
  induction r with
  | start => exact ⟨fun h => absurd rfl h, fun x hx => by simp at hx⟩
  | @step h a r alive p e ih =>
    obtain ⟨h1, h2⟩ := ticket_step (cfg := cfg) (p := p) (r.rest alive) ih.1 e
    refine ⟨h2, fun x hx o ho n hn => ?_⟩
    rcases List.mem_cons.mp hx with hx | hx
    · subst hx
      exact (fits_step cfg p a e).2 o ho n hn
    · exact h1 n (ih.2 x hx o ho n hn)

/-- **C138.** In every life of an agent, whatever fails and however often its transaction is started
again, all its calls of the broker (locks, commits, rollbacks, finishes) are for one ticket. -/
theorem C138_one_ticket {cfg : Config} {h : Trace} {a : Agent} (r : Run cfg h a)
    {x y : Event × List Out} {o o' : Out} {n m : Nat} (hx : x ∈ h) (hy : y ∈ h) (ho : o ∈ x.2)
    (ho' : o' ∈ y.2) (hn : outTicket o = some n) (hm : outTicket o' = some m) : n = m := by
  have h1 := r.oneTicket.2 x hx o ho n hn
  rw [r.oneTicket.2 y hy o' ho' m hm] at h1
  exact (Option.some.inj h1).symm

/-- An agent is given ticket 7, is told to start again while it gets its function, rolls back and asks
for the function once more. -/
example : ∃ (h : Trace) (a : Agent), Run ⟨3, 2, false, false⟩ h a ∧
    h.map (·.2) = [[.lock .function 7 3 false], [.result (.error .retry)], [.rollback 7],
      [.lock .function 7 3 false], [.begin]] := by
  refine ⟨_, _, .step (.step (.step (.step (.step .start ?_ {} .exec) ?_ {} (.begun (some 7))) ?_ {}
    (.locked .function .wounded)) ?_ {} (.rolledBack true)) ?_ {} .exec, rfl⟩ <;>
  (intro s hs; revert s hs; decide)

end Verif.Parsec.Agent
