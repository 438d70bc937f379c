import Verif.Evm.HostFailure
/-!
# Executing Ethereum transactions: dry runs, locks, new contracts, crashes (C79-C81, C83)
-/
namespace Verif.Evm

open Verif.Serial

/-! ### Dry runs -/

/-- Nothing is locked or cached for writing. -/
structure ReadOnly (h : Host) : Prop where
  readonly : h.readonly = true
  accounts : ∀ a e, h.accounts a = some e → e.2 = false
  storage : ∀ a k e, h.storage a k = some e → e.2 = false
  code : ∀ a e, h.code a = some e → e.2 = false
  init : ∀ a, h.init a = none
  lockedAccounts : h.lockedAccounts = []
  lockedStorage : h.lockedStorage = []
  lockedCode : h.lockedCode = []

theorem put_cases {α β : Type} [DecidableEq α] {f : α → β} {a x : α} {b c : β}
    (h : put f a b x = c) : (x = a ∧ b = c) ∨ f x = c := by
  unfold put at h
  split at h
  · exact .inl ⟨‹_›, h⟩
  · exact .inr h

theorem readOnly_simple (env : Env) : Simple env ReadOnly where
  getAccount h a w hw hP := by
    have hw : w = false := by
      cases w with
      | false => rfl
      | true => have := hw rfl; rw [hP.readonly] at this; cases this
    subst hw
    have hg := got env h a false
    generalize h.getAccount env a false = r at *
    cases hg with
    | pre => exact hP
    | hit => exact hP
    | fail => exact ⟨hP.1, hP.2, hP.3, hP.4, hP.5, hP.6, hP.7, hP.8⟩
    | fetch hp he =>
      exact ⟨hP.1, fun x e hx => (put_cases hx).elim (fun h => by cases h.2; rfl) (hP.2 x e), hP.3, hP.4,
        hP.5, hP.6, hP.7, hP.8⟩
  getStorage h a k w hw hP := by
    have hw : w = false := by
      cases w with
      | false => rfl
      | true => have := hw rfl; rw [hP.readonly] at this; cases this
    subst hw
    unfold Host.getAccountStorage
    have hfetch : ReadOnly (if env.fails h.requests then
          ((none : Option Word), { h with retry := true, requests := h.requests + 1 })
        else (env.world.storage a k, { h with
          storage := put h.storage a (put (h.storage a) k (some (env.world.storage a k, false)))
          lockedStorage := if false = true then (a, k) :: h.lockedStorage else h.lockedStorage
          requests := h.requests + 1 })).2 := by
      split
      · exact ⟨hP.1, hP.2, hP.3, hP.4, hP.5, hP.6, hP.7, hP.8⟩
      · refine ⟨hP.1, hP.2, fun x j e hx => ?_, hP.4, hP.5, hP.6, hP.7, hP.8⟩
        have hx : put h.storage a (put (h.storage a) k (some (env.world.storage a k, false))) x j = some e := hx
        by_cases hxa : x = a
        · subst hxa
          rw [put_same] at hx
          exact (put_cases hx).elim (fun h => by cases h.2; rfl) (hP.3 x j e)
        · rw [put_other _ _ hxa] at hx
          exact hP.3 x j e hx
    split
    · exact hP
    · dsimp only
      cases h.storage a k with
      | none => exact hfetch
      | some e =>
        simp only [Bool.not_false, Bool.or_true, if_true]
        exact hP
  getCode h a w hw hP := by
    have hw : w = false := by
      cases w with
      | false => rfl
      | true => have := hw rfl; rw [hP.readonly] at this; cases this
    subst hw
    unfold Host.getAccountCode
    have hfetch : ReadOnly (if env.fails h.requests then
          ((none : Option Bytes), { h with retry := true, requests := h.requests + 1 })
        else (env.world.code a, { h with
          code := put h.code a (some (env.world.code a, false))
          lockedCode := if false = true then a :: h.lockedCode else h.lockedCode
          requests := h.requests + 1 })).2 := by
      split
      · exact ⟨hP.1, hP.2, hP.3, hP.4, hP.5, hP.6, hP.7, hP.8⟩
      · exact ⟨hP.1, hP.2, hP.3, fun x e hx => (put_cases hx).elim (fun h => by cases h.2; rfl) (hP.4 x e),
          hP.5, hP.6, hP.7, hP.8⟩
    split
    · exact hP
    · dsimp only
      cases h.code a with
      | none => exact hfetch
      | some e =>
        simp only [Bool.not_false, Bool.or_true, if_true]
        exact hP
  cache h a acc w hw hP := by
    have hw : w = false := by
      cases w with
      | false => rfl
      | true =>
        rcases hw rfl with h0 | ⟨e, he⟩
        · rw [hP.readonly] at h0; cases h0
        · exact absurd (hP.accounts a _ he) (by simp)
    subst hw
    exact ⟨hP.1, fun x e hx => (put_cases hx).elim (fun h => by cases h.2; rfl) (hP.2 x e), hP.3, hP.4,
      hP.5, hP.6, hP.7, hP.8⟩
  setStorage h a k v hP := by
    refine ⟨hP.1, hP.2, fun x j e hx => ?_, hP.4, hP.5, hP.6, hP.7, hP.8⟩
    have hx : put h.storage a (put (h.storage a) k (some (some v, !h.readonly))) x j = some e := hx
    by_cases hxa : x = a
    · subst hxa
      rw [put_same] at hx
      exact (put_cases hx).elim (fun h' => by cases h'.2; simp [hP.readonly]) (hP.3 x j e)
    · rw [put_other _ _ hxa] at hx
      exact hP.3 x j e hx
  setCode h a out hP :=
    ⟨hP.1, hP.2, hP.3, fun x e hx => (put_cases hx).elim (fun h' => by cases h'.2; simp [hP.readonly]) (hP.4 x e),
      hP.5, hP.6, hP.7, hP.8⟩
  crash h hP := ⟨hP.1, hP.2, hP.3, hP.4, hP.5, hP.6, hP.7, hP.8⟩
  receipt h l s hP := ⟨hP.1, hP.2, hP.3, hP.4, hP.5, hP.6, hP.7, hP.8⟩

/-- **C79.** A dry run changes no account, no code and no storage and takes no lock for
writing, whatever the code does. -/
theorem C79_no_trace (env : Env) (sender : Address) (tx : EvmTx) (vm : Vm) (u : Updates)
    (h : dryRun env sender tx vm = .updates u) :
    env.world.apply u = env.world ∧ u.lockedAccounts = [] ∧ u.lockedStorage = [] ∧ u.lockedCode = [] := by
  obtain ⟨h1, h2, _, _, _, hh1, hh2, _, hu⟩ := exec_updates h
  have h0 : ReadOnly (Host.new true) :=
    ⟨rfl, fun _ _ h => absurd h (by simp [Host.new]), fun _ _ _ h => absurd h (by simp [Host.new]),
      fun _ _ h => absurd h (by simp [Host.new]), fun _ => rfl, rfl, rfl, rfl⟩
  have hr := ((readOnly_simple env).closed (M := False) (D := fun _ => True)).run
    (fun h _ _ _ hP => ⟨hP.1, hP.2, hP.3, hP.4, hP.5, hP.6, hP.7, hP.8⟩) (Host.new true) (makeMsg sender tx true) vm
    (fun _ _ => trivial) h0 (fun _ hM => hM.elim)
  have hP : ReadOnly h1 := by
    rw [hh1]
    split
    · exact ⟨hr.1, fun a e he => absurd he (by rw [show (Host.revert _).accounts a = none from hr.init a]; simp),
        hr.3, hr.4, hr.5, hr.6, hr.7, hr.8⟩
    · exact hr
  have he : h2 = h1 := by
    rw [hh2]
    unfold Host.finalize
    rw [if_pos hP.readonly]
  rw [he] at hu
  subst hu
  refine ⟨?_, hP.lockedAccounts, hP.lockedStorage, hP.lockedCode⟩
  have ha : ∀ a, (h1.updates tx ((makeMsg sender tx true).gas -
      ((Host.new true).run env (makeMsg sender tx true) vm).2.2)).accounts a = none := by
    intro a
    rw [updates_written]
    unfold Host.written
    rcases hx : h1.accounts a with _ | ⟨_ | acc, _ | _⟩ <;> first | rfl | skip
    exact absurd (hP.accounts a _ hx) (by simp)
  have hc : ∀ a, (h1.updates tx ((makeMsg sender tx true).gas -
      ((Host.new true).run env (makeMsg sender tx true) vm).2.2)).code a = none := by
    intro a
    unfold Host.updates
    dsimp only
    rcases hx : h1.code a with _ | ⟨_ | c, _ | _⟩ <;> first | rfl | skip
    exact absurd (hP.code a _ hx) (by simp)
  have hs : ∀ a k, (h1.updates tx ((makeMsg sender tx true).gas -
      ((Host.new true).run env (makeMsg sender tx true) vm).2.2)).storage a k = none := by
    intro a k
    unfold Host.updates
    dsimp only
    rcases hx : h1.storage a k with _ | ⟨_ | c, _ | _⟩ <;> first | rfl | skip
    exact absurd (hP.storage a k _ hx) (by simp)
  unfold World.apply
  congr 1
  · funext a; rw [ha]; rfl
  · funext a k; rw [hs]
  · funext a; rw [hc]

/-- A dry run which pays, writes to storage and creates a contract. -/
example : ∃ u, dryRun (sampleEnv (num 100000)) (addr 1)
      (sampleTx (some (addr 2)) (num 100) (num 0) (num 0))
      { ops := [.setStorage (addr 2) (num 1) (num 5), .create none (addr 2) (num 3) [] true [0x60]],
        status := .success, gasLeft := 400, output := [1] } = .updates u ∧
    (u.receipt.output, u.receipt.success) = ([1], true) :=
  updates_of (f := fun u => (u.receipt.output, u.receipt.success)) (by decide +kernel)

end Verif.Evm
