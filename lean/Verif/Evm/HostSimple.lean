import Verif.Evm.HostClosed
/-! Helper lemmas for the host of the virtual machine: simple invariants and whole runs. -/
namespace Verif.Evm

open Verif.Serial

variable {env : Env} {M : Prop} {D : Address → Prop} {P : Host → Prop}

theorem getAccount_readonly (env : Env) (h : Host) (a : Address) (w : Bool) :
    (h.getAccount env a w).2.readonly = h.readonly := by
  have := got env h a w
  generalize h.getAccount env a w = r at *
  cases this <;> rfl

theorem cache_readonly (h : Host) (a : Address) (acc : Account) (w : Bool) :
    (h.cache a acc w).readonly = h.readonly := rfl

/-- Properties which single accesses preserve. -/
structure Simple (env : Env) (P : Host → Prop) : Prop where
  getAccount : ∀ h a w, (w = true → h.readonly = false) → P h → P (h.getAccount env a w).2
  getStorage : ∀ h a k w, (w = true → h.readonly = false) → P h → P (h.getAccountStorage env a k w).2
  getCode : ∀ h a w, (w = true → h.readonly = false) → P h → P (h.getAccountCode env a w).2
  cache : ∀ h a acc w, (w = true → h.readonly = false ∨ ∃ e, h.accounts a = some (e, true)) → P h →
    P (h.cache a acc w)
  setStorage : ∀ h a k v, P h →
    P { h with storage := put h.storage a (put (h.storage a) k (some (some v, !h.readonly))) }
  setCode : ∀ h a out, P h → P { h with code := put h.code a (some (some out, !h.readonly)) }
  crash : ∀ h, P h → P { h with crashed := true }
  receipt : ∀ h l s, P h → P { h with logs := l, success := s }

theorem Simple.transfer (c : Simple env P) (h : Host) (s d : Address) (v : Word) (hP : P h) :
    P (h.transfer env s d v) := by
  unfold Host.transfer
  have hw : (!h.readonly) = true → h.readonly = false := by simp
  have hr := c.getAccount h s _ hw hP
  have hro := getAccount_readonly env h s (!h.readonly)
  generalize h.getAccount env s (!h.readonly) = r at *
  simp only
  cases h1 : r.1 with
  | none => exact c.crash _ hr
  | some acc =>
    simp only
    generalize (if v = Word.zero then acc.balance else v) = val
    have h2 := c.cache r.2 s (acc.debit val (decide (v = .zero))) (!h.readonly)
      (fun h0 => .inl (hro.trans (hw h0))) hr
    have hro2 := (cache_readonly r.2 s (acc.debit val (decide (v = .zero))) (!h.readonly)).trans hro
    generalize r.2.cache s (acc.debit val (decide (v = .zero))) (!h.readonly) = h1 at *
    have h3 := c.getAccount h1 d (!h.readonly) (fun h0 => hro2.trans (hw h0)) h2
    have hro3 := getAccount_readonly env h1 d (!h.readonly)
    exact c.cache _ _ _ _ (fun h0 => .inl ((hro3.trans hro2).trans (hw h0))) h3

theorem Simple.setStorage' (c : Simple env P) (h : Host) (a : Address) (k v : Word) (hP : P h) :
    P (h.setStorage env a k v) := by
  unfold Host.setStorage
  have hacc : P (h.storageAccount env a k).2.1 := by
    unfold Host.storageAccount
    have hr := c.getAccount h a false (fun h0 => absurd h0 (by simp)) hP
    generalize h.getAccount env a false = r at *
    cases h1 : r.1 with
    | some acc => simpa [h1] using hr
    | none =>
      simp only [h1]
      have h2 : P (if r.2.readonly = true then r.2 else (r.2.getAccount env a true).2) := by
        split
        · exact hr
        · rename_i hro
          exact c.getAccount _ _ _ (fun _ => by simpa using hro) hr
      exact c.cache _ _ _ _ (fun h0 => .inl (by simpa using h0)) h2
  generalize h.storageAccount env a k = r at *
  obtain ⟨acc, h1, added⟩ := r
  simp only at *
  have hs := c.getStorage h1 a k (!h1.readonly) (by simp) hacc
  generalize h1.getAccountStorage env a k (!h1.readonly) = r2 at *
  generalize (if (added || decide (r2.1.getD Word.zero = v) || acc.modified.contains k || decide (v = Word.zero)) = true
    then acc else { acc with modified := k :: acc.modified }) = acc'
  have := c.cache r2.2 a acc' (((r2.2.accounts a).map (·.2)).getD false) (fun h0 => by
    refine .inr ?_
    cases he : r2.2.accounts a with
    | none => simp [he] at h0
    | some e => simp [he] at h0; exact ⟨e.1, by rw [← h0]⟩) hs
  exact c.setStorage (r2.2.cache a acc' (((r2.2.accounts a).map (·.2)).getD false)) a k v this

theorem Simple.deploy (c : Simple env P) (h : Host) (a : Address) (out : Bytes) (hP : P h) :
    P (h.deploy env a out) := by
  unfold Host.deploy
  have hw : (!h.readonly) = true → h.readonly = false := by simp
  have hr := c.getAccount h a _ hw hP
  have hro := getAccount_readonly env h a (!h.readonly)
  generalize h.getAccount env a (!h.readonly) = r at *
  simp only
  have h2 := c.cache r.2 a (r.1.getD .new) (!h.readonly) (fun h0 => .inl (hro.trans (hw h0))) hr
  have hro2 := (cache_readonly r.2 a (r.1.getD .new) (!h.readonly)).trans hro
  generalize r.2.cache a (r.1.getD .new) (!h.readonly) = h1 at *
  have h3 := c.getCode h1 a (!h.readonly) (fun h0 => hro2.trans (hw h0)) h2
  have hro3 := (sameAccounts_code env h1 a (!h.readonly)).readonly.trans hro2
  generalize h1.getAccountCode env a (!h.readonly) = r2 at *
  rw [← hro3]
  exact c.setCode _ _ _ h3

/-- All that the virtual machine can do. -/
theorem Simple.closed (c : Simple env P) : Closed env M D P where
  getAccount h a hP := c.getAccount h a false (fun h0 => absurd h0 (by simp)) hP
  getStorage h a k hP := c.getStorage h a k false (fun h0 => absurd h0 (by simp)) hP
  getCode h a hP := c.getCode h a false (fun h0 => absurd h0 (by simp)) hP
  setStorage := c.setStorage'
  transfer h s d v hP _ _ := c.transfer h s d v hP
  destroy h s d _ hP := c.transfer h s d .zero hP
  deploy := c.deploy
  log h l hP := c.receipt h l h.success hP
  success h b hP := c.receipt h h.logs b hP

/-- A whole run. -/
theorem Closed.run (c : Closed env M D P)
    (hrec : ∀ (h : Host) cr o s, P h → P { h with created := cr, output := o, success := s })
    (h : Host) (msg : Msg) (vm : Vm) (hD : ∀ a ∈ Op.destroyedAll vm.ops, D a) (hP : P h)
    (hv : msg.value ≠ .zero → M → msg.value.nat ≤ (h.getBalance env msg.sender).1.nat) :
    P (h.run env msg vm).1 := by
  unfold Host.run
  cases msg.recipient with
  | some to =>
    have h1 := c.beginCall h .call msg.sender to to msg.value hP (fun _ => hv)
    simp only
    split
    · exact hrec _ _ _ _ (c.ops _ _ hD h1)
    · exact h1
  | none =>
    have h1 := c.beginCreate h none msg.sender msg.value hP (fun hz hM => by
      have := getBalance_again env h msg.sender (Nat.lt_of_lt_of_le (nat_pos_of_ne hz) (hv hz hM))
      have h2 : ((h.getAccount env msg.sender false).2.getBalance env msg.sender).1 =
          (h.getBalance env msg.sender).1 := by
        rw [getBalance_of, getBalance_of]
        exact congrArg (fun r : Option Account × Host => (r.1.map fun acc => acc.balance).getD Word.zero) this
      rw [h2]
      exact hv hz hM)
    simp only
    cases h2 : (h.beginCreate env none msg.sender msg.value).1 with
    | none => exact h1
    | some a =>
      simp only
      have h3 := c.ops _ vm.ops hD (hrec _ (some a) (h.beginCreate env none msg.sender msg.value).2.output
        (h.beginCreate env none msg.sender msg.value).2.success h1)
      refine hrec _ _ _ _ ?_
      split
      · exact c.deploy _ _ _ h3
      · exact h3

/-- `m_init_state` does not change. -/
theorem simple_init (env : Env) (i : Address → Option (Option Account × Bool)) :
    Simple env (fun h => h.init = i) where
  getAccount h a w _ hP := by
    have := got env h a w
    generalize h.getAccount env a w = r at *
    cases this <;> exact hP
  getStorage h a k w _ hP := (sameAccounts_storage env h a k w).init.trans hP
  getCode h a w _ hP := (sameAccounts_code env h a w).init.trans hP
  cache _ _ _ _ _ hP := hP
  setStorage _ _ _ _ hP := hP
  setCode _ _ _ hP := hP
  crash _ hP := hP
  receipt _ _ _ hP := hP

end Verif.Evm
