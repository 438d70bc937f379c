import Verif.Evm.Host
/-! Helper lemmas for the host of the virtual machine. -/
namespace Verif.Evm

open Verif.Serial

theorem put_same {α β : Type} [DecidableEq α] (f : α → β) (a : α) (b : β) : put f a b a = b := by
  simp [put]

theorem put_other {α β : Type} [DecidableEq α] (f : α → β) {a x : α} (b : β) (h : x ≠ a) :
    put f a b x = f x := by
  simp [put, h]

/-- What `get_account` can do. -/
inductive Got (env : Env) (h : Host) (a : Address) (w : Bool) : Option Account × Host → Prop where
  | pre (hp : isPrecompile a = true) : Got env h a w (some .new, h)
  | hit (hp : isPrecompile a = false) (acc : Option Account) (locked : Bool)
      (he : h.accounts a = some (acc, locked)) (hw : w = true → locked = true) :
      Got env h a w (acc, h)
  | fail (hp : isPrecompile a = false) :
      Got env h a w (none, { h with retry := true, requests := h.requests + 1 })
  | fetch (hp : isPrecompile a = false)
      (he : h.accounts a = none ∨ ∃ acc, h.accounts a = some (acc, false) ∧ w = true) :
      Got env h a w ((env.world.accounts a).map Account.ofStored,
        { h with
          accounts := put h.accounts a (some ((env.world.accounts a).map Account.ofStored, w))
          lockedAccounts := if w then a :: h.lockedAccounts else h.lockedAccounts
          requests := h.requests + 1 })

theorem got (env : Env) (h : Host) (a : Address) (w : Bool) : Got env h a w (h.getAccount env a w) := by
  unfold Host.getAccount
  cases hp : isPrecompile a with
  | true => exact .pre hp
  | false =>
    simp only [Bool.false_eq_true, if_false]
    cases he : h.accounts a with
    | none =>
      simp only
      split
      · exact .fail hp
      · exact .fetch hp (.inl he)
    | some e =>
      obtain ⟨acc, locked⟩ := e
      simp only
      split
      · rename_i hl
        refine .hit hp acc locked he fun hw => ?_
        subst hw
        simpa using hl
      · rename_i hl
        have hl : locked = false ∧ w = true := by simpa using hl
        split
        · exact .fail hp
        · exact .fetch hp (.inr ⟨acc, by rw [he, hl.1], hl.2⟩)

/-- Properties of hosts which everything that the virtual machine can do preserves (when
`M` holds, with the balances minded); `D`
are the accounts which may be destroyed. -/
structure Closed (env : Env) (M : Prop) (D : Address → Prop) (P : Host → Prop) : Prop where
  getAccount : ∀ h a, P h → P (h.getAccount env a false).2
  getStorage : ∀ h a k, P h → P (h.getAccountStorage env a k false).2
  getCode : ∀ h a, P h → P (h.getAccountCode env a false).2
  setStorage : ∀ h a k v, P h → P (h.setStorage env a k v)
  transfer : ∀ h s d v, P h → v ≠ Word.zero → (M → v.nat ≤ (h.getBalance env s).1.nat) →
    P (h.transfer env s d v)
  destroy : ∀ h s d, D s → P h → P (h.transfer env s d .zero)
  deploy : ∀ h a out, P h → P (h.deploy env a out)
  log : ∀ h l, P h → P { h with logs := l }
  success : ∀ h b, P h → P { h with success := b }

mutual
/-- The accounts which are destroyed. -/
def Op.destroyed : Op → List Address
  | .selfdestruct a _ => [a]
  | .call _ _ _ _ _ body => Op.destroyedAll body
  | .create _ _ _ body _ _ => Op.destroyedAll body
  | _ => []
def Op.destroyedAll : List Op → List Address
  | [] => []
  | o :: os => o.destroyed ++ Op.destroyedAll os
end

theorem nat_pos_of_ne {v : Word} (h : v ≠ .zero) : 0 < v.nat := by
  apply Nat.pos_of_ne_zero
  intro h0
  exact h (Word.nat_inj (by rw [h0, nat_zero]))

/-- Asking for a balance which is not zero once more gives the same. -/
theorem getBalance_again (env : Env) (h : Host) (a : Address) (hpos : 0 < (h.getBalance env a).1.nat) :
    (h.getBalance env a).2.getAccount env a false =
      ((h.getAccount env a false).1, (h.getBalance env a).2) := by
  unfold Host.getBalance at *
  have hg := got env h a false
  generalize h.getAccount env a false = r at *
  cases hg with
  | pre hp => simp [Host.getAccount, hp]
  | hit hp acc locked he hw => simp [Host.getAccount, hp, he]
  | fail hp => simp [nat_zero] at hpos
  | fetch hp he => simp [Host.getAccount, hp, put_same]

theorem getBalance_of (env : Env) (h : Host) (a : Address) :
    (h.getBalance env a).1 = ((h.getAccount env a false).1.map fun acc => acc.balance).getD .zero := rfl

theorem Closed.covered {env : Env} {M : Prop} {D : Address → Prop} {P : Host → Prop} (c : Closed env M D P)
    (h : Host) (s : Address) (v : Word) (hP : P h) : P (h.covered env s v).2 := by
  unfold Host.covered
  split
  · exact hP
  · exact c.getAccount h s hP

theorem covered_balance (env : Env) (h : Host) (s : Address) (v : Word) (hv : v ≠ .zero)
    (hc : (h.covered env s v).1 = true) :
    (h.covered env s v).2.getAccount env s false = ((h.getAccount env s false).1, (h.covered env s v).2) ∧
      v.nat ≤ ((h.covered env s v).2.getBalance env s).1.nat := by
  unfold Host.covered at *
  rw [if_neg hv] at *
  simp only [decide_eq_true_eq] at *
  have hpos : 0 < (h.getBalance env s).1.nat := Nat.lt_of_lt_of_le (nat_pos_of_ne hv) hc
  have := getBalance_again env h s hpos
  refine ⟨this, ?_⟩
  rw [getBalance_of, this]
  exact hc

theorem Closed.beginCall {env : Env} {M : Prop} {D : Address → Prop} {P : Host → Prop} (c : Closed env M D P)
    (h : Host) (kind : Kind) (s r ca : Address) (v : Word) (hP : P h)
    (hv : kind = .call → v ≠ .zero → M → v.nat ≤ (h.getBalance env s).1.nat) :
    P (h.beginCall env kind s r ca v).2 := by
  have size : ∀ (h : Host) a, P h → P (h.getCodeSize env a).2 := by
    intro h a hP
    unfold Host.getCodeSize
    split
    · exact hP
    · exact c.getCode h a hP
  unfold Host.beginCall
  simp only
  have hP1 : P (if (decide (v ≠ .zero) && decide (kind = .call)) = true then h.transfer env s r v else h) := by
    split
    · rename_i hn
      have hn : v ≠ .zero ∧ kind = .call := by simpa using hn
      exact c.transfer h s r v hP hn.1 (hv hn.2 hn.1)
    · exact hP
  generalize (if (decide (v ≠ .zero) && decide (kind = .call)) = true then h.transfer env s r v else h) = h1 at hP1 ⊢
  generalize (if kind = .call then r else ca) = t
  have h2 := size h1 t hP1
  by_cases hz : (h1.getCodeSize env t).1 = 0
  · rw [if_pos hz]
    simp only
    split
    · exact c.success _ _ h2
    · exact h2
  · rw [if_neg hz]
    exact c.getCode _ _ h2

theorem Closed.beginCreate {env : Env} {M : Prop} {D : Address → Prop} {P : Host → Prop} (c : Closed env M D P)
    (h : Host) (salt : Option (Word × Bytes)) (s : Address) (v : Word) (hP : P h)
    (hv : v ≠ .zero → M → v.nat ≤ ((h.getAccount env s false).2.getBalance env s).1.nat) :
    P (h.beginCreate env salt s v).2 := by
  unfold Host.beginCreate
  simp only
  have h1 := c.getAccount h s hP
  split
  · exact h1
  · simp only
    split
    · exact h1
    · rename_i hz
      exact c.transfer _ _ _ _ h1 hz (hv hz)

mutual
theorem Closed.op {env : Env} {M : Prop} {D : Address → Prop} {P : Host → Prop} (c : Closed env M D P)
    (h : Host) (o : Op) (hD : ∀ a ∈ o.destroyed, D a) (hP : P h) : P (Host.op env h o) := by
  cases o with
  | «exists» a => rw [Host.op]; exact c.getAccount _ _ hP
  | balance a => rw [Host.op]; exact c.getAccount _ _ hP
  | getStorage a k => rw [Host.op]; exact c.getStorage _ _ _ hP
  | setStorage a k v => rw [Host.op]; exact c.setStorage _ _ _ _ hP
  | code a => rw [Host.op]; exact c.getCode _ _ hP
  | selfdestruct a b =>
    rw [Host.op]
    exact c.destroy _ _ _ (hD a (by rw [Op.destroyed]; exact List.mem_singleton.mpr rfl)) hP
  | log l => rw [Host.op]; exact c.log _ _ hP
  | call kind s r ca v body =>
    rw [Op.destroyed] at hD
    rw [Host.op]
    simp only
    by_cases hk : kind = .delegatecall
    · rw [if_pos hk]
      simp only [if_true]
      have h1 := c.beginCall h kind s r ca v hP (by intro hc; rw [hk] at hc; exact Kind.noConfusion hc)
      split
      · exact Closed.ops c _ body hD h1
      · exact h1
    · rw [if_neg hk]
      have h0 := c.covered h s v hP
      split
      · rename_i hc
        have h1 := c.beginCall (h.covered env s v).2 kind s r ca v h0
          (fun _ hv _ => (covered_balance env h s v hv hc).2)
        split
        · exact Closed.ops c _ body hD h1
        · exact h1
      · exact h0
  | create salt s v body ok out =>
    rw [Op.destroyed] at hD
    rw [Host.op]
    simp only
    have h0 := c.covered h s v hP
    split
    · rename_i hc
      have h1 := c.beginCreate (h.covered env s v).2 salt s v h0 (fun hv _ => by
        have := covered_balance env h s v hv hc
        rw [this.1]
        exact this.2)
      split
      · exact h1
      · have h2 := Closed.ops c _ body hD h1
        split
        · exact c.deploy _ _ _ h2
        · exact h2
    · exact h0

theorem Closed.ops {env : Env} {M : Prop} {D : Address → Prop} {P : Host → Prop} (c : Closed env M D P)
    (h : Host) (os : List Op) (hD : ∀ a ∈ Op.destroyedAll os, D a) (hP : P h) :
    P (Host.ops env h os) := by
  cases os with
  | nil => rw [Host.ops]; exact hP
  | cons o os =>
    rw [Op.destroyedAll] at hD
    rw [Host.ops]
    exact Closed.ops c _ os (fun a ha => hD a (List.mem_append.mpr (.inr ha)))
      (Closed.op c h o (fun a ha => hD a (List.mem_append.mpr (.inl ha))) hP)
end

end Verif.Evm
