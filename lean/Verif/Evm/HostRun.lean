import Verif.Evm.HostSimple
/-! Helper lemmas for the host of the virtual machine: the execution of transactions. -/
namespace Verif.Evm

open Verif.Serial

variable {env : Env} {M : Prop} {D : Address → Prop} {N : Address → Word} {cost : Nat}

/-- The host with which a transaction starts, src/parsec/agent/runners/evm/impl.cpp:675-694. -/
def startHost (w : World) (sender : Address) (tx : EvmTx) : Host :=
  { (Host.new false).insertAccount sender
      { senderAccount w sender with
        balance := sub (senderAccount w sender).balance (mul tx.gasLimit tx.gasPrice)
        nonce := add (senderAccount w sender).nonce (.ofU64 1) } with
    lockedAccounts := [sender] }

/-- The account of the sender when the execution starts. -/
def startAccount (w : World) (sender : Address) (tx : EvmTx) : Account :=
  { senderAccount w sender with
    balance := sub (senderAccount w sender).balance (mul tx.gasLimit tx.gasPrice)
    nonce := add (senderAccount w sender).nonce (.ofU64 1) }

theorem startHost_accounts (w : World) (sender : Address) (tx : EvmTx) :
    (startHost w sender tx).accounts = put (fun _ => none) sender (some (some (startAccount w sender tx), true)) := rfl

theorem startHost_init (w : World) (sender : Address) (tx : EvmTx) :
    (startHost w sender tx).init = (startHost w sender tx).accounts := rfl

theorem startAccount_nonce (w : World) (sender : Address) (tx : EvmTx) :
    (startAccount w sender tx).nonce = add (senderAccount w sender).nonce (.ofU64 1) := by
  simp only [startAccount]

theorem startAccount_balance (w : World) (sender : Address) (tx : EvmTx) :
    (startAccount w sender tx).balance =
      sub (senderAccount w sender).balance (mul tx.gasLimit tx.gasPrice) := by
  simp only [startAccount]

theorem senderAccount_destruct (w : World) (sender : Address) :
    (senderAccount w sender).destruct = false := by
  unfold senderAccount
  split <;> rfl

theorem senderAccount_stored (w : World) (sender : Address) :
    (senderAccount w sender).toStored = .orEmpty (w.accounts sender) := by
  unfold senderAccount
  split <;> rename_i h <;> rw [h] <;> rfl

/-- What has to hold for a transaction to be executed. -/
theorem runTransaction_exec {sender : Address} {tx : EvmTx} {locks : Bool × Bool} {vm : Vm} {ans : Answer}
    (h : runTransaction env sender tx locks vm = ans) (h1 : ans ≠ .execError) (h2 : ans ≠ .wounded) :
    (minGas tx).nat ≤ tx.gasLimit.nat ∧
    add (senderAccount env.world sender).nonce (.ofU64 1) = tx.nonce ∧
    (add tx.value (mul tx.gasLimit tx.gasPrice)).nat ≤ (senderAccount env.world sender).balance.nat ∧
    exec env (startHost env.world sender tx) tx (makeMsg sender tx false) tx.gasPrice vm = ans := by
  unfold runTransaction at h
  split at h
  · exact absurd h.symm h1
  · rename_i hg
    split at h
    · exact absurd h.symm h2
    · simp only at h
      split at h
      · exact absurd h.symm h1
      · rename_i hn
        split at h
        · exact absurd h.symm h1
        · rename_i hb
          split at h
          · exact absurd h.symm h2
          · exact ⟨by omega, Decidable.byContradiction hn, by omega, h⟩

/-- The nonces as they should be after a transaction. -/
def nextNonces (w : World) (sender : Address) (tx : EvmTx) : Address → Word :=
  put (fun a => (Stored.orEmpty (w.accounts a)).nonce) sender tx.nonce

theorem startHost_good {sender : Address} {tx : EvmTx} (cost : Nat)
    (hn : add (senderAccount env.world sender).nonce (.ofU64 1) = tx.nonce)
    (hc : M → (startAccount env.world sender tx).balance.nat + cost ≤
      (Stored.orEmpty (env.world.accounts sender)).balance.nat) :
    Good env M D (nextNonces env.world sender tx) cost (startHost env.world sender tx) := by
  have hw : ∀ a, (startHost env.world sender tx).written a =
      if a = sender then some (startAccount env.world sender tx) else none := by
    intro a
    unfold Host.written
    rw [startHost_accounts]
    by_cases ha : a = sender
    · simp [put, ha]
    · simp [put, ha]
  have hv : ∀ a, (startHost env.world sender tx).view env a =
      if a = sender then (startAccount env.world sender tx).toStored
      else .orEmpty (env.world.accounts a) := by
    intro a
    unfold Host.view
    rw [hw]
    by_cases ha : a = sender <;> simp [ha]
  refine ⟨rfl, fun _ => ⟨fun a acc _ he => ?_, fun a _ he => ?_, fun a _ => ?_, fun a acc l he hd => ?_,
    fun hM dom hnd hs => ?_⟩⟩
  · rw [startHost_accounts] at he
    by_cases ha : a = sender
    · simp [put, ha] at he
    · simp [put, ha] at he
  · rw [startHost_accounts] at he
    by_cases ha : a = sender
    · simp [put, ha] at he
    · simp [put, ha] at he
  · rw [hv]
    by_cases ha : a = sender
    · subst ha
      rw [if_pos rfl, startAccount_nonce, hn, nextNonces, put_same]
    · rw [if_neg ha, nextNonces, put_other _ _ ha]
  · rw [startHost_accounts] at he
    by_cases ha : a = sender
    · simp [put, ha] at he
      rw [← he.1] at hd
      simp only [startAccount] at hd
      rw [senderAccount_destruct] at hd
      cases hd
    · simp [put, ha] at he
  · have hm : sender ∈ dom := hs sender (startAccount env.world sender tx) (by rw [hw, if_pos rfl])
    have := sumOn_change dom hnd (fun a => (Stored.orEmpty (env.world.accounts a)).balance.nat)
      (fun a => ((startHost env.world sender tx).view env a).balance.nat) sender hm
      (fun a ha => by rw [hv, if_neg ha])
    have hcc := hc hM
    simp only [hv, if_true] at this
    simp only [hv]
    omega

theorem startHost_get (sender : Address) (tx : EvmTx) (hp : isPrecompile sender = false) (w : World) :
    (startHost w sender tx).getAccount env sender false =
      (some (startAccount w sender tx), startHost w sender tx) := by
  unfold Host.getAccount
  rw [startHost_accounts]
  simp [hp, put]

/-- `finalize` gives back at most what was taken. -/
theorem Good.finalize {h : Host} (hg : Good env M D N cost h) (origin : Address) (price : Word)
    (gasLeft : UInt64) (hp : isPrecompile origin = false)
    (hc : M → gasLeft.toNat * price.nat ≤ cost) (hcr : (h.finalize env origin price gasLeft).crashed = false)
    (hr0 : h.retry = false) :
    Fine env M D N (cost - gasLeft.toNat * price.nat) (h.finalize env origin price gasLeft) := by
  unfold Host.finalize at hcr ⊢
  simp only [hg.readonly, Bool.false_eq_true, if_false] at hcr ⊢
  have hr := hg.got origin true
  generalize h.getAccount env origin true = r at *
  cases h1 : r.1 with
  | none => simp [h1] at hcr
  | some acc =>
    simp only
    have h0 : r.2.retry = false := ((hr.retried hp).resolve_right (by rw [h1]; simp)).trans hr0
    have hs := hr.some h0 hp acc h1
    refine (hr.good.fine h0).write origin _ _ (fun _ => ?_) (fun hd => ?_) ?_
    · rw [credit_nonce, ← (hr.good.fine h0).nonce origin hp, hr.view h0, ← hs]
    · rw [credit_destruct] at hd
      exact hr.destroyed h0 acc h1 hd
    · intro hM
      have := hc hM
      rw [credit_balance, hr.view h0, ← hs]
      have := add_nat_le acc.balance (mul (.ofU64 gasLeft) price)
      have : (mul (.ofU64 gasLeft) price).nat ≤ gasLeft.toNat * price.nat := by
        rw [C51_mul, nat_ofU64]
        exact Nat.mod_le _ _
      omega

/-- What `exec` does when it gives updates. -/
theorem exec_updates {h : Host} {tx : EvmTx} {msg : Msg} {price : Word} {vm : Vm} {u : Updates}
    (he : exec env h tx msg price vm = .updates u) :
    ∃ h1 h2 : Host, (h.run env msg vm).1.retry = false ∧ (h.run env msg vm).1.crashed = false ∧
      (h.run env msg vm).2.1 ≠ .internal ∧
      h1 = (if (h.run env msg vm).2.1 = .revert then (h.run env msg vm).1.revert else (h.run env msg vm).1) ∧
      h2 = h1.finalize env msg.sender price (h.run env msg vm).2.2 ∧
      h2.crashed = false ∧ u = h2.updates tx (msg.gas - (h.run env msg vm).2.2) := by
  unfold exec at he
  simp only at he
  split at he
  · cases he
  · rename_i hc
    split at he
    · cases he
    · rename_i hi
      split at he
      · cases he
      · rename_i hr
        generalize hh : (if (h.run env msg vm).2.1 = .revert then (h.run env msg vm).1.revert
          else (h.run env msg vm).1) = h1 at he
        split at he
        · cases he
        split at he
        · cases he
        · rename_i hc2
          cases he
          exact ⟨h1, _, by simpa using hr, by simpa using hc, hi, rfl, rfl, by simpa using hc2, rfl⟩

theorem run_gas (h : Host) (msg : Msg) (vm : Vm) (hv : vm.gasLeft.toNat ≤ msg.gas.toNat) :
    (h.run env msg vm).2.2.toNat ≤ msg.gas.toNat := by
  unfold Host.run
  split
  · simp only
    split
    · exact hv
    · exact Nat.le_refl _
  · simp only
    split
    · exact Nat.zero_le _
    · exact hv

/-- The whole execution of a transaction. -/
theorem runTransaction_fine {sender : Address} {tx : EvmTx} {locks : Bool × Bool} {vm : Vm} {u : Updates}
    (h : runTransaction env sender tx locks vm = .updates u) (hp : isPrecompile sender = false)
    (hD : ∀ a ∈ Op.destroyedAll vm.ops, D a)
    (hcover : M → tx.value ≠ .zero → tx.value.nat ≤ (startAccount env.world sender tx).balance.nat)
    (hc : M → (startAccount env.world sender tx).balance.nat + cost ≤
      (Stored.orEmpty (env.world.accounts sender)).balance.nat)
    (hgas : M → ∀ g : UInt64, g = ((startHost env.world sender tx).run env (makeMsg sender tx false) vm).2.2 →
      g.toNat * tx.gasPrice.nat ≤ cost) :
    ∃ h2 : Host, Fine env M D (nextNonces env.world sender tx)
        (cost - ((startHost env.world sender tx).run env (makeMsg sender tx false) vm).2.2.toNat * tx.gasPrice.nat) h2 ∧
      u = h2.updates tx ((makeMsg sender tx false).gas -
        ((startHost env.world sender tx).run env (makeMsg sender tx false) vm).2.2) := by
  obtain ⟨_, hn, hb, he⟩ := runTransaction_exec h (by simp) (by simp)
  obtain ⟨h1, h2, hr, _, _, hh1, hh2, hc2, hu⟩ := exec_updates he
  have hg0 : Good env M D (nextNonces env.world sender tx) cost (startHost env.world sender tx) :=
    startHost_good cost hn hc
  have hbal : ((startHost env.world sender tx).getBalance env sender).1 =
      (startAccount env.world sender tx).balance := by
    rw [getBalance_of, startHost_get sender tx hp]
    rfl
  have hg1 := (closed_good env M D (nextNonces env.world sender tx) cost).run
    (fun h _ _ _ hg => hg.congr rfl rfl id) (startHost env.world sender tx) (makeMsg sender tx false) vm hD hg0
    (fun hz hM => by
      show tx.value.nat ≤ ((startHost env.world sender tx).getBalance env sender).1.nat
      rw [hbal]
      exact hcover hM hz)
  have hi := (simple_init env (startHost env.world sender tx).init).closed (D := D) |>.run
    (fun h _ _ _ hg => hg) (startHost env.world sender tx) (makeMsg sender tx false) vm hD rfl
    (fun hz hM => by
      show tx.value.nat ≤ ((startHost env.world sender tx).getBalance env sender).1.nat
      rw [hbal]
      exact hcover hM hz)
  have hg2 : Good env M D (nextNonces env.world sender tx) cost h1 ∧ h1.retry = false := by
    rw [hh1]
    split
    · refine ⟨hg0.congr ?_ ?_ (fun _ => rfl), hr⟩
      · show Host.init _ = _
        rw [hi, startHost_init]
      · exact hg1.readonly.trans hg0.readonly.symm
    · exact ⟨hg1, hr⟩
  refine ⟨h2, ?_, hu⟩
  rw [hh2]
  exact hg2.1.finalize sender tx.gasPrice _ hp (fun hM => hgas hM _ rfl) (hh2 ▸ hc2) hg2.2

end Verif.Evm
