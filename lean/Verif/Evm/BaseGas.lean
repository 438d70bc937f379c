import Verif.Evm.HostFailure

/-!
# The gas that every Ethereum transaction pays (C128)
-/
namespace Verif.Evm

open Verif.Serial

/-- The gas for a transaction as such: 21000, and 32000 more to create a contract. -/
def baseGas (creates : Bool) : Nat := if creates then 53000 else 21000

theorem minGas_nat (tx : EvmTx) : (minGas tx).nat = baseGas tx.to.isNone := by
  unfold minGas baseGas
  cases tx.to with
  | none => simp only [if_true, Option.isNone_none]; decide +kernel
  | some a => simp only [Option.isNone_some]; rw [if_neg (by simp), if_neg (by simp)]; decide +kernel

/-- **C128.** A transaction with a gas limit below the base gas changes nothing: it is refused. -/
theorem C128_refused (env : Env) (sender : Address) (tx : EvmTx) (locks : Bool × Bool) (vm : Vm)
    (h : tx.gasLimit.nat < baseGas tx.to.isNone) : runTransaction env sender tx locks vm = .execError := by
  unfold runTransaction
  rw [if_pos (by rw [minGas_nat]; exact h)]

/-- **C128, in part**: the sum of all balances decreases by the price of the base gas and of the gas which the receipt
says was used.  Taken for granted is what `C54_total_partial` takes. -/
theorem C128_paid_partial (env : Env) (sender : Address) (tx : EvmTx) (locks : Bool × Bool) (vm : Vm)
    (u : Updates) (h : runTransaction env sender tx locks vm = .updates u)
    (hp : isPrecompile sender = false)
    (hwrap : tx.value.nat + tx.gasLimit.nat * tx.gasPrice.nat < 2 ^ 256)
    (hgas : vm.gasLeft.toNat ≤ (makeMsg sender tx false).gas.toNat)
    (dom : List Address) (hn : dom.Nodup) (hdom : ∀ a, (u.accounts a).isSome → a ∈ dom) :
    (env.world.apply u).total dom + (baseGas tx.to.isNone + u.receipt.gasUsed.toNat) * tx.gasPrice.nat ≤
      env.world.total dom := by
  have hfunds := C54_funds_partial env sender tx locks vm u h hwrap
  rw [balance_orEmpty] at hfunds
  have hmin := (runTransaction_exec h (by simp) (by simp)).1
  have hmsg : (makeMsg sender tx false).gas.toNat + baseGas tx.to.isNone ≤ tx.gasLimit.nat := by
    rw [← minGas_nat]
    unfold makeMsg
    simp only [Bool.false_eq_true, if_false]
    rw [C51_toU64, sub_nat hmin]
    have := Nat.mod_le (tx.gasLimit.nat - (minGas tx).nat) (2 ^ 64)
    omega
  have hcost : (mul tx.gasLimit tx.gasPrice).nat = tx.gasLimit.nat * tx.gasPrice.nat := by
    rw [C51_mul, Nat.mod_eq_of_lt (by omega)]
  have hstart : (startAccount env.world sender tx).balance.nat + tx.gasLimit.nat * tx.gasPrice.nat =
      (Stored.orEmpty (env.world.accounts sender)).balance.nat := by
    rw [startAccount_balance, sub_nat, senderAccount_stored, hcost]
    · omega
    · rw [senderAccount_stored, hcost]; omega
  have hleft := run_gas (env := env) (startHost env.world sender tx) (makeMsg sender tx false) vm hgas
  obtain ⟨h2, hf, hu⟩ := runTransaction_fine (M := True) (D := fun _ => True)
    (cost := tx.gasLimit.nat * tx.gasPrice.nat) h hp
    (fun _ _ => trivial)
    (fun _ _ => by omega)
    (fun _ => by omega)
    (fun _ g hg => Nat.mul_le_mul_right _ (by rw [hg]; omega))
  generalize ((startHost env.world sender tx).run env (makeMsg sender tx false) vm).2.2 = left at *
  have hm := hf.money trivial dom hn (fun a acc hw => hdom a (by
    rw [hu, updates_written, hw]; rfl))
  have h1 : (env.world.apply u).total dom ≤ sumOn dom (fun a => (h2.view env a).balance.nat) := by
    rw [hu]
    exact sumOn_le dom _ _ (fun a => apply_balance_le env h2 tx _ a)
  have h2' : env.world.total dom = sumOn dom (fun a => (Stored.orEmpty (env.world.accounts a)).balance.nat) :=
    sumOn_congr dom _ _ (balance_orEmpty env.world)
  have hused : u.receipt.gasUsed.toNat = (makeMsg sender tx false).gas.toNat - left.toNat := by
    rw [hu]
    show ((makeMsg sender tx false).gas - left).toNat = _
    rw [UInt64.toNat_sub_of_le _ _ (UInt64.le_iff_toNat_le.mpr hleft)]
  have h3 : (baseGas tx.to.isNone + u.receipt.gasUsed.toNat) * tx.gasPrice.nat + left.toNat * tx.gasPrice.nat ≤
      tx.gasLimit.nat * tx.gasPrice.nat := by
    rw [← Nat.add_mul]
    exact Nat.mul_le_mul_right _ (by omega)
  omega

/-- The hypotheses of `C128_paid_partial` are met by a creation with a limit of 53000, which pays all of it. -/
example : ∃ u, runTransaction (sampleEnv (num 100000)) (addr 1)
      (sampleTx none (num 100) (num 53000) (num 1)) (true, true)
      { ops := [], status := .success, gasLeft := 0, output := [] } = .updates u ∧
    (isPrecompile (addr 1), balanceOf (u.accounts (addr 1)), balanceOf (u.accounts (addr 9)), u.receipt.gasUsed) =
      (false, some (100000 - 100 - 53000), some 100, 0) :=
  updates_of (f := fun u => (isPrecompile (addr 1), balanceOf (u.accounts (addr 1)),
    balanceOf (u.accounts (addr 9)), u.receipt.gasUsed)) (by decide +kernel)

/-- **C128 is violated**: the receipt does not count the base gas.  A payment of 100 to an account without code costs
the sender 21000 units of gas at 2 each, and its receipt says that no gas was used. -/
theorem C128_receipt_violated :
    ∃ u, runTransaction (sampleEnv (num 100000)) (addr 1)
        (sampleTx (some (addr 3)) (num 100) (num 22000) (num 2)) (true, true)
        { ops := [], status := .success, gasLeft := 0, output := [] } = .updates u ∧
      ((sample (num 100000)).apply u).balance (addr 1) = 100000 - 100 - 2 * 21000 ∧
      ((sample (num 100000)).apply u).balance (addr 3) = 100 ∧ u.receipt.gasUsed = 0 := by
  obtain ⟨u, hu, hb⟩ := updates_of (a := runTransaction (sampleEnv (num 100000)) (addr 1)
        (sampleTx (some (addr 3)) (num 100) (num 22000) (num 2)) (true, true)
        { ops := [], status := .success, gasLeft := 0, output := [] })
    (f := fun u => (((sample (num 100000)).apply u).balance (addr 1),
      ((sample (num 100000)).apply u).balance (addr 3), u.receipt.gasUsed))
    (v := (100000 - 100 - 2 * 21000, 100, 0)) (by decide +kernel)
  refine ⟨u, hu, ?_⟩
  injection hb with h1 h2
  injection h2 with h2 h3
  exact ⟨h1, h2, h3⟩

end Verif.Evm
