import Verif.Evm.HostProps
/-!
# Executing Ethereum transactions: examples, minted money, failed executions (C54, C55)
-/
namespace Verif.Evm

open Verif.Serial

/-! ### A world for the examples -/

/-- An address of twenty equal bytes. -/
def addr (b : UInt8) : Address := ⟨List.replicate 20 b, by simp⟩

def num (n : UInt64) : Word := .ofU64 n

/-- The account 1 owns `funds`; the contract 2 has code; nothing else exists. -/
def sample (funds : Word) : World :=
  { accounts := fun a =>
      if a = addr 1 then some { balance := funds, nonce := num 4 }
      else if a = addr 2 then some { balance := num 7, nonce := num 0 }
      else none
    storage := fun _ _ => none
    code := fun a => if a = addr 2 then some [0x60] else none }

def sampleEnv (funds : Word) : Env :=
  { world := sample funds, fails := fun _ => false, createAddress := fun _ _ => addr 9,
    create2Address := fun _ _ _ => addr 8 }

/-- A transaction to `to` with nonce 5. -/
def sampleTx (to : Option Address) (value limit price : Word) : EvmTx :=
  { EvmTx.empty .legacy with
    to := to
    value := value
    nonce := num 5
    gasPrice := price
    gasLimit := limit }

/-- What updates there are, if any. -/
def Answer.updates? : Answer → Option Updates
  | .updates u => some u
  | _ => none

theorem updates_of {a : Answer} {α : Type} {f : Updates → α} {v : α}
    (h : a.updates?.map f = some v) : ∃ u, a = .updates u ∧ f u = v := by
  cases a with
  | updates u => exact ⟨u, rfl, by simpa [Answer.updates?] using h⟩
  | _ => simp [Answer.updates?] at h

def balanceOf (u : Option (Option Stored)) : Option Nat := (u.getD none).map (·.balance.nat)

/-- The hypotheses of `C54_total_partial` and `C56_nonce` are met by a payment of 100 with
a call of a contract, which pays 3 of it on. -/
example : ∃ u, runTransaction (sampleEnv (num 100000)) (addr 1)
      (sampleTx (some (addr 2)) (num 100) (num 22000) (num 2)) (true, true)
      { ops := [.call .call (addr 2) (addr 3) (addr 3) (num 3) []], status := .success,
        gasLeft := 400, output := [] } = .updates u ∧
    (balanceOf (u.accounts (addr 1)), balanceOf (u.accounts (addr 2)), balanceOf (u.accounts (addr 3)),
      u.receipt.gasUsed) = (some (100000 - 100 - 2 * 21600), some 104, some 3, 600) :=
  updates_of (f := fun u => (balanceOf (u.accounts (addr 1)), balanceOf (u.accounts (addr 2)),
    balanceOf (u.accounts (addr 3)), u.receipt.gasUsed)) (by decide +kernel)

/-- **C54 is violated**: the price of the gas is computed modulo 2^256.  Whoever owns
nothing sends a transaction with 2^15 units of gas for 2^241 each, which together cost
nothing, and is given 11768 times 2^241 for the gas which was not used. -/
theorem C54_mint_violated :
    ∃ u, runTransaction (sampleEnv .zero) (addr 1)
        (sampleTx (some (addr 3)) .zero (num 32768) (shl (num 2) 30)) (true, true)
        { ops := [], status := .success, gasLeft := 0, output := [] } = .updates u ∧
      (sample .zero).balance (addr 1) = 0 ∧
      ((sample .zero).apply u).balance (addr 1) = 11768 * 2 ^ 241 := by
  obtain ⟨u, hu, hb⟩ := updates_of (a := runTransaction (sampleEnv .zero) (addr 1)
        (sampleTx (some (addr 3)) .zero (num 32768) (shl (num 2) 30)) (true, true)
        { ops := [], status := .success, gasLeft := 0, output := [] })
    (f := fun u => ((sample .zero).apply u).balance (addr 1)) (v := 11768 * 2 ^ 241) (by decide +kernel)
  exact ⟨u, hu, by decide +kernel, hb⟩

/-! ### Failed executions -/

theorem getAccount_code (env : Env) (h : Host) (a : Address) (w : Bool) :
    (h.getAccount env a w).2.code = h.code := by
  have := got env h a w
  generalize h.getAccount env a w = r at *
  cases this <;> rfl

theorem transfer_code (env : Env) (h : Host) (s d : Address) (v : Word) :
    (h.transfer env s d v).code = h.code := by
  unfold Host.transfer
  simp only
  have h1 := getAccount_code env h s (!h.readonly)
  split
  · exact h1
  · refine (getAccount_code env _ d (!h.readonly)).trans ?_
    exact h1

/-- With code at the recipient, or without a recipient, the virtual machine runs. -/
theorem run_status (env : Env) (sender : Address) (tx : EvmTx) (vm : Vm) (hp : isPrecompile sender = false)
    (hcode : ∀ to, tx.to = some to → isPrecompile to = true ∨ ∃ c, env.world.code to = some c ∧ c ≠ [])
    (hr : ((startHost env.world sender tx).run env (makeMsg sender tx false) vm).1.retry = false) :
    ((startHost env.world sender tx).run env (makeMsg sender tx false) vm).2 = (vm.status, vm.gasLeft) := by
  unfold Host.run at hr ⊢
  have hrec : (makeMsg sender tx false).recipient = tx.to := rfl
  rw [hrec] at hr ⊢
  cases hto : tx.to with
  | none =>
    simp only
    unfold Host.beginCreate
    have : (makeMsg sender tx false).sender = sender := rfl
    rw [this, startHost_get sender tx hp]
  | some to =>
    simp only [hto] at hr ⊢
    by_cases hb : ((startHost env.world sender tx).beginCall env .call (makeMsg sender tx false).sender to to
      (makeMsg sender tx false).value).1 = true
    · rw [if_pos hb]
    · exfalso
      rw [if_neg hb] at hr
      unfold Host.beginCall at hb hr
      simp only [if_true] at hb hr
      generalize hh : (if (decide ((makeMsg sender tx false).value ≠ Word.zero) && decide True) = true then
        (startHost env.world sender tx).transfer env (makeMsg sender tx false).sender to (makeMsg sender tx false).value
        else startHost env.world sender tx) = h1 at hb hr
      have hnone : h1.code = fun _ => none := by
        rw [← hh]
        split
        · exact transfer_code ..
        · rfl
      have hz : (h1.getCodeSize env to).1 = 0 := by
        apply Decidable.byContradiction
        intro hz
        rw [if_neg hz] at hb
        exact hb rfl
      rw [if_pos hz] at hr
      have hr : (h1.getCodeSize env to).2.retry = false := by
        split at hr <;> exact hr
      unfold Host.getCodeSize at hz hr
      rcases hcode to hto with hpre | ⟨c, hc, hne⟩
      · simp [hpre] at hz
      · split at hz
        · simp at hz
        · rename_i hpre
          rw [if_neg hpre] at hr
          unfold Host.getAccountCode at hz hr
          rw [if_neg hpre] at hz hr
          simp only [hnone] at hz hr
          split at hz
          · rename_i hf
            rw [if_pos hf] at hr
            cases hr
          · simp [hc] at hz
            exact hne hz

/-- **C55, in part**: when the code of the called or the created contract reverts, the only
account which is written is that of the sender, with the next nonce and less the price of
the gas which was used.  Missing: storage, code of contracts created on the way, and the
entries in the log (`C55_storage_violated`), and every failure other than a revert
(`C55_failure_violated`). -/
theorem C55_accounts_partial (env : Env) (sender : Address) (tx : EvmTx) (locks : Bool × Bool) (vm : Vm)
    (u : Updates) (h : runTransaction env sender tx locks vm = .updates u)
    (hp : isPrecompile sender = false)
    (hcode : ∀ to, tx.to = some to → isPrecompile to = true ∨ ∃ c, env.world.code to = some c ∧ c ≠ [])
    (hwrap : tx.value.nat + tx.gasLimit.nat * tx.gasPrice.nat < 2 ^ 256)
    (hgas : vm.gasLeft.toNat ≤ (makeMsg sender tx false).gas.toNat)
    (hrev : vm.status = .revert) :
    (∀ a, a ≠ sender → u.accounts a = none) ∧
    ∃ s : Stored, u.accounts sender = some (some s) ∧ s.nonce = tx.nonce ∧
      s.balance.nat + (tx.gasLimit.nat - vm.gasLeft.toNat) * tx.gasPrice.nat = env.world.balance sender := by
  have hfunds := C54_funds_partial env sender tx locks vm u h hwrap
  obtain ⟨hmin, hn, _, he⟩ := runTransaction_exec h (by simp) (by simp)
  obtain ⟨h1, h2, hr, _, _, hh1, hh2, hc2, hu⟩ := exec_updates he
  have hst := run_status env sender tx vm hp hcode hr
  have hi := (simple_init env (startHost env.world sender tx).init).closed (M := False) (D := fun _ => True) |>.run
    (fun h _ _ _ hg => hg) (startHost env.world sender tx) (makeMsg sender tx false) vm (fun _ _ => trivial) rfl
    (fun _ hM => hM.elim)
  have hro : (h1.readonly = false) := by
    have hg0 : Good env False (fun _ => True) (nextNonces env.world sender tx) 0 (startHost env.world sender tx) :=
      startHost_good 0 hn False.elim
    have hg1 := (closed_good env False (fun _ => True) (nextNonces env.world sender tx) 0).run
      (fun h _ _ _ hg => hg.congr rfl rfl id) (startHost env.world sender tx) (makeMsg sender tx false) vm
      (fun _ _ => trivial) hg0 (fun _ hM => hM.elim)
    rw [hh1]
    split
    · exact hg1.readonly
    · exact hg1.readonly
  rw [hst] at hh1 hh2 hu
  rw [if_pos hrev] at hh1
  have hacc : h1.accounts = put (fun _ => none) sender (some (some (startAccount env.world sender tx), true)) := by
    rw [hh1]
    show Host.init _ = _
    rw [hi, startHost_init, startHost_accounts]
  have hfin : h2 = h1.cache sender ((startAccount env.world sender tx).credit (mul (.ofU64 vm.gasLeft) tx.gasPrice)) true := by
    rw [hh2]
    unfold Host.finalize
    rw [hro]
    simp only [Bool.false_eq_true, if_false]
    have : (makeMsg sender tx false).sender = sender := rfl
    rw [this]
    have hget : h1.getAccount env sender true = (some (startAccount env.world sender tx), h1) := by
      unfold Host.getAccount
      rw [hacc]
      simp [hp, put]
    rw [hget]
  have hw : ∀ a, h2.written a = if a = sender then
      some ((startAccount env.world sender tx).credit (mul (.ofU64 vm.gasLeft) tx.gasPrice)) else none := by
    intro a
    rw [hfin, written_put]
    by_cases ha : a = sender
    · simp [ha]
    · rw [if_neg ha, if_neg ha]
      unfold Host.written
      rw [hacc]
      simp [put, ha]
  have hmsg := makeMsg_gas sender tx hmin
  have hgp : vm.gasLeft.toNat * tx.gasPrice.nat ≤ tx.gasLimit.nat * tx.gasPrice.nat :=
    Nat.mul_le_mul_right _ (by omega)
  refine ⟨fun a ha => by rw [hu, updates_written, hw, if_neg ha]; rfl,
    ((startAccount env.world sender tx).credit (mul (.ofU64 vm.gasLeft) tx.gasPrice)).toStored, ?_, ?_, ?_⟩
  · rw [hu, updates_written, hw, if_pos rfl]
    simp only [Option.map_some, credit_destruct]
    rw [if_neg]
    simp only [startAccount]
    rw [senderAccount_destruct]
    simp
  · rw [credit_nonce, startAccount_nonce, hn]
  · rw [credit_balance, C51_add, C51_mul, nat_ofU64, startAccount_balance, sub_nat, C51_mul,
      Nat.mod_eq_of_lt (a := tx.gasLimit.nat * _) (by omega), senderAccount_stored, ← balance_orEmpty,
      Nat.mod_eq_of_lt (a := vm.gasLeft.toNat * _) (by omega), Nat.sub_mul]
    · have hlt : env.world.balance sender < 2 ^ 256 := by rw [balance_orEmpty]; exact Word.nat_lt _
      rw [Nat.mod_eq_of_lt (by omega)]
      omega
    · rw [C51_mul, Nat.mod_eq_of_lt (by omega), senderAccount_stored, ← balance_orEmpty]
      omega

/-- The hypotheses of `C55_accounts_partial` are met by a call with a value of 100 which
pays on and reverts. -/
example : ∃ u, runTransaction (sampleEnv (num 100000)) (addr 1)
      (sampleTx (some (addr 2)) (num 100) (num 22000) (num 2)) (true, true)
      { ops := [.call .call (addr 2) (addr 3) (addr 3) (num 3) []], status := .revert,
        gasLeft := 400, output := [] } = .updates u ∧
    (balanceOf (u.accounts (addr 1)), balanceOf (u.accounts (addr 2)), balanceOf (u.accounts (addr 3))) =
      (some (100000 - 2 * 21600), none, none) :=
  updates_of (f := fun u => (balanceOf (u.accounts (addr 1)), balanceOf (u.accounts (addr 2)),
    balanceOf (u.accounts (addr 3)))) (by decide +kernel)

/-- **C55 is violated**: the contract writes to its storage, makes an entry in the log,
creates another contract and reverts; storage, entry and contract stay. -/
theorem C55_storage_violated :
    ∃ u, runTransaction (sampleEnv (num 100000)) (addr 1)
        (sampleTx (some (addr 2)) (num 0) (num 22000) (num 2)) (true, true)
        { ops := [.setStorage (addr 2) (num 1) (num 5),
                  .log { addr := addr 2, data := [], topics := [] },
                  .create none (addr 2) .zero [] true [0x60]],
          status := .revert, gasLeft := 400, output := [] } = .updates u ∧
      ((sample (num 100000)).apply u).storage (addr 2) (num 1) = some (num 5) ∧
      ((sample (num 100000)).apply u).code (addr 9) = some [0x60] ∧
      u.receipt.logs.length = 1 ∧ u.receipt.success = false := by
  obtain ⟨u, hu, hb⟩ := updates_of (a := runTransaction (sampleEnv (num 100000)) (addr 1)
        (sampleTx (some (addr 2)) (num 0) (num 22000) (num 2)) (true, true)
        { ops := [.setStorage (addr 2) (num 1) (num 5),
                  .log { addr := addr 2, data := [], topics := [] },
                  .create none (addr 2) .zero [] true [0x60]],
          status := .revert, gasLeft := 400, output := [] })
    (f := fun u => (((sample (num 100000)).apply u).storage (addr 2) (num 1),
      ((sample (num 100000)).apply u).code (addr 9), u.receipt.logs.length, u.receipt.success))
    (v := (some (num 5), some [0x60], 1, false)) (by decide +kernel)
  simp only [Prod.mk.injEq] at hb
  exact ⟨u, hu, hb⟩

/-- **C55 is violated**: the contract pays its money to somebody and runs out of gas; the
transaction has failed, and the money stays where it is. -/
theorem C55_failure_violated :
    ∃ u, runTransaction (sampleEnv (num 100000)) (addr 1)
        (sampleTx (some (addr 2)) (num 100) (num 22000) (num 2)) (true, true)
        { ops := [.call .call (addr 2) (addr 3) (addr 3) (num 107) []],
          status := .failure, gasLeft := 0, output := [] } = .updates u ∧
      ((sample (num 100000)).apply u).balance (addr 1) = 100000 - 100 - 44000 ∧
      ((sample (num 100000)).apply u).balance (addr 2) = 0 ∧
      ((sample (num 100000)).apply u).balance (addr 3) = 107 ∧ u.receipt.success = false := by
  obtain ⟨u, hu, hb⟩ := updates_of (a := runTransaction (sampleEnv (num 100000)) (addr 1)
        (sampleTx (some (addr 2)) (num 100) (num 22000) (num 2)) (true, true)
        { ops := [.call .call (addr 2) (addr 3) (addr 3) (num 107) []],
          status := .failure, gasLeft := 0, output := [] })
    (f := fun u => (((sample (num 100000)).apply u).balance (addr 1),
      ((sample (num 100000)).apply u).balance (addr 2), ((sample (num 100000)).apply u).balance (addr 3),
      u.receipt.success))
    (v := (100000 - 100 - 44000, 0, 107, false)) (by decide +kernel)
  simp only [Prod.mk.injEq] at hb
  exact ⟨u, hu, hb⟩

end Verif.Evm
