import Verif.Evm.HostRun
/-!
# Executing Ethereum transactions: funds, failure and nonces (C54, C55, C56)

The specification speaks about the world before and after: the balance and the nonce of
an address, the sum of all balances, and what the updates contain.
-/
namespace Verif.Evm

open Verif.Serial

/-- The balance of an address; an account which does not exist has none. -/
def World.balance (w : World) (a : Address) : Nat :=
  match w.accounts a with
  | some s => s.balance.nat
  | none => 0

/-- The nonce of an address. -/
def World.nonce (w : World) (a : Address) : Nat :=
  match w.accounts a with
  | some s => s.nonce.nat
  | none => 0

/-- The sum of the balances of the addresses in a list. -/
def World.total (w : World) (dom : List Address) : Nat := (dom.map w.balance).sum

theorem balance_orEmpty (w : World) (a : Address) :
    w.balance a = (Stored.orEmpty (w.accounts a)).balance.nat := by
  unfold World.balance
  split <;> rename_i h <;> rw [h]
  · rfl
  · exact nat_zero.symm

theorem nonce_orEmpty (w : World) (a : Address) :
    w.nonce a = (Stored.orEmpty (w.accounts a)).nonce.nat := by
  unfold World.nonce
  split <;> rename_i h <;> rw [h]
  · rfl
  · exact nat_zero.symm

theorem updates_written (h : Host) (tx : EvmTx) (g : UInt64) (a : Address) :
    (h.updates tx g).accounts a = (h.written a).map
      (fun acc => if acc.destruct then none else some acc.toStored) := by
  unfold Host.updates Host.written
  dsimp only
  rcases h.accounts a with _ | ⟨_ | acc, _ | _⟩ <;> rfl

/-- After writing back, a balance is at most what counted before. -/
theorem apply_balance_le (env : Env) (h : Host) (tx : EvmTx) (g : UInt64) (a : Address) :
    (env.world.apply (h.updates tx g)).balance a ≤ (h.view env a).balance.nat := by
  rw [balance_orEmpty]
  unfold World.apply Host.view
  simp only
  rw [updates_written]
  cases h.written a with
  | none => exact Nat.le_refl _
  | some acc =>
    simp only [Option.map_some, Option.getD_some]
    split
    · simp [Stored.orEmpty, nat_zero]
    · exact Nat.le_refl _

/-- **C54, in part**: when the price of the gas does not exceed the numbers which fit,
a transaction is executed only if the sender owns the value and the price together. -/
theorem C54_funds_partial (env : Env) (sender : Address) (tx : EvmTx) (locks : Bool × Bool) (vm : Vm)
    (u : Updates) (h : runTransaction env sender tx locks vm = .updates u)
    (hwrap : tx.value.nat + tx.gasLimit.nat * tx.gasPrice.nat < 2 ^ 256) :
    tx.value.nat + tx.gasLimit.nat * tx.gasPrice.nat ≤ env.world.balance sender := by
  obtain ⟨_, _, hb, _⟩ := runTransaction_exec h (by simp) (by simp)
  rw [balance_orEmpty, ← senderAccount_stored]
  rw [C51_add, C51_mul, Nat.mod_eq_of_lt (a := tx.gasLimit.nat * _) (by omega),
    Nat.mod_eq_of_lt hwrap] at hb
  exact hb

theorem makeMsg_gas (sender : Address) (tx : EvmTx) (h : (minGas tx).nat ≤ tx.gasLimit.nat) :
    (makeMsg sender tx false).gas.toNat ≤ tx.gasLimit.nat := by
  unfold makeMsg
  simp only [Bool.false_eq_true, if_false]
  rw [C51_toU64, sub_nat h]
  have := Nat.mod_le (tx.gasLimit.nat - (minGas tx).nat) (2 ^ 64)
  omega

/-- **C54, in part**: the sum of all balances never increases, and decreases by the price
of the gas which the receipt says was used.  `dom` is any list of addresses which has all
that are written; the others keep their balance (`C54_others`).  Taken for granted:
the price of the gas does not exceed the numbers which fit (`C54_mint_violated` says what
happens otherwise), the virtual machine leaves no more gas than it was given, and the
sender is not among the addresses of precompiled contracts. -/
theorem C54_total_partial (env : Env) (sender : Address) (tx : EvmTx) (locks : Bool × Bool) (vm : Vm)
    (u : Updates) (h : runTransaction env sender tx locks vm = .updates u)
    (hp : isPrecompile sender = false)
    (hwrap : tx.value.nat + tx.gasLimit.nat * tx.gasPrice.nat < 2 ^ 256)
    (hgas : vm.gasLeft.toNat ≤ (makeMsg sender tx false).gas.toNat)
    (dom : List Address) (hn : dom.Nodup) (hdom : ∀ a, (u.accounts a).isSome → a ∈ dom) :
    (env.world.apply u).total dom + u.receipt.gasUsed.toNat * tx.gasPrice.nat ≤ env.world.total dom := by
  have hfunds := C54_funds_partial env sender tx locks vm u h hwrap
  rw [balance_orEmpty] at hfunds
  have hmin := (runTransaction_exec h (by simp) (by simp)).1
  have hmsg := makeMsg_gas sender tx hmin
  have hcost : (mul tx.gasLimit tx.gasPrice).nat = tx.gasLimit.nat * tx.gasPrice.nat := by
    rw [C51_mul, Nat.mod_eq_of_lt (by omega)]
  have hstart : (startAccount env.world sender tx).balance.nat + tx.gasLimit.nat * tx.gasPrice.nat =
      (Stored.orEmpty (env.world.accounts sender)).balance.nat := by
    rw [startAccount_balance, sub_nat, senderAccount_stored, hcost]
    · omega
    · rw [senderAccount_stored, hcost]; omega
  have hleft := run_gas (env := env) (startHost env.world sender tx) (makeMsg sender tx false) vm hgas
  obtain ⟨h2, hf, hu⟩ := runTransaction_fine (M := True) (D := fun _ => True)
    (cost := tx.gasLimit.nat * tx.gasPrice.nat) h hp
    (fun _ _ => trivial)
    (fun _ _ => by omega)
    (fun _ => by omega)
    (fun _ g hg => Nat.mul_le_mul_right _ (by rw [hg]; omega))
  generalize ((startHost env.world sender tx).run env (makeMsg sender tx false) vm).2.2 = left at *
  have hm := hf.money trivial dom hn (fun a acc hw => hdom a (by
    rw [hu, updates_written, hw]; rfl))
  have h1 : (env.world.apply u).total dom ≤ sumOn dom (fun a => (h2.view env a).balance.nat) := by
    rw [hu]
    exact sumOn_le dom _ _ (fun a => apply_balance_le env h2 tx _ a)
  have h2' : env.world.total dom = sumOn dom (fun a => (Stored.orEmpty (env.world.accounts a)).balance.nat) :=
    sumOn_congr dom _ _ (balance_orEmpty env.world)
  have hused : u.receipt.gasUsed.toNat = (makeMsg sender tx false).gas.toNat - left.toNat := by
    rw [hu]
    show ((makeMsg sender tx false).gas - left).toNat = _
    rw [UInt64.toNat_sub_of_le _ _ (UInt64.le_iff_toNat_le.mpr hleft)]
  have h3 : u.receipt.gasUsed.toNat * tx.gasPrice.nat + left.toNat * tx.gasPrice.nat ≤
      tx.gasLimit.nat * tx.gasPrice.nat := by
    rw [← Nat.add_mul]
    exact Nat.mul_le_mul_right _ (by omega)
  omega

/-- **C54.** An account which is not among the updates keeps its balance. -/
theorem C54_others (w : World) (u : Updates) (a : Address) (h : u.accounts a = none) :
    (w.apply u).balance a = w.balance a := by
  unfold World.balance World.apply
  simp only [h, Option.getD_none]

/-! ### The nonce -/

/-- **C56.** A transaction is executed only with the nonce which follows that of the
sender, and then that is the nonce of the sender.  Taken for granted: the sender, of which
the address is the hash of a key, has no code to destroy the account with and is not among
the precompiled contracts. -/
theorem C56_nonce (env : Env) (sender : Address) (tx : EvmTx) (locks : Bool × Bool) (vm : Vm)
    (u : Updates) (h : runTransaction env sender tx locks vm = .updates u)
    (hp : isPrecompile sender = false) (hd : sender ∉ Op.destroyedAll vm.ops) :
    tx.nonce.nat = (env.world.nonce sender + 1) % 2 ^ 256 ∧
      (env.world.apply u).nonce sender = tx.nonce.nat := by
  obtain ⟨_, hn, _, _⟩ := runTransaction_exec h (by simp) (by simp)
  refine ⟨by rw [← hn, C51_add, nat_ofU64, nonce_orEmpty, ← senderAccount_stored]; rfl, ?_⟩
  obtain ⟨h2, hf, hu⟩ := runTransaction_fine (M := False) (D := fun a => a ≠ sender) (cost := 0) h hp
    (fun a ha e => hd (e ▸ ha)) False.elim False.elim False.elim
  have hv := hf.nonce sender hp
  rw [nextNonces, put_same] at hv
  rw [nonce_orEmpty]
  rw [← hv]
  unfold Host.view
  rw [hu]
  unfold World.apply
  simp only
  rw [updates_written]
  cases hw : h2.written sender with
  | none => rfl
  | some acc =>
    simp only [Option.map_some, Option.getD_some]
    have he : ∃ l, h2.accounts sender = some (some acc, l) := by
      unfold Host.written at hw
      split at hw
      · rename_i he; cases hw; exact ⟨_, he⟩
      · cases hw
    obtain ⟨l, he⟩ := he
    cases hdes : acc.destruct with
    | true => exact absurd rfl (hf.destroyed sender acc l he hdes)
    | false => rfl

/-- **C56.** The nonce of another account stays as it is, unless the account is
destroyed. -/
theorem C56_others (env : Env) (sender : Address) (tx : EvmTx) (locks : Bool × Bool) (vm : Vm)
    (u : Updates) (h : runTransaction env sender tx locks vm = .updates u)
    (hp : isPrecompile sender = false) (a : Address) (ha : a ≠ sender) (hpa : isPrecompile a = false)
    (hd : a ∉ Op.destroyedAll vm.ops) :
    (env.world.apply u).nonce a = env.world.nonce a := by
  obtain ⟨h2, hf, hu⟩ := runTransaction_fine (M := False) (D := fun x => x ≠ a) (cost := 0) h hp
    (fun x hx e => hd (e ▸ hx)) False.elim False.elim False.elim
  have hv := hf.nonce a hpa
  rw [nextNonces, put_other _ _ ha] at hv
  rw [nonce_orEmpty, nonce_orEmpty, ← hv]
  unfold Host.view
  rw [hu]
  unfold World.apply
  simp only
  rw [updates_written]
  cases hw : h2.written a with
  | none => rfl
  | some acc =>
    simp only [Option.map_some, Option.getD_some]
    have he : ∃ l, h2.accounts a = some (some acc, l) := by
      unfold Host.written at hw
      split at hw
      · rename_i he; cases hw; exact ⟨_, he⟩
      · cases hw
    obtain ⟨l, he⟩ := he
    cases hdes : acc.destruct with
    | true => exact absurd rfl (hf.destroyed a acc l he hdes)
    | false => rfl

/-- A request to execute a transaction: the transaction, which locks are given, what the
virtual machine does, and the addresses of new contracts. -/
structure Request where
  tx : EvmTx
  locks : Bool × Bool
  fails : Nat → Bool
  vm : Vm
  createAddress : Address → Word → Address
  create2Address : Address → Word → Bytes → Address

def Request.env (r : Request) (w : World) : Env :=
  { world := w, fails := r.fails, createAddress := r.createAddress, create2Address := r.create2Address }

/-- The transactions which are executed when requests are served one after the other. -/
def executed (c : Curve) (chain : UInt64) : World → List Request → List EvmTx
  | _, [] => []
  | w, r :: rs =>
    match runSigned c (r.env w) chain r.tx r.locks r.vm with
    | .updates u => r.tx :: executed c chain (w.apply u) rs
    | _ => executed c chain w rs

/-- Whoever signs one of the transactions is not a contract. -/
def Plain (c : Curve) (chain : UInt64) (rs : List Request) : Prop :=
  ∀ r ∈ rs, ∀ s, checkSignature c chain r.tx = some s → isPrecompile s = false ∧
    ∀ r' ∈ rs, s ∉ Op.destroyedAll r'.vm.ops

theorem Plain.tail {c : Curve} {chain : UInt64} {r : Request} {rs : List Request}
    (h : Plain c chain (r :: rs)) : Plain c chain rs :=
  fun x hx s hs => ⟨(h x (List.mem_cons_of_mem _ hx) s hs).1,
    fun y hy => (h x (List.mem_cons_of_mem _ hx) s hs).2 y (List.mem_cons_of_mem _ hy)⟩

/-- Transactions of one sender have nonces above the sender's. -/
theorem executed_above (c : Curve) (chain : UInt64) (s : Address) (rs : List Request) : ∀ (w : World),
    Plain c chain rs → isPrecompile s = false → (∀ r ∈ rs, s ∉ Op.destroyedAll r.vm.ops) →
    w.nonce s + rs.length < 2 ^ 256 →
    ∀ tx ∈ executed c chain w rs, checkSignature c chain tx = some s → w.nonce s < tx.nonce.nat := by
  induction rs with
  | nil => intro w _ _ _ _ tx htx; cases htx
  | cons r rs ih =>
    intro w hP hp hd hlen tx htx hs
    unfold executed at htx
    simp only [List.length_cons] at hlen
    have hd' := fun x hx => hd x (List.mem_cons_of_mem r hx)
    cases hrun : runSigned c (r.env w) chain r.tx r.locks r.vm with
    | updates u =>
      simp only [hrun] at htx
      unfold runSigned at hrun
      cases hcs : checkSignature c chain r.tx with
      | none => simp [hcs] at hrun
      | some s' =>
        simp only [hcs] at hrun
        have hpl := hP r (List.mem_cons_self ..) s' hcs
        have hn := C56_nonce (r.env w) s' r.tx r.locks r.vm u hrun hpl.1 (hpl.2 r (List.mem_cons_self ..))
        by_cases hss : s = s'
        · subst hss
          have hn1 : r.tx.nonce.nat = w.nonce s + 1 := by
            rw [hn.1]; exact Nat.mod_eq_of_lt (by show w.nonce s + 1 < _; omega)
          have hn2 : (w.apply u).nonce s = w.nonce s + 1 := by rw [← hn1]; exact hn.2
          rcases List.mem_cons.mp htx with rfl | htx
          · omega
          · have := ih (w.apply u) hP.tail hp hd' (by omega) tx htx hs
            omega
        · have ho := C56_others (r.env w) s' r.tx r.locks r.vm u hrun hpl.1 s hss hp (hd r (List.mem_cons_self ..))
          have ho : (w.apply u).nonce s = w.nonce s := ho
          rcases List.mem_cons.mp htx with rfl | htx
          · rw [hcs] at hs; cases hs; exact absurd rfl hss
          · have := ih (w.apply u) hP.tail hp hd' (by omega) tx htx hs
            omega
    | _ => simp only [hrun] at htx; exact ih w hP.tail hp hd' (by omega) tx htx hs

/-- **C56.** Of the transactions which are executed, those of one sender have nonces which
increase, so no signed transaction is executed twice, in whatever order and however often
requests are made.  Taken for granted: no sender comes near 2^256 transactions. -/
theorem C56_never_twice (c : Curve) (chain : UInt64) (w : World) (rs : List Request)
    (hP : Plain c chain rs)
    (hlen : ∀ r ∈ rs, ∀ s, checkSignature c chain r.tx = some s → w.nonce s + rs.length < 2 ^ 256) :
    (executed c chain w rs).Pairwise (fun t t' => ∀ s, checkSignature c chain t = some s →
      checkSignature c chain t' = some s → t.nonce.nat < t'.nonce.nat) ∧
    (executed c chain w rs).Pairwise (· ≠ ·) := by
  have key : (executed c chain w rs).Pairwise (fun t t' => ∀ s, checkSignature c chain t = some s →
      checkSignature c chain t' = some s → t.nonce.nat < t'.nonce.nat) ∧
      ∀ t ∈ executed c chain w rs, ∃ s, checkSignature c chain t = some s := by
    have hlen : ∀ s, (∃ r ∈ rs, checkSignature c chain r.tx = some s) → w.nonce s + rs.length < 2 ^ 256 :=
      fun s ⟨r, hr, hs⟩ => hlen r hr s hs
    induction rs generalizing w with
    | nil => exact ⟨List.Pairwise.nil, fun t ht => absurd ht (by simp [executed])⟩
    | cons r rs ih =>
      unfold executed
      cases hrun : runSigned c (r.env w) chain r.tx r.locks r.vm with
      | updates u =>
        simp only
        have hrun' := hrun
        unfold runSigned at hrun
        cases hcs : checkSignature c chain r.tx with
        | none => simp [hcs] at hrun
        | some s' =>
          simp only [hcs] at hrun
          have hpl := hP r (List.mem_cons_self ..) s' hcs
          have hn := C56_nonce (r.env w) s' r.tx r.locks r.vm u hrun hpl.1 (hpl.2 r (List.mem_cons_self ..))
          have hl := hlen s' ⟨r, List.mem_cons_self .., hcs⟩
          simp only [List.length_cons] at hl
          have hn1 : r.tx.nonce.nat = w.nonce s' + 1 := by
            rw [hn.1]; exact Nat.mod_eq_of_lt (by show w.nonce s' + 1 < _; omega)
          have hn2 : (w.apply u).nonce s' = w.nonce s' + 1 := by rw [← hn1]; exact hn.2
          have hlen' : ∀ s, (∃ r ∈ rs, checkSignature c chain r.tx = some s) →
              (w.apply u).nonce s + rs.length < 2 ^ 256 := by
            intro s ⟨x, hx, hs⟩
            have h1 := hlen s ⟨x, List.mem_cons_of_mem _ hx, hs⟩
            simp only [List.length_cons] at h1
            by_cases hss : s = s'
            · subst hss; omega
            · have hpx := hP x (List.mem_cons_of_mem _ hx) s hs
              have ho : (w.apply u).nonce s = w.nonce s :=
                C56_others (r.env w) s' r.tx r.locks r.vm u hrun hpl.1 s hss hpx.1
                  (hpx.2 r (List.mem_cons_self ..))
              omega
          have := ih (w.apply u) hP.tail (fun x hx s hs => hlen' s ⟨x, hx, hs⟩) hlen'
          refine ⟨List.pairwise_cons.mpr ⟨fun t ht s h1 h2 => ?_, this.1⟩, fun t ht => ?_⟩
          · rw [hcs] at h1
            cases h1
            have := executed_above c chain s' rs (w.apply u) hP.tail hpl.1
              (fun x hx => hpl.2 x (List.mem_cons_of_mem _ hx)) (by omega) t ht h2
            omega
          · rcases List.mem_cons.mp ht with rfl | ht
            · exact ⟨s', hcs⟩
            · exact this.2 t ht
      | _ =>
        simp only
        refine ih w hP.tail (fun x hx s hs => ?_) (fun s ⟨x, hx, hs⟩ => ?_) <;>
          · have h1 := hlen s ⟨x, List.mem_cons_of_mem _ hx, hs⟩
            simp only [List.length_cons] at h1
            omega
  refine ⟨key.1, ?_⟩
  refine List.Pairwise.imp_of_mem ?_ key.1
  intro t t' ht _ h e
  obtain ⟨s, hs⟩ := key.2 t ht
  have := h s hs (e ▸ hs)
  rw [e] at this
  omega

end Verif.Evm
