import Verif.Evm.HostGood
/-! Helper lemmas for the host of the virtual machine: what executions preserve. -/
namespace Verif.Evm

open Verif.Serial

variable {env : Env} {M : Prop} {D : Address → Prop} {N : Address → Word} {cost : Nat} {h h' : Host}

theorem getAccount_pre (env : Env) (h : Host) (a : Address) (w : Bool) (hp : isPrecompile a = true) :
    h.getAccount env a w = (some .new, h) := by
  simp [Host.getAccount, hp]

/-- Fetching code or storage leaves the accounts alone. -/
structure SameAccounts (h h' : Host) : Prop where
  accounts : h'.accounts = h.accounts
  init : h'.init = h.init
  readonly : h'.readonly = h.readonly
  retry : h'.retry = false → h.retry = false
  locked : h'.lockedAccounts = h.lockedAccounts
  crashed : h'.crashed = h.crashed

theorem sameAccounts_storage (env : Env) (h : Host) (a : Address) (k : Word) (w : Bool) :
    SameAccounts h (h.getAccountStorage env a k w).2 := by
  unfold Host.getAccountStorage
  split
  · exact ⟨rfl, rfl, rfl, id, rfl, rfl⟩
  · dsimp only
    split <;> (repeat' split) <;>
      first
        | exact ⟨rfl, rfl, rfl, id, rfl, rfl⟩
        | exact ⟨rfl, rfl, rfl, fun h0 => absurd h0 (by simp), rfl, rfl⟩

theorem sameAccounts_code (env : Env) (h : Host) (a : Address) (w : Bool) :
    SameAccounts h (h.getAccountCode env a w).2 := by
  unfold Host.getAccountCode
  split
  · exact ⟨rfl, rfl, rfl, id, rfl, rfl⟩
  · dsimp only
    split <;> (repeat' split) <;>
      first
        | exact ⟨rfl, rfl, rfl, id, rfl, rfl⟩
        | exact ⟨rfl, rfl, rfl, fun h0 => absurd h0 (by simp), rfl, rfl⟩

theorem Good.same (hg : Good env M D N cost h) (hs : SameAccounts h h') : Good env M D N cost h' :=
  hg.congr hs.accounts hs.readonly hs.retry

theorem sub_nat {a b : Word} (h : b.nat ≤ a.nat) : (sub a b).nat = a.nat - b.nat := by
  rw [C51_sub]
  have := a.nat_lt
  rw [show a.nat + 2 ^ 256 - b.nat = (a.nat - b.nat) + 2 ^ 256 from by omega, Nat.add_mod_right,
    Nat.mod_eq_of_lt (by omega)]

theorem add_nat_le (a b : Word) : (add a b).nat ≤ a.nat + b.nat := by
  rw [C51_add]; exact Nat.mod_le _ _

/-- What is asked for is covered by the balance that counts. -/
theorem Good.covered (hg : Good env M D N cost h) (s : Address) (v : Word) (hv : v ≠ .zero)
    (hc : v.nat ≤ (h.getBalance env s).1.nat) (h0 : h.retry = false) :
    isPrecompile s = false ∧ v.nat ≤ (h.view env s).balance.nat := by
  have hpos := nat_pos_of_ne hv
  rw [getBalance_of] at hc
  cases hp : isPrecompile s with
  | true =>
    rw [getAccount_pre env h s false hp] at hc
    simp [Account.new, Account.ofStored, nat_zero] at hc
    omega
  | false =>
    have hr := hg.got s false
    generalize h.getAccount env s false = r at *
    refine ⟨rfl, ?_⟩
    cases h1 : r.1 with
    | none => simp [h1, nat_zero] at hc; omega
    | some acc =>
      simp [h1] at hc
      have h2 := (hr.retried hp).resolve_right (by rw [h1]; simp)
      have := hr.some (h2.trans h0) hp acc h1
      rw [← this]
      exact hc

/-- The account which `get_account` gave, or an empty one. -/
theorem GotGood.getD {a : Address} {w : Bool} {r : Option Account × Host}
    (hr : GotGood env M D N cost h a w r) (h0 : r.2.retry = false) (hp : isPrecompile a = false) :
    (r.1.getD .new).toStored = r.2.view env a := by
  rw [hr.view h0]
  cases h1 : r.1 with
  | none => rw [hr.none h0 hp h1]; rfl
  | some acc => exact hr.some h0 hp acc h1

theorem debit_nonce (acc : Account) (val : Word) (b : Bool) : (acc.debit val b).nonce = acc.nonce := by
  simp only [Account.debit]

theorem debit_balance (acc : Account) (val : Word) (b : Bool) :
    (acc.debit val b).balance = sub acc.balance val := by
  simp only [Account.debit]

theorem debit_destruct (acc : Account) (val : Word) (b : Bool) :
    (acc.debit val b).destruct = (acc.destruct || b) := by
  simp only [Account.debit]

theorem credit_nonce (acc : Account) (val : Word) : (acc.credit val).nonce = acc.nonce := by
  simp only [Account.credit]

theorem credit_balance (acc : Account) (val : Word) :
    (acc.credit val).balance = add acc.balance val := by
  simp only [Account.credit]

theorem credit_destruct (acc : Account) (val : Word) :
    (acc.credit val).destruct = acc.destruct := by
  simp only [Account.credit]

theorem Good.transfer (hg : Good env M D N cost h) (s d : Address) (v : Word)
    (hD : v = .zero → D s) (hv : v ≠ .zero → M → v.nat ≤ (h.getBalance env s).1.nat) :
    Good env M D N cost (h.transfer env s d v) := by
  unfold Host.transfer
  simp only [hg.readonly, Bool.not_false]
  have hr := hg.got s true
  have hpre := getAccount_pre env h s true
  generalize h.getAccount env s true = r at *
  cases h1 : r.1 with
  | none => exact hr.good.congr rfl rfl id
  | some acc =>
    simp only
    generalize hval : (if v = Word.zero then acc.balance else v) = val
    have hle : r.2.retry = false → M → val.nat ≤ acc.balance.nat := by
      intro h0 hM
      rw [← hval]
      by_cases hz : v = .zero
      · rw [if_pos hz]; exact Nat.le_refl _
      · rw [if_neg hz]
        have hc := hg.covered s v hz (hv hz hM) (hr.retry h0)
        rw [← hr.some h0 hc.1 acc h1] at hc
        exact hc.2
    have hbal : r.2.retry = false → acc.balance.nat ≤ (r.2.view env s).balance.nat := by
      intro h0
      rw [hr.view h0]
      cases hp : isPrecompile s with
      | false => rw [← hr.some h0 hp acc h1]; exact Nat.le_refl _
      | true =>
        have := hpre hp
        rw [this] at h1
        cases h1
        simp [Account.new, Account.ofStored, nat_zero]
    have hg1 := hr.good.write s (acc.debit val (decide (v = .zero)))
      (cost + val.nat)
      (fun h0 hp => by
        rw [debit_nonce]
        have := hr.some h0 hp acc h1
        rw [← (hr.good.fine h0).nonce s hp, hr.view h0, ← this])
      (fun h0 hd => by
        have hd : acc.destruct = true ∨ v = .zero := by simpa [debit_destruct] using hd
        exact hd.elim (hr.destroyed h0 acc h1) hD)
      (fun h0 hM => by
        rw [debit_balance]
        have := hle h0 hM
        have := hbal h0
        rw [sub_nat (hle h0 hM)]
        omega)
    generalize r.2.cache s (acc.debit val (decide (v = .zero))) true = h1 at *
    have hr' := hg1.got d true
    have hpre' := getAccount_pre env h1 d true
    generalize h1.getAccount env d true = r' at *
    refine hr'.good.write d _ cost (fun h0 hp => ?_) (fun h0 hd => ?_) (fun h0 _ => ?_)
    · rw [credit_nonce, hr'.getD h0 hp]
      exact (hr'.good.fine h0).nonce d hp
    · rw [credit_destruct] at hd
      cases h2 : r'.1 with
      | none => rw [h2] at hd; simp [Account.new, Account.ofStored] at hd
      | some c => rw [h2] at hd; exact hr'.destroyed h0 c h2 hd
    · rw [credit_balance]
      have ha := add_nat_le (r'.1.getD .new).balance val
      have : (r'.1.getD .new).balance.nat ≤ (r'.2.view env d).balance.nat := by
        cases hp : isPrecompile d with
        | false => rw [hr'.getD h0 hp]; exact Nat.le_refl _
        | true => rw [hpre' hp]; simp [Account.new, Account.ofStored, nat_zero]
      omega

theorem Good.deploy (hg : Good env M D N cost h) (a : Address) (out : Bytes) :
    Good env M D N cost (h.deploy env a out) := by
  unfold Host.deploy
  simp only [hg.readonly, Bool.not_false]
  have hr := hg.got a true
  have hpre := getAccount_pre env h a true
  generalize h.getAccount env a true = r at *
  have hg1 := hr.good.write a (r.1.getD .new) cost
    (fun h0 hp => by rw [hr.getD h0 hp]; exact (hr.good.fine h0).nonce a hp)
    (fun h0 hd => by
      cases h1 : r.1 with
      | none => rw [h1] at hd; simp [Account.new, Account.ofStored] at hd
      | some acc => rw [h1] at hd; exact hr.destroyed h0 acc h1 hd)
    (fun h0 _ => by
      have : (r.1.getD .new).balance.nat ≤ (r.2.view env a).balance.nat := by
        cases hp : isPrecompile a with
        | false => rw [hr.getD h0 hp]; exact Nat.le_refl _
        | true => rw [hpre hp]; simp [Account.new, Account.ofStored, nat_zero]
      omega)
  generalize r.2.cache a (r.1.getD .new) true = h1 at *
  have hs := sameAccounts_code env h1 a true
  exact hg1.congr hs.accounts hs.readonly hs.retry

/-- Replacing an entry by one which says the same. -/
theorem Fine.replace (hf : Fine env M D N cost h) (a : Address) (acc acc' : Account) (l : Bool)
    (he : h.accounts a = some (some acc, l)) (hs : acc'.toStored = acc.toStored)
    (hd : acc'.destruct = acc.destruct) :
    Fine env M D N cost (h.cache a acc' l) := by
  cases l with
  | true =>
    refine hf.write a acc' cost (fun hp => ?_) (fun h0 => ?_) ?_
    · have := hf.nonce a hp
      simp only [Host.view, Host.written, he] at this
      rw [← this, hs]
    · exact hf.destroyed a acc true he (hd ▸ h0)
    · intro _
      simp only [Host.view, Host.written, he]
      rw [hs]
      exact Nat.le_refl _
  | false =>
    have hw : (h.cache a acc' false).written = h.written := by
      funext x
      by_cases hx : x = a
      · simp [Host.cache, Host.written, put, hx, he]
      · simp [Host.cache, Host.written, put, hx]
    have hv : Host.view env (h.cache a acc' false) = h.view env := by
      funext x
      simp [Host.view, hw]
    refine ⟨fun x c hp he' => ?_, fun x hp he' => ?_, by rw [hv]; exact hf.nonce, fun x c l hx' hd' => ?_,
      by rw [hw, hv]; exact hf.money⟩
    · by_cases hx : x = a
      · subst hx
        simp [Host.cache, put] at he'
        rw [← he', ← hf.read x _ hp he]
        simp [hs]
      · exact hf.read x c hp (by simpa [Host.cache, put, hx] using he')
    · by_cases hx : x = a
      · simp [Host.cache, put, hx] at he'
      · exact hf.missing x hp (by simpa [Host.cache, put, hx] using he')
    · by_cases hx : x = a
      · subst hx
        simp [Host.cache, put] at hx'
        rw [← hx'.1, hd] at hd'
        exact hf.destroyed x acc _ he hd'
      · exact hf.destroyed x c l (by simpa [Host.cache, put, hx] using hx') hd'

/-- An entry for an address of a precompiled contract is set to an empty account. -/
theorem Fine.empty (hf : Fine env M D N cost h) (a : Address) (acc : Account) (l : Bool)
    (hp : isPrecompile a = true) (hl : h.accounts a = none ∨ ∃ c, h.accounts a = some (c, l))
    (hn : h.accounts a = none → l = false)
    (hb : acc.balance = .zero) (hd : acc.destruct = false) :
    Fine env M D N cost (h.cache a acc l) := by
  cases l with
  | true =>
    refine hf.write a acc cost (fun hp' => absurd hp' (by simp [hp])) (fun h0 => absurd h0 (by simp [hd])) ?_
    intro _
    rw [hb, nat_zero]
    omega
  | false =>
    have hw : (h.cache a acc false).written = h.written := by
      funext x
      by_cases hx : x = a
      · rcases hl with he | ⟨c, he⟩ <;> simp [Host.cache, Host.written, put, hx, he]
      · simp [Host.cache, Host.written, put, hx]
    have hv : Host.view env (h.cache a acc false) = h.view env := by
      funext x
      simp [Host.view, hw]
    refine ⟨fun x c hp' he' => ?_, fun x hp' he' => ?_, by rw [hv]; exact hf.nonce, fun x c l hx' hd' => ?_,
      by rw [hw, hv]; exact hf.money⟩
    · by_cases hx : x = a
      · subst hx; rw [hp] at hp'; cases hp'
      · exact hf.read x c hp' (by simpa [Host.cache, put, hx] using he')
    · by_cases hx : x = a
      · simp [Host.cache, put, hx] at he'
      · exact hf.missing x hp' (by simpa [Host.cache, put, hx] using he')
    · by_cases hx : x = a
      · subst hx
        simp [Host.cache, put] at hx'
        rw [← hx'.1, hd] at hd'
        cases hd'
      · exact hf.destroyed x c l (by simpa [Host.cache, put, hx] using hx') hd'

/-- What `set_storage` finds. -/
theorem Good.storageAccount (hg : Good env M D N cost h) (a : Address) (k : Word) :
    Good env M D N cost (h.storageAccount env a k).2.1 ∧
      ((h.storageAccount env a k).2.1.retry = false →
        (isPrecompile a = false → ∃ l, (h.storageAccount env a k).2.1.accounts a =
          some (some (h.storageAccount env a k).1, l)) ∧
        (isPrecompile a = true → (h.storageAccount env a k).1 = .new)) := by
  unfold Host.storageAccount
  have hr := hg.got a false
  have hpre := getAccount_pre env h a false
  generalize h.getAccount env a false = r at *
  cases h1 : r.1 with
  | some acc =>
    simp only [h1]
    refine ⟨hr.good, fun h0 => ⟨fun hp => ?_, fun hp => ?_⟩⟩
    · obtain ⟨l, he, _⟩ := hr.entry h0 hp
      exact ⟨l, by rw [he, h1]⟩
    · rw [hpre hp] at h1
      cases h1
      rfl
  | none =>
    have hp : isPrecompile a = false := by
      cases hp : isPrecompile a with
      | false => rfl
      | true => rw [hpre hp] at h1; cases h1
    simp only [h1, hr.good.readonly, Bool.false_eq_true, if_false]
    have hr2 := hr.good.got a true
    generalize r.2.getAccount env a true = r2 at *
    refine ⟨?_, fun _ => ⟨fun _ => ⟨_, put_same _ _ _⟩, fun hp' => absurd hp' (by simp [hp])⟩⟩
    have hview : r2.2.retry = false → r2.2.view env a = .orEmpty none := by
      intro h0
      have h1' := hr2.retry h0
      rw [hr2.view h0, hr.view h1', hr.none h1' hp h1]
    rw [show (!r2.2.readonly) = true from by rw [hr2.good.readonly]; rfl]
    refine hr2.good.write a _ cost (fun h0 _ => ?_) (fun _ hd => ?_) (fun h0 _ => ?_)
    · rw [← (hr2.good.fine h0).nonce a hp, hview h0]
      rfl
    · simp [Account.new, Account.ofStored] at hd
    · rw [hview h0]
      exact Nat.le_refl _

theorem Good.setStorage (hg : Good env M D N cost h) (a : Address) (k v : Word) :
    Good env M D N cost (h.setStorage env a k v) := by
  unfold Host.setStorage
  have hr := hg.storageAccount a k
  generalize h.storageAccount env a k = r at *
  obtain ⟨acc, h1, added⟩ := r
  simp only at *
  have hs := sameAccounts_storage env h1 a k (!h1.readonly)
  generalize h1.getAccountStorage env a k (!h1.readonly) = r2 at *
  have hg2 := hr.1.same hs
  generalize hacc : (if (added || decide (r2.1.getD Word.zero = v) || acc.modified.contains k || decide (v = Word.zero)) = true
    then acc else { acc with modified := k :: acc.modified }) = acc'
  have hst : acc'.toStored = acc.toStored := by rw [← hacc]; split <;> rfl
  have hde : acc'.destruct = acc.destruct := by rw [← hacc]; split <;> rfl
  have : Good env M D N cost (r2.2.cache a acc' (((r2.2.accounts a).map (·.2)).getD false)) := by
    refine ⟨hg2.readonly, fun h0 => ?_⟩
    have hk := hr.2 (hs.retry h0)
    cases hp : isPrecompile a with
    | false =>
      obtain ⟨l, he⟩ := hk.1 hp
      rw [← hs.accounts] at he
      rw [he]
      exact (hg2.fine h0).replace a acc acc' l he hst hde
    | true =>
      have hn := hk.2 hp
      refine (hg2.fine h0).empty a acc' _ hp ?_ (fun hnone => by rw [hnone]; rfl) ?_ ?_
      · cases he : r2.2.accounts a with
        | none => exact .inl rfl
        | some e => exact .inr ⟨e.1, rfl⟩
      · rw [hst, hn]; rfl
      · rw [hde, hn]; rfl
  exact this.congr rfl rfl id

/-- Whatever the virtual machine asks, balances and nonces stay as they should. -/
theorem closed_good (env : Env) (M : Prop) (D : Address → Prop) (N : Address → Word) (cost : Nat) :
    Closed env M D (Good env M D N cost) where
  getAccount _ a hg := (hg.got a false).good
  getStorage h a k hg := hg.same (sameAccounts_storage env h a k false)
  getCode h a hg := hg.same (sameAccounts_code env h a false)
  setStorage _ a k v hg := hg.setStorage a k v
  transfer _ s d v hg hz hc := hg.transfer s d v (fun h0 => absurd h0 hz) (fun _ hM => hc hM)
  destroy _ s d hD hg := hg.transfer s d .zero (fun _ => hD) (fun h0 _ => absurd rfl h0)
  deploy _ a out hg := hg.deploy a out
  log _ _ hg := hg.congr rfl rfl id
  success _ _ hg := hg.congr rfl rfl id

end Verif.Evm
