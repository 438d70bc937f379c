import Verif.Evm.HostLocks
/-!
# Executing Ethereum transactions: locks, new contracts, crashes (C80, C81, C83)
-/
namespace Verif.Evm

open Verif.Serial

/-! ### Every update is locked for writing -/

/-- What is cached for writing is locked for writing. -/
structure Held (h : Host) : Prop where
  readonly : h.readonly = false
  accounts : h.retry = false → ∀ a e, h.accounts a = some (e, true) → a ∈ h.lockedAccounts ∨ isPrecompile a = true
  storage : h.retry = false → ∀ a k e, h.storage a k = some (e, true) →
    (a, k) ∈ h.lockedStorage ∨ isPrecompile a = true
  code : h.retry = false → ∀ a e, h.code a = some (e, true) → a ∈ h.lockedCode ∨ isPrecompile a = true
  init : ∀ a e, h.init a = some (e, true) → a ∈ h.lockedAccounts ∨ isPrecompile a = true

theorem Held.got {h : Host} (hP : Held h) (env : Env) (a : Address) (w : Bool) :
    Held (h.getAccount env a w).2 ∧
      ((h.getAccount env a w).2.retry = false → w = true →
        a ∈ (h.getAccount env a w).2.lockedAccounts ∨ isPrecompile a = true) := by
  have hg := Verif.Evm.got env h a w
  generalize h.getAccount env a w = r at *
  cases hg with
  | pre hp => exact ⟨hP, fun _ _ => .inr hp⟩
  | hit hp acc locked he hw => exact ⟨hP, fun h0 h1 => hP.accounts h0 a acc (by rw [he, hw h1])⟩
  | fail =>
    exact ⟨⟨hP.1, fun h0 => absurd h0 (by simp), fun h0 => absurd h0 (by simp), fun h0 => absurd h0 (by simp),
      hP.5⟩, fun h0 => absurd h0 (by simp)⟩
  | fetch hp he =>
    have mono : ∀ x, x ∈ h.lockedAccounts → x ∈ (if w then a :: h.lockedAccounts else h.lockedAccounts) := by
      intro x hx
      split
      · exact List.mem_cons_of_mem _ hx
      · exact hx
    have hin : w = true → a ∈ (if w then a :: h.lockedAccounts else h.lockedAccounts) := by
      intro h0; rw [h0]; exact List.mem_cons_self ..
    refine ⟨⟨hP.1, fun h0 x e hx => ?_, hP.3, hP.4, fun x e hx => (hP.5 x e hx).imp (mono x) id⟩,
      fun _ h0 => .inl (hin h0)⟩
    rcases put_cases hx with ⟨rfl, hx⟩ | hx
    · cases hx
      exact .inl (hin rfl)
    · exact (hP.2 h0 x e hx).imp (mono x) id

theorem Held.cache {h : Host} (hP : Held h) (a : Address) (acc : Account) (w : Bool)
    (hw : h.retry = false → w = true → a ∈ h.lockedAccounts ∨ isPrecompile a = true) : Held (h.cache a acc w) := by
  refine ⟨hP.1, fun h0 x e hx => ?_, hP.3, hP.4, hP.5⟩
  rcases put_cases hx with ⟨hxa, hb⟩ | hx
  · cases hb
    rw [hxa]
    exact hw h0 rfl
  · exact hP.2 h0 x e hx

theorem Held.gotStorage {h : Host} (hP : Held h) (env : Env) (a : Address) (k : Word) (w : Bool) :
    Held (h.getAccountStorage env a k w).2 ∧
      ((h.getAccountStorage env a k w).2.retry = false → w = true →
        (a, k) ∈ (h.getAccountStorage env a k w).2.lockedStorage ∨ isPrecompile a = true) := by
  unfold Host.getAccountStorage
  by_cases hp : isPrecompile a = true
  · rw [if_pos hp]; exact ⟨hP, fun _ _ => .inr hp⟩
  rw [if_neg hp]
  dsimp only
  generalize hf : (if env.fails h.requests = true then
          ((none : Option Word), { h with retry := true, requests := h.requests + 1 })
        else (env.world.storage a k, { h with
          storage := put h.storage a (put (h.storage a) k (some (env.world.storage a k, w)))
          lockedStorage := if w = true then (a, k) :: h.lockedStorage else h.lockedStorage
          requests := h.requests + 1 })) = fetch
  have hfetch : Held fetch.2 ∧ (fetch.2.retry = false → w = true →
      (a, k) ∈ fetch.2.lockedStorage ∨ isPrecompile a = true) := by
    rw [← hf]
    split
    · exact ⟨⟨hP.1, fun h0 => absurd h0 (by simp), fun h0 => absurd h0 (by simp), fun h0 => absurd h0 (by simp),
        hP.5⟩, fun h0 => absurd h0 (by simp)⟩
    · have mono : ∀ x, x ∈ h.lockedStorage → x ∈ (if w = true then (a, k) :: h.lockedStorage else h.lockedStorage) := by
        intro x hx
        split
        · exact List.mem_cons_of_mem _ hx
        · exact hx
      have hin : w = true → (a, k) ∈ (if w = true then (a, k) :: h.lockedStorage else h.lockedStorage) := by
        intro h0; rw [if_pos h0]; exact List.mem_cons_self ..
      refine ⟨⟨hP.1, hP.2, fun h0 x j e hx => ?_, hP.4, hP.5⟩, fun _ h0 => .inl (hin h0)⟩
      have hx : put h.storage a (put (h.storage a) k (some (env.world.storage a k, w))) x j = some (e, true) := hx
      by_cases hxa : x = a
      · subst hxa
        rw [put_same] at hx
        rcases put_cases hx with ⟨rfl, hx⟩ | hx
        · cases hx; exact .inl (hin rfl)
        · exact (hP.3 h0 x j e hx).imp (mono _) id
      · rw [put_other _ _ hxa] at hx
        exact (hP.3 h0 x j e hx).imp (mono _) id
  cases he : h.storage a k with
  | none => exact hfetch
  | some e =>
    obtain ⟨v, l⟩ := e
    dsimp only
    split
    · rename_i hl
      refine ⟨hP, fun h0 h1 => hP.3 h0 a k v ?_⟩
      subst h1
      rw [he]
      simpa using hl
    · exact hfetch

theorem Held.gotCode {h : Host} (hP : Held h) (env : Env) (a : Address) (w : Bool) :
    Held (h.getAccountCode env a w).2 ∧
      ((h.getAccountCode env a w).2.retry = false → w = true →
        a ∈ (h.getAccountCode env a w).2.lockedCode ∨ isPrecompile a = true) := by
  unfold Host.getAccountCode
  by_cases hp : isPrecompile a = true
  · rw [if_pos hp]; exact ⟨hP, fun _ _ => .inr hp⟩
  rw [if_neg hp]
  dsimp only
  generalize hf : (if env.fails h.requests = true then
          ((none : Option Bytes), { h with retry := true, requests := h.requests + 1 })
        else (env.world.code a, { h with
          code := put h.code a (some (env.world.code a, w))
          lockedCode := if w = true then a :: h.lockedCode else h.lockedCode
          requests := h.requests + 1 })) = fetch
  have hfetch : Held fetch.2 ∧ (fetch.2.retry = false → w = true →
      a ∈ fetch.2.lockedCode ∨ isPrecompile a = true) := by
    rw [← hf]
    split
    · exact ⟨⟨hP.1, fun h0 => absurd h0 (by simp), fun h0 => absurd h0 (by simp), fun h0 => absurd h0 (by simp),
        hP.5⟩, fun h0 => absurd h0 (by simp)⟩
    · have mono : ∀ x, x ∈ h.lockedCode → x ∈ (if w = true then a :: h.lockedCode else h.lockedCode) := by
        intro x hx
        split
        · exact List.mem_cons_of_mem _ hx
        · exact hx
      have hin : w = true → a ∈ (if w = true then a :: h.lockedCode else h.lockedCode) := by
        intro h0; rw [if_pos h0]; exact List.mem_cons_self ..
      refine ⟨⟨hP.1, hP.2, hP.3, fun h0 x e hx => ?_, hP.5⟩, fun _ h0 => .inl (hin h0)⟩
      rcases put_cases hx with ⟨rfl, hx⟩ | hx
      · cases hx; exact .inl (hin rfl)
      · exact (hP.4 h0 x e hx).imp (mono _) id
  cases he : h.code a with
  | none => exact hfetch
  | some e =>
    obtain ⟨v, l⟩ := e
    dsimp only
    split
    · rename_i hl
      refine ⟨hP, fun h0 h1 => hP.4 h0 a v ?_⟩
      subst h1
      rw [he]
      simpa using hl
    · exact hfetch

theorem Held.transfer {h : Host} (hP : Held h) (env : Env) (s d : Address) (v : Word) :
    Held (h.transfer env s d v) := by
  unfold Host.transfer
  dsimp only
  have hr := hP.got env s (!h.readonly)
  generalize h.getAccount env s (!h.readonly) = r at *
  cases h1 : r.1 with
  | none => exact ⟨hr.1.1, hr.1.2, hr.1.3, hr.1.4, hr.1.5⟩
  | some acc =>
    dsimp only
    have h2 := (hr.1.cache s (acc.debit (if v = Word.zero then acc.balance else v) (decide (v = .zero))) _
      hr.2).got env d (!h.readonly)
    exact h2.1.cache d _ _ h2.2

theorem Held.deploy {h : Host} (hP : Held h) (env : Env) (a : Address) (out : Bytes) :
    Held (h.deploy env a out) := by
  unfold Host.deploy
  dsimp only
  have hr := hP.got env a (!h.readonly)
  generalize h.getAccount env a (!h.readonly) = r at *
  have h2 := (hr.1.cache a (r.1.getD .new) _ hr.2).gotCode env a (!h.readonly)
  generalize Host.getAccountCode env (r.2.cache a (r.1.getD .new) (!h.readonly)) a (!h.readonly) = r2 at *
  refine ⟨h2.1.1, h2.1.2, h2.1.3, fun h0 x e hx => ?_, h2.1.5⟩
  rcases put_cases hx with ⟨rfl, hx⟩ | hx
  · exact h2.2 h0 (by simp [hP.readonly])
  · exact h2.1.4 h0 x e hx

theorem Held.setStorage {h : Host} (hP : Held h) (env : Env) (a : Address) (k v : Word) :
    Held (h.setStorage env a k v) := by
  unfold Host.setStorage
  have hacc : Held (h.storageAccount env a k).2.1 := by
    unfold Host.storageAccount
    dsimp only
    have hr := (hP.got env a false).1
    generalize h.getAccount env a false = r at *
    cases h1 : r.1 with
    | some acc => exact hr
    | none =>
      dsimp only
      rw [if_neg (by simp [hr.readonly])]
      have h2 := hr.got env a true
      exact h2.1.cache a _ _ (fun h0 _ => h2.2 h0 rfl)
  generalize h.storageAccount env a k = r at *
  obtain ⟨acc, h1, added⟩ := r
  dsimp only at *
  have hs := hacc.gotStorage env a k (!h1.readonly)
  generalize h1.getAccountStorage env a k (!h1.readonly) = r2 at *
  generalize (if (added || decide (r2.1.getD Word.zero = v) || acc.modified.contains k || decide (v = Word.zero)) = true
    then acc else { acc with modified := k :: acc.modified }) = acc'
  have hc := hs.1.cache a acc' (((r2.2.accounts a).map (·.2)).getD false) (fun h0 h1 => by
    cases he : r2.2.accounts a with
    | none => simp [he] at h1
    | some e => simp [he] at h1; exact hs.1.2 h0 a e.1 (by rw [he, ← h1]))
  refine ⟨hc.1, hc.2, fun h0 x j e hx => ?_, hc.4, hc.5⟩
  have hx : put r2.2.storage a (put (r2.2.storage a) k (some (some v, !r2.2.readonly))) x j = some (e, true) := hx
  by_cases hxa : x = a
  · subst hxa
    rw [put_same] at hx
    rcases put_cases hx with ⟨rfl, hx⟩ | hx
    · exact hs.2 h0 (by simp [hacc.readonly])
    · exact hs.1.3 h0 x j e hx
  · rw [put_other _ _ hxa] at hx
    exact hs.1.3 h0 x j e hx

theorem held_closed (env : Env) (M : Prop) (D : Address → Prop) : Closed env M D Held where
  getAccount _ a hP := (hP.got env a false).1
  getStorage _ a k hP := (hP.gotStorage env a k false).1
  getCode _ a hP := (hP.gotCode env a false).1
  setStorage _ a k v hP := hP.setStorage env a k v
  transfer _ s d v hP _ _ := hP.transfer env s d v
  destroy _ s d _ hP := hP.transfer env s d .zero
  deploy _ a out hP := hP.deploy env a out
  log _ _ hP := ⟨hP.1, hP.2, hP.3, hP.4, hP.5⟩
  success _ _ hP := ⟨hP.1, hP.2, hP.3, hP.4, hP.5⟩

/-- **C83, in part**: what a transaction writes - accounts, storage, code - it has locked
for writing.  Missing: the addresses of precompiled contracts
(`C83_precompile_violated`). -/
theorem C83_locked_partial (env : Env) (sender : Address) (tx : EvmTx) (locks : Bool × Bool) (vm : Vm)
    (u : Updates) (h : runTransaction env sender tx locks vm = .updates u) :
    (∀ a, (u.accounts a).isSome → a ∈ u.lockedAccounts ∨ isPrecompile a = true) ∧
    (∀ a k, (u.storage a k).isSome → (a, k) ∈ u.lockedStorage ∨ isPrecompile a = true) ∧
    (∀ a, (u.code a).isSome → a ∈ u.lockedCode ∨ isPrecompile a = true) := by
  obtain ⟨_, _, _, he⟩ := runTransaction_exec h (by simp) (by simp)
  obtain ⟨h1, h2, hr, _, _, hh1, hh2, hc2, hu⟩ := exec_updates he
  have hstart : ∀ a e, (startHost env.world sender tx).accounts a = some (e, true) →
      a ∈ (startHost env.world sender tx).lockedAccounts ∨ isPrecompile a = true := by
    intro a e ha
    rw [startHost_accounts] at ha
    rcases put_cases ha with ⟨rfl, _⟩ | ha
    · exact .inl (List.mem_singleton.mpr rfl)
    · cases ha
  have h0 : Held (startHost env.world sender tx) :=
    ⟨rfl, fun _ => hstart, fun _ _ _ _ h => absurd h (by simp [startHost, Host.insertAccount, Host.new]),
      fun _ _ _ h => absurd h (by simp [startHost, Host.insertAccount, Host.new]), hstart⟩
  have hP := (held_closed env False (fun _ => True)).run
    (fun h _ _ _ hP => ⟨hP.1, hP.2, hP.3, hP.4, hP.5⟩) (startHost env.world sender tx) (makeMsg sender tx false) vm
    (fun _ _ => trivial) h0 (fun _ hM => hM.elim)
  have hP1 : Held h1 ∧ h1.retry = false := by
    rw [hh1]
    split
    · exact ⟨⟨hP.1, fun _ => hP.5, hP.3, hP.4, hP.5⟩, hr⟩
    · exact ⟨hP, hr⟩
  have hP2 : Held h2 ∧ (h2.retry = false ∨ h2.crashed = true) := by
    rw [hh2]
    unfold Host.finalize
    rw [if_neg (by simp [hP1.1.readonly])]
    dsimp only
    have hg := hP1.1.got env (makeMsg sender tx false).sender true
    have hgot := got env h1 (makeMsg sender tx false).sender true
    generalize h1.getAccount env (makeMsg sender tx false).sender true = r at *
    cases hr1 : r.1 with
    | none => exact ⟨⟨hg.1.1, hg.1.2, hg.1.3, hg.1.4, hg.1.5⟩, .inr rfl⟩
    | some acc =>
      refine ⟨hg.1.cache _ _ _ hg.2, .inl ?_⟩
      show r.2.retry = false
      cases hgot with
      | pre => exact hP1.2
      | hit => exact hP1.2
      | fail => cases hr1
      | fetch => exact hP1.2
  have hr2 : h2.retry = false := hP2.2.resolve_right (by rw [hc2]; simp)
  subst hu
  refine ⟨fun a ha => ?_, fun a k ha => ?_, fun a ha => ?_⟩
  · unfold Host.updates at ha
    dsimp only at ha
    rcases hx : h2.accounts a with _ | ⟨_ | acc, _ | _⟩ <;> simp [hx] at ha
    exact hP2.1.2 hr2 a _ hx
  · unfold Host.updates at ha
    dsimp only at ha
    rcases hx : h2.storage a k with _ | ⟨_ | acc, _ | _⟩ <;> simp [hx] at ha
    exact hP2.1.3 hr2 a k _ hx
  · unfold Host.updates at ha
    dsimp only at ha
    rcases hx : h2.code a with _ | ⟨_ | acc, _ | _⟩ <;> simp [hx] at ha
    exact hP2.1.4 hr2 a _ hx

/-- **C83.** Which addresses are taken for precompiled contracts: those of eighteen zeroes,
any byte, and a byte other than zero. -/
theorem C83_precompiles (a : Address) :
    isPrecompile a = true ↔ ∃ x y : UInt8, y ≠ 0 ∧ a.val = List.replicate 18 0 ++ [x, y] := by
  obtain ⟨l, hl⟩ := a
  unfold isPrecompile
  rw [Bool.and_eq_true, List.all_eq_true]
  constructor
  · rintro ⟨h1, h2⟩
    have hd : (l.drop 18).length = 2 := by simp [hl]
    obtain ⟨x, y, hxy⟩ : ∃ x y, l.drop 18 = [x, y] := by
      match l.drop 18, hd with
      | [x, y], _ => exact ⟨x, y, rfl⟩
    have ht : l.take 18 = List.replicate 18 0 :=
      List.eq_replicate_iff.mpr ⟨by simp [hl], fun b hb => by simpa using h1 b hb⟩
    have e : l = List.replicate 18 0 ++ [x, y] := by rw [← List.take_append_drop 18 l, ht, hxy]
    refine ⟨x, y, ?_, e⟩
    subst e
    rintro rfl
    simp at h2
  · rintro ⟨x, y, hy, e⟩
    simp only at e
    subst e
    constructor
    · intro b hb
      simp only [List.take_left' (List.length_replicate ..)] at hb
      simp [List.eq_of_mem_replicate hb]
    · simpa using hy

/-- The address of the first precompiled contract. -/
def precompile1 : Address := ⟨List.replicate 19 0 ++ [1], by simp⟩

/-- **C83 is violated**: a payment to the address of a precompiled contract writes its
account, for which there is no lock.  The broker refuses to commit (`commit_hazard`,
src/parsec/broker/impl.cpp:412-423), so the transaction fails again and again. -/
theorem C83_precompile_violated :
    ∃ u, runTransaction (sampleEnv (num 100000)) (addr 1)
        (sampleTx (some precompile1) (num 100) (num 22000) (num 2)) (true, true)
        { ops := [], status := .success, gasLeft := 1000, output := [] } = .updates u ∧
      (u.accounts precompile1).isSome = true ∧ precompile1 ∉ u.lockedAccounts := by
  obtain ⟨u, hu, hb⟩ := updates_of (a := runTransaction (sampleEnv (num 100000)) (addr 1)
        (sampleTx (some precompile1) (num 100) (num 22000) (num 2)) (true, true)
        { ops := [], status := .success, gasLeft := 1000, output := [] })
    (f := fun u => ((u.accounts precompile1).isSome, u.lockedAccounts.contains precompile1))
    (v := (true, false)) (by decide +kernel)
  simp only [Prod.mk.injEq] at hb
  refine ⟨u, hu, hb.1, fun hm => ?_⟩
  have : u.lockedAccounts.contains precompile1 = true := List.contains_iff_mem.mpr hm
  rw [hb.2] at this
  cases this

/-- The keys of an execution; `hash` stands for the identifier of a transaction
(`tx_id`), the hash of a ticket number and the keys of logs, which have 32 bytes. -/
inductive Key where
  | account (a : Address)
  | code (a : Address)
  | storage (a : Address) (k : Word)
  | hash (w : Word)

/-- How a key is written, src/parsec/agent/runners/evm/format.cpp:22-26, 33-36, 115-130. -/
def Key.bytes : Key → Bytes
  | .account a => a.val
  | .code a => a.val ++ [0]
  | .storage a k => a.val ++ k.val
  | .hash w => w.val

/-- **C83.** Different things have different keys. -/
theorem C83_keys (x y : Key) (h : x.bytes = y.bytes) : x = y := by
  have la : ∀ a : Address, a.val.length = 20 := fun a => a.2
  have lw : ∀ w : Word, w.val.length = 32 := fun w => w.2
  have hl := congrArg List.length h
  cases x <;> cases y <;> simp only [Key.bytes, List.length_append, la, lw, List.length_cons, List.length_nil] at hl h <;>
    first
      | omega
      | skip
  · exact congrArg Key.account (Subtype.ext h)
  · exact congrArg Key.code (Subtype.ext (List.append_inj_left h (by rw [la, la])))
  · rw [Subtype.ext (List.append_inj_left h (by rw [la, la])), Subtype.ext (List.append_inj_right h (by rw [la, la]))]
  · exact congrArg Key.hash (Subtype.ext h)

/-! ### New contracts -/

/-- **C80, in part**: what a transaction without a recipient creates has the address made
from its sender and its nonce, and by `C56_never_twice` no two transactions have both in
common.  Missing: contracts which contracts create (`C80_replaced_violated`). -/
theorem C80_address_partial (env : Env) (sender : Address) (tx : EvmTx) (locks : Bool × Bool) (vm : Vm)
    (u : Updates) (h : runTransaction env sender tx locks vm = .updates u)
    (hp : isPrecompile sender = false) (hto : tx.to = none) :
    u.receipt.created = some (env.createAddress sender tx.nonce) := by
  obtain ⟨_, hn, _, he⟩ := runTransaction_exec h (by simp) (by simp)
  obtain ⟨h1, h2, hr, _, _, hh1, hh2, hc2, hu⟩ := exec_updates he
  have hcl : ∀ c, Simple env (fun h => h.created = c) := fun c =>
    { getAccount := fun h a w _ hP => by
        have := got env h a w
        generalize h.getAccount env a w = r at *
        cases this <;> exact hP
      getStorage := fun h a k w _ hP => by
        unfold Host.getAccountStorage
        split
        · exact hP
        · dsimp only
          split <;> (repeat' split) <;> exact hP
      getCode := fun h a w _ hP => by
        unfold Host.getAccountCode
        split
        · exact hP
        · dsimp only
          split <;> (repeat' split) <;> exact hP
      cache := fun _ _ _ _ _ hP => hP
      setStorage := fun _ _ _ _ hP => hP
      setCode := fun _ _ _ hP => hP
      crash := fun _ hP => hP
      receipt := fun _ _ _ hP => hP }
  have hrun : ((startHost env.world sender tx).run env (makeMsg sender tx false) vm).1.created =
      some (env.createAddress sender tx.nonce) := by
    unfold Host.run
    have hrec : (makeMsg sender tx false).recipient = none := hto
    rw [hrec]
    dsimp only
    unfold Host.beginCreate
    have hs : (makeMsg sender tx false).sender = sender := rfl
    rw [hs, startHost_get sender tx hp]
    dsimp only
    rw [startAccount_nonce, hn]
    have hops := ((hcl (some (env.createAddress sender tx.nonce))).closed (M := False) (D := fun _ => True)).ops
    generalize (if (makeMsg sender tx false).value = Word.zero then startHost env.world sender tx else
      (startHost env.world sender tx).transfer env sender (newAddress env none sender tx.nonce)
        (makeMsg sender tx false).value) = h0
    have h1 := hops { h0 with created := some (newAddress env none sender tx.nonce) } vm.ops
      (fun _ _ => trivial) rfl
    split
    · exact (hcl _).deploy _ _ _ h1
    · exact h1
  have hc1 : h1.created = some (env.createAddress sender tx.nonce) := by
    rw [hh1]
    split
    · exact hrun
    · exact hrun
  have hc2 : h2.created = some (env.createAddress sender tx.nonce) := by
    rw [hh2]
    unfold Host.finalize
    split
    · exact hc1
    · dsimp only
      have := got env h1 (makeMsg sender tx false).sender true
      generalize h1.getAccount env (makeMsg sender tx false).sender true = r at *
      split
      · cases this <;> exact hc1
      · cases this <;> exact hc1
  rw [hu]
  exact hc2

/-- A creation. -/
example : ∃ u, runTransaction (sampleEnv (num 1000000)) (addr 1)
      (sampleTx none (num 100) (num 60000) (num 2)) (true, true)
      { ops := [], status := .success, gasLeft := 1000, output := [0x60] } = .updates u ∧
    (u.receipt.created, u.code (addr 9)) = (some (addr 9), some [0x60]) :=
  updates_of (f := fun u => (u.receipt.created, u.code (addr 9))) (by decide +kernel)

/-- A transaction with another nonce. -/
def nextTx (tx : EvmTx) (n : UInt64) : EvmTx := { tx with nonce := num n }

/-- A curve on which everything is signed by account 1. -/
def oneSigner : Curve where
  Key := Unit
  sign _ _ := ⟨.zero, .zero, 0⟩
  recover _ _ := some []
  pubkey _ := []
  keccak b := b
  address _ := addr 1

/-- A request with a signed payment to account 2. -/
def payRequest (n : UInt64) : Request where
  tx := (nextTx (sampleTx (some (addr 2)) (num 100) (num 60000) (num 0)) n).withSig
    (toEvmSig ⟨.zero, .zero, 0⟩ .legacy 1)
  locks := (true, true)
  fails _ := false
  vm := { ops := [], status := .success, gasLeft := 1000, output := [] }
  createAddress _ _ := addr 9
  create2Address _ _ _ := addr 8

/-- The hypotheses of `C56_never_twice` hold of two payments, both of which are sent again: each is executed once. -/
example : Plain oneSigner 1 [payRequest 5, payRequest 5, payRequest 6, payRequest 6, payRequest 5] ∧
    (executed oneSigner 1 (sample (num 1000000))
      [payRequest 5, payRequest 5, payRequest 6, payRequest 6, payRequest 5]).map (fun t => t.nonce) = [num 5, num 6] := by
  refine ⟨?_, by decide +kernel⟩
  intro r hr s hs
  have h1 : ∀ r ∈ [payRequest 5, payRequest 5, payRequest 6, payRequest 6, payRequest 5], ∀ s,
      checkSignature oneSigner 1 r.tx = some s → s = addr 1 := by
    intro r _ s hs
    unfold checkSignature at hs
    split at hs
    · cases hs
    · simpa [oneSigner] using hs.symm
  rw [h1 r hr s hs]
  refine ⟨by decide +kernel, ?_⟩
  intro r' hr'
  simp only [List.mem_cons, List.not_mem_nil, or_false] at hr'
  rcases hr' with rfl | rfl | rfl | rfl | rfl <;> simp [payRequest, Op.destroyedAll]

/-- Addresses of new contracts which show by whom and with which nonce they were made. -/
def marked (a : Address) (n : Word) : Address :=
  ⟨[a.val.headD 0, n.val.getLastD 0] ++ List.replicate 18 7, by simp⟩

def markedEnv (w : World) : Env :=
  { world := w, fails := fun _ => false, createAddress := marked, create2Address := fun _ _ _ => addr 8 }

/-- The contract 2 creates a contract with this code. -/
def creating (code : Bytes) : Vm :=
  { ops := [.create none (addr 2) .zero [] true code], status := .success, gasLeft := 0, output := [] }

/-- **C80 is violated**: creating a contract does not advance the nonce of the contract
which creates it.  The contract 2 creates two contracts, one in each of two transactions;
both have the same address, and the second replaces the code of the first. -/
theorem C80_replaced_violated :
    ∃ u v, runTransaction (markedEnv (sample (num 1000000))) (addr 1)
        (sampleTx (some (addr 2)) (num 0) (num 22000) (num 2)) (true, true) (creating [0x60]) = .updates u ∧
      ((sample (num 1000000)).apply u).code (marked (addr 2) (num 0)) = some [0x60] ∧
      runTransaction (markedEnv ((sample (num 1000000)).apply u)) (addr 1)
        (nextTx (sampleTx (some (addr 2)) (num 0) (num 22000) (num 2)) 6) (true, true) (creating [0x61]) =
          .updates v ∧
      (((sample (num 1000000)).apply u).apply v).code (marked (addr 2) (num 0)) = some [0x61] := by
  obtain ⟨u, hu, hb⟩ := updates_of (a := runTransaction (markedEnv (sample (num 1000000))) (addr 1)
        (sampleTx (some (addr 2)) (num 0) (num 22000) (num 2)) (true, true) (creating [0x60]))
    (f := fun u => (((sample (num 1000000)).apply u).code (marked (addr 2) (num 0)),
      (runTransaction (markedEnv ((sample (num 1000000)).apply u)) (addr 1)
        (nextTx (sampleTx (some (addr 2)) (num 0) (num 22000) (num 2)) 6) (true, true)
        (creating [0x61])).updates?.map fun v =>
          (((sample (num 1000000)).apply u).apply v).code (marked (addr 2) (num 0))))
    (v := (some [0x60], some (some [0x61]))) (by decide +kernel)
  simp only [Prod.mk.injEq] at hb
  obtain ⟨v, hv, hc⟩ := updates_of hb.2
  exact ⟨u, v, hu, hb.1, hv, hc⟩

/-! ### Crashes -/

/-- **C81 is violated**: a dry run (`eth_call`) with a value and a sender without an
account; `value()` of an empty `optional` throws in a function which must not throw, and
the agent's process ends. -/
theorem C81_dry_run_violated :
    dryRun (sampleEnv (num 100000)) (addr 5) (sampleTx (some (addr 2)) (num 1) (num 0) (num 0))
      { ops := [], status := .success, gasLeft := 0, output := [] } matches .crashed := by
  decide +kernel

/-- **C81 is violated**: a contract which destroys itself is called twice.  The account is
gone after the first transaction but its code is not, so it runs again, and the account
which is to be destroyed does not exist: the agent's process ends. -/
theorem C81_destroyed_violated :
    ∃ u, runTransaction (sampleEnv (num 1000000)) (addr 1)
        (sampleTx (some (addr 2)) (num 0) (num 22000) (num 2)) (true, true)
        { ops := [.selfdestruct (addr 2) (addr 1)], status := .success, gasLeft := 0, output := [] } = .updates u ∧
      ((sample (num 1000000)).apply u).code (addr 2) = some [0x60] ∧
      (runTransaction (markedEnv ((sample (num 1000000)).apply u)) (addr 1)
        (nextTx (sampleTx (some (addr 2)) (num 0) (num 22000) (num 2)) 6) (true, true)
        { ops := [.selfdestruct (addr 2) (addr 1)], status := .success, gasLeft := 0, output := [] }) = .crashed := by
  obtain ⟨u, hu, hb⟩ := updates_of (a := runTransaction (sampleEnv (num 1000000)) (addr 1)
        (sampleTx (some (addr 2)) (num 0) (num 22000) (num 2)) (true, true)
        { ops := [.selfdestruct (addr 2) (addr 1)], status := .success, gasLeft := 0, output := [] })
    (f := fun u => (((sample (num 1000000)).apply u).code (addr 2),
      runTransaction (markedEnv ((sample (num 1000000)).apply u)) (addr 1)
        (nextTx (sampleTx (some (addr 2)) (num 0) (num 22000) (num 2)) 6) (true, true)
        { ops := [.selfdestruct (addr 2) (addr 1)], status := .success, gasLeft := 0, output := [] } matches .crashed))
    (v := (some [0x60], true)) (by decide +kernel)
  simp only [Prod.mk.injEq] at hb
  refine ⟨u, hu, hb.1, ?_⟩
  have h2 := hb.2
  revert h2
  cases runTransaction (markedEnv ((sample (num 1000000)).apply u)) (addr 1)
        (nextTx (sampleTx (some (addr 2)) (num 0) (num 22000) (num 2)) 6) (true, true)
        { ops := [.selfdestruct (addr 2) (addr 1)], status := .success, gasLeft := 0, output := [] } with
  | crashed => intro _; rfl
  | _ => intro h; simp at h

/-- **C81 is violated**: another transaction takes away (wounds) the lock of an account
while it is being paid from; the agent's process ends instead of starting over. -/
theorem C81_wounded_violated :
    runTransaction { sampleEnv (num 1000000) with fails := fun n => n == 2 } (addr 1)
        (sampleTx (some (addr 2)) (num 0) (num 22000) (num 2)) (true, true)
        { ops := [.call .call (addr 2) (addr 3) (addr 3) (num 3) []], status := .success,
          gasLeft := 0, output := [] } matches .crashed := by
  decide +kernel

theorem never_retry (env : Env) (hf : ∀ n, env.fails n = false) : Simple env (fun h => h.retry = false) where
  getAccount h a w _ hP := by
    unfold Host.getAccount
    split
    · exact hP
    · dsimp only
      simp only [hf, Bool.false_eq_true, if_false]
      split <;> (repeat' split) <;> exact hP
  getStorage h a k w _ hP := by
    unfold Host.getAccountStorage
    split
    · exact hP
    · dsimp only
      simp only [hf, Bool.false_eq_true, if_false]
      split <;> (repeat' split) <;> exact hP
  getCode h a w _ hP := by
    unfold Host.getAccountCode
    split
    · exact hP
    · dsimp only
      simp only [hf, Bool.false_eq_true, if_false]
      split <;> (repeat' split) <;> exact hP
  cache _ _ _ _ _ hP := hP
  setStorage _ _ _ _ hP := hP
  setCode _ _ _ hP := hP
  crash _ hP := hP
  receipt _ _ _ hP := hP

theorem getAccount_crashed (env : Env) (h : Host) (a : Address) (w : Bool) :
    (h.getAccount env a w).2.crashed = h.crashed := by
  have := got env h a w
  generalize h.getAccount env a w = r at *
  cases this <;> rfl

theorem Good.transfer_crashed {env : Env} {D : Address → Prop} {N : Address → Word} {cost : Nat} {h : Host}
    (hf : ∀ n, env.fails n = false) (hg : Good env True D N cost h) (hr : h.retry = false)
    (hc : h.crashed = false) (s d : Address) (v : Word) (hv : v ≠ .zero)
    (hb : v.nat ≤ (h.getBalance env s).1.nat) : (h.transfer env s d v).crashed = false := by
  unfold Host.transfer
  dsimp only
  rw [hg.readonly]
  have hcov := hg.covered s v hv hb hr
  have hgot := hg.got s true
  have hr1 := (never_retry env hf).getAccount h s true (fun _ => hg.readonly) hr
  have hc1 := getAccount_crashed env h s true
  simp only [Bool.not_false]
  generalize h.getAccount env s true = r at *
  cases h1 : r.1 with
  | none =>
    have := hgot.none hr1 hcov.1 h1
    rw [this] at hcov
    have := nat_pos_of_ne hv
    simp [Stored.orEmpty, nat_zero] at hcov
    omega
  | some acc =>
    dsimp only
    refine (getAccount_crashed env _ d true).trans ?_
    exact hc1.trans hc

/-- **C81, in part**: when no lock is refused, an execution which destroys no account does
not end the process.  Missing: `C81_destroyed_violated`, `C81_wounded_violated`, and dry
runs. -/
theorem C81_no_crash_partial (env : Env) (hf : ∀ n, env.fails n = false) (sender : Address) (tx : EvmTx)
    (locks : Bool × Bool) (vm : Vm) (hp : isPrecompile sender = false)
    (hwrap : tx.value.nat + tx.gasLimit.nat * tx.gasPrice.nat < 2 ^ 256)
    (hnonce : env.world.nonce sender + 1 < 2 ^ 256)
    (hd : Op.destroyedAll vm.ops = []) : runTransaction env sender tx locks vm ≠ .crashed := by
  intro h
  obtain ⟨_, hn, hb, he⟩ := runTransaction_exec h (by simp) (by simp)
  have hcost : (mul tx.gasLimit tx.gasPrice).nat = tx.gasLimit.nat * tx.gasPrice.nat := by
    rw [C51_mul, Nat.mod_eq_of_lt (by omega)]
  rw [C51_add, hcost, Nat.mod_eq_of_lt hwrap, senderAccount_stored] at hb
  have hstart : (startAccount env.world sender tx).balance.nat + tx.gasLimit.nat * tx.gasPrice.nat =
      (Stored.orEmpty (env.world.accounts sender)).balance.nat := by
    rw [startAccount_balance, sub_nat, senderAccount_stored, hcost]
    · omega
    · rw [senderAccount_stored, hcost]; omega
  have hg0 : Good env True (fun _ => False) (nextNonces env.world sender tx) (tx.gasLimit.nat * tx.gasPrice.nat)
      (startHost env.world sender tx) := startHost_good _ hn (fun _ => by omega)
  have ns := never_retry env hf
  have cl : Closed env True (fun _ => False) (fun h => Good env True (fun _ => False)
      (nextNonces env.world sender tx) (tx.gasLimit.nat * tx.gasPrice.nat) h ∧ h.retry = false ∧
      h.crashed = false) :=
    { getAccount := fun h a hP => ⟨(hP.1.got a false).good,
        ns.getAccount h a false (fun h0 => absurd h0 (by simp)) hP.2.1,
        (getAccount_crashed env h a false).trans hP.2.2⟩
      getStorage := fun h a k hP => ⟨hP.1.same (sameAccounts_storage env h a k false),
        ns.getStorage h a k false (fun h0 => absurd h0 (by simp)) hP.2.1,
        (sameAccounts_storage env h a k false).crashed.trans hP.2.2⟩
      getCode := fun h a hP => ⟨hP.1.same (sameAccounts_code env h a false),
        ns.getCode h a false (fun h0 => absurd h0 (by simp)) hP.2.1,
        (sameAccounts_code env h a false).crashed.trans hP.2.2⟩
      setStorage := fun h a k v hP => ⟨hP.1.setStorage a k v, ns.setStorage' h a k v hP.2.1, by
        unfold Host.setStorage
        dsimp only
        refine (sameAccounts_storage env _ a k _).crashed.trans ?_
        unfold Host.storageAccount
        dsimp only
        split
        · exact (getAccount_crashed env h a false).trans hP.2.2
        · show (if _ then _ else _ : Host).crashed = false
          split
          · exact (getAccount_crashed env h a false).trans hP.2.2
          · exact (getAccount_crashed env _ a true).trans ((getAccount_crashed env h a false).trans hP.2.2)⟩
      transfer := fun h s d v hP hz hc => ⟨hP.1.transfer s d v (fun h0 => absurd h0 hz) (fun _ => hc),
        ns.transfer h s d v hP.2.1, hP.1.transfer_crashed hf hP.2.1 hP.2.2 s d v hz (hc trivial)⟩
      destroy := fun _ _ _ h0 => h0.elim
      deploy := fun h a out hP => ⟨hP.1.deploy a out, ns.deploy h a out hP.2.1, by
        unfold Host.deploy
        dsimp only
        refine (sameAccounts_code env _ a _).crashed.trans ?_
        exact (getAccount_crashed env h a _).trans hP.2.2⟩
      log := fun h l hP => ⟨hP.1.congr rfl rfl id, hP.2⟩
      success := fun h b hP => ⟨hP.1.congr rfl rfl id, hP.2⟩ }
  have hbal : ((startHost env.world sender tx).getBalance env sender).1 =
      (startAccount env.world sender tx).balance := by
    rw [getBalance_of, startHost_get sender tx hp]
    rfl
  have hrun := cl.run (fun h _ _ _ hP => ⟨hP.1.congr rfl rfl id, hP.2⟩) (startHost env.world sender tx)
    (makeMsg sender tx false) vm (fun a ha => by rw [hd] at ha; cases ha) ⟨hg0, rfl, rfl⟩
    (fun _ _ => by
      show tx.value.nat ≤ ((startHost env.world sender tx).getBalance env sender).1.nat
      rw [hbal]
      omega)
  have hi := (simple_init env (startHost env.world sender tx).init).closed (M := False) (D := fun _ => True) |>.run
    (fun h _ _ _ hg => hg) (startHost env.world sender tx) (makeMsg sender tx false) vm (fun _ _ => trivial) rfl
    (fun _ hM => hM.elim)
  unfold exec at he
  dsimp only at he
  rw [if_neg (by simp [hrun.2.2])] at he
  split at he
  · cases he
  rw [if_neg (by simp [hrun.2.1])] at he
  generalize hh : (if ((startHost env.world sender tx).run env (makeMsg sender tx false) vm).2.1 = .revert then
    ((startHost env.world sender tx).run env (makeMsg sender tx false) vm).1.revert
    else ((startHost env.world sender tx).run env (makeMsg sender tx false) vm).1) = h1 at he
  split at he
  · cases he
  split at he
  · rename_i hcr
    have hg1 : Good env True (fun _ => False) (nextNonces env.world sender tx) (tx.gasLimit.nat * tx.gasPrice.nat) h1 ∧
        h1.retry = false ∧ h1.crashed = false := by
      rw [← hh]
      split
      · refine ⟨hg0.congr ?_ ?_ (fun _ => rfl), hrun.2⟩
        · show Host.init _ = _
          rw [hi, startHost_init]
        · exact hrun.1.readonly.trans hg0.readonly.symm
      · exact hrun
    have hnon : (h1.view env sender).nonce = tx.nonce := by
      rw [(hg1.1.fine hg1.2.1).nonce sender hp, nextNonces, put_same]
    have hs : (makeMsg sender tx false).sender = sender := rfl
    rw [hs] at hcr
    unfold Host.finalize at hcr
    rw [if_neg (by simp [hg1.1.readonly])] at hcr
    dsimp only at hcr
    have hgot := hg1.1.got sender true
    have hr1 := ns.getAccount h1 sender true (fun _ => hg1.1.readonly) hg1.2.1
    have hc1 := getAccount_crashed env h1 sender true
    generalize h1.getAccount env sender true = r at *
    cases h2 : r.1 with
    | none =>
      have hz := hgot.none hr1 hp h2
      rw [hz] at hnon
      have hz : tx.nonce.nat = 0 := by rw [← hnon]; exact nat_zero
      rw [← hn, C51_add, nat_ofU64, senderAccount_stored, ← nonce_orEmpty,
        show UInt64.toNat 1 = 1 from rfl, Nat.mod_eq_of_lt hnonce] at hz
      simp at hz
    | some acc =>
      rw [h2] at hcr
      have hcr : r.2.crashed = true := hcr
      rw [hc1, hg1.2.2] at hcr
      cases hcr
  · cases he

/-- The hypotheses of `C81_no_crash_partial` are met by the transaction which
`C81_wounded_violated` is about, when no lock is refused. -/
example : runTransaction (sampleEnv (num 1000000)) (addr 1)
        (sampleTx (some (addr 2)) (num 0) (num 22000) (num 2)) (true, true)
        { ops := [.call .call (addr 2) (addr 3) (addr 3) (num 3) []], status := .success,
          gasLeft := 0, output := [] } ≠ .crashed :=
  C81_no_crash_partial _ (fun _ => rfl) _ _ _ _ (by decide +kernel) (by decide +kernel) (by decide +kernel) rfl

end Verif.Evm
