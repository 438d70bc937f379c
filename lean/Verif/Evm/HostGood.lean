import Verif.Evm.HostLemmas
/-! Helper lemmas for the host of the virtual machine: balances and nonces. -/
namespace Verif.Evm

open Verif.Serial

/-- An account which does not exist counts as one with nothing. -/
def Stored.orEmpty (s : Option Stored) : Stored := s.getD { balance := .zero, nonce := .zero }

/-- The sum over a list of addresses. -/
def sumOn (dom : List Address) (f : Address → Nat) : Nat := (dom.map f).sum

/-- The account in the cache which will be written back. -/
def Host.written (h : Host) (a : Address) : Option Account :=
  match h.accounts a with
  | some (some acc, true) => some acc
  | _ => none

/-- What an account would be after writing back, were it not destroyed. -/
def Host.view (env : Env) (h : Host) (a : Address) : Stored :=
  match h.written a with
  | some acc => acc.toStored
  | none => .orEmpty (env.world.accounts a)

theorem sumOn_change (dom : List Address) (hn : dom.Nodup) (f g : Address → Nat) (a : Address)
    (ha : a ∈ dom) (hfg : ∀ x, x ≠ a → g x = f x) : sumOn dom g + f a = sumOn dom f + g a := by
  induction dom with
  | nil => cases ha
  | cons b dom ih =>
    have hb := List.nodup_cons.mp hn
    simp only [sumOn, List.map_cons, List.sum_cons]
    by_cases hab : a = b
    · subst hab
      have : dom.map g = dom.map f := by
        apply List.map_congr_left
        intro x hx
        exact hfg x (fun e => hb.1 (e ▸ hx))
      rw [this]
      omega
    · have := ih hb.2 ((List.mem_cons.mp ha).resolve_left hab)
      simp only [sumOn] at this
      have e := hfg b (fun e => hab e.symm)
      omega

theorem sumOn_congr (dom : List Address) (f g : Address → Nat) (hfg : ∀ x, g x = f x) :
    sumOn dom g = sumOn dom f := by
  rw [funext hfg]

theorem sumOn_le (dom : List Address) (f g : Address → Nat) (hfg : ∀ x, g x ≤ f x) :
    sumOn dom g ≤ sumOn dom f := by
  induction dom with
  | nil => exact Nat.le_refl _
  | cons b dom ih =>
    simp only [sumOn, List.map_cons, List.sum_cons] at *
    have := hfg b
    omega

/-- Balances, nonces and destroyed accounts of a host which was not refused a lock. -/
structure Fine (env : Env) (M : Prop) (D : Address → Prop) (N : Address → Word) (cost : Nat) (h : Host) : Prop where
  /-- What is in the cache for reading is what is stored. -/
  read : ∀ a acc, isPrecompile a = false → h.accounts a = some (acc, false) →
    acc.map (·.toStored) = env.world.accounts a
  /-- What is missing is missing. -/
  missing : ∀ a, isPrecompile a = false → h.accounts a = some (none, true) →
    env.world.accounts a = none
  nonce : ∀ a, isPrecompile a = false → (h.view env a).nonce = N a
  destroyed : ∀ a acc l, h.accounts a = some (some acc, l) → acc.destruct = true → D a
  money : M → ∀ dom : List Address, dom.Nodup → (∀ a acc, h.written a = some acc → a ∈ dom) →
    sumOn dom (fun a => (h.view env a).balance.nat) + cost ≤
      sumOn dom (fun a => (Stored.orEmpty (env.world.accounts a)).balance.nat)

/-- The same for every host which can write. -/
structure Good (env : Env) (M : Prop) (D : Address → Prop) (N : Address → Word) (cost : Nat) (h : Host) : Prop where
  readonly : h.readonly = false
  fine : h.retry = false → Fine env M D N cost h

variable {env : Env} {M : Prop} {D : Address → Prop} {N : Address → Word} {cost : Nat} {h h' : Host}

theorem Fine.congr (hf : Fine env M D N cost h) (ha : h'.accounts = h.accounts) :
    Fine env M D N cost h' := by
  have hw : h'.written = h.written := by funext a; simp [Host.written, ha]
  have hv : h'.view env = h.view env := by funext a; simp [Host.view, hw]
  exact ⟨by rw [ha]; exact hf.read, by rw [ha]; exact hf.missing, by rw [hv]; exact hf.nonce,
    by rw [ha]; exact hf.destroyed, by rw [hw, hv]; exact hf.money⟩

theorem Good.congr (hg : Good env M D N cost h) (ha : h'.accounts = h.accounts)
    (hr : h'.readonly = h.readonly) (ht : h'.retry = false → h.retry = false) :
    Good env M D N cost h' :=
  ⟨hr.trans hg.readonly, fun h0 => (hg.fine (ht h0)).congr ha⟩

theorem written_put (h : Host) (a : Address) (acc : Account) (x : Address) :
    (h.cache a acc true).written x =
      if x = a then some acc else h.written x := by
  unfold Host.written Host.cache
  by_cases hx : x = a
  · simp [put, hx]
  · simp [put, hx]

theorem view_put (env : Env) (h : Host) (a : Address) (acc : Account) (x : Address) :
    (h.cache a acc true).view env x =
      if x = a then acc.toStored else h.view env x := by
  unfold Host.view
  rw [written_put]
  by_cases hx : x = a
  · simp [hx]
  · simp [hx]

/-- An account is written. -/
theorem Fine.write (hf : Fine env M D N cost h) (a : Address) (acc : Account) (cost' : Nat)
    (hN : isPrecompile a = false → acc.nonce = N a) (hD : acc.destruct = true → D a)
    (hm : M → acc.balance.nat + cost' ≤ (h.view env a).balance.nat + cost) :
    Fine env M D N cost' (h.cache a acc true) := by
  refine ⟨fun x c hp he => ?_, fun x hp he => ?_, fun x hp => ?_, fun x c l hw hd => ?_,
    fun hM dom hn hs => ?_⟩
  · by_cases hx : x = a
    · simp [Host.cache, put, hx] at he
    · exact hf.read x c hp (by simpa [Host.cache, put, hx] using he)
  · by_cases hx : x = a
    · simp [Host.cache, put, hx] at he
    · exact hf.missing x hp (by simpa [Host.cache, put, hx] using he)
  · rw [view_put]
    by_cases hx : x = a
    · subst hx; rw [if_pos rfl]; exact hN hp
    · rw [if_neg hx]; exact hf.nonce x hp
  · by_cases hx : x = a
    · subst hx
      simp [Host.cache, put] at hw
      rw [← hw.1] at hd
      exact hD hd
    · exact hf.destroyed x c l (by simpa [Host.cache, put, hx] using hw) hd
  · have ha : a ∈ dom := hs a acc (by rw [written_put, if_pos rfl])
    have h0 := hf.money hM dom hn (fun x c hw => by
      by_cases hx : x = a
      · exact hx ▸ ha
      · exact hs x c (by rw [written_put, if_neg hx]; exact hw))
    have h1 := sumOn_change dom hn (fun x => (h.view env x).balance.nat)
      (fun x => ((h.cache a acc true).view env x).balance.nat)
      a ha (fun x hx => by simp only [view_put, if_neg hx])
    simp only [view_put, if_true] at h1
    simp only [view_put]
    have := hm hM
    omega

theorem Good.write (hg : Good env M D N cost h) (a : Address) (acc : Account) (cost' : Nat)
    (hN : h.retry = false → isPrecompile a = false → acc.nonce = N a)
    (hD : h.retry = false → acc.destruct = true → D a)
    (hm : h.retry = false → M → acc.balance.nat + cost' ≤ (h.view env a).balance.nat + cost) :
    Good env M D N cost' (h.cache a acc true) :=
  ⟨hg.readonly, fun h0 => (hg.fine h0).write a acc cost' (hN h0) (hD h0) (hm h0)⟩

/-- What `get_account` gives and leaves. -/
structure GotGood (env : Env) (M : Prop) (D : Address → Prop) (N : Address → Word) (cost : Nat) (h : Host)
    (a : Address) (w : Bool) (r : Option Account × Host) : Prop where
  good : Good env M D N cost r.2
  retry : r.2.retry = false → h.retry = false
  view : r.2.retry = false → ∀ x, r.2.view env x = h.view env x
  /-- The result is what counts. -/
  some : r.2.retry = false → isPrecompile a = false → ∀ acc, r.1 = some acc →
    acc.toStored = h.view env a
  none : r.2.retry = false → isPrecompile a = false → r.1 = none →
    h.view env a = .orEmpty Option.none
  entry : r.2.retry = false → isPrecompile a = false → ∃ l, r.2.accounts a = Option.some (r.1, l) ∧
    (w = true → l = true)
  destroyed : r.2.retry = false → ∀ acc, r.1 = Option.some acc → acc.destruct = true → D a
  retried : isPrecompile a = false → r.2.retry = h.retry ∨ r.1 = Option.none

theorem ofStored_destruct (s : Option Stored) (acc : Account) (h : s.map Account.ofStored = some acc) :
    acc.destruct = false := by
  cases s with
  | none => simp at h
  | some s => simp at h; rw [← h]; rfl

theorem Good.got (hg : Good env M D N cost h) (a : Address) (w : Bool) :
    GotGood env M D N cost h a w (h.getAccount env a w) := by
  have hc := Verif.Evm.got env h a w
  generalize h.getAccount env a w = r at *
  cases hc with
  | pre hp =>
    exact ⟨hg, id, fun _ _ => rfl, fun _ h0 => absurd h0 (by simp [hp]),
      fun _ h0 => absurd h0 (by simp [hp]), fun _ h0 => absurd h0 (by simp [hp]),
      fun _ acc he hd => by cases he; exact absurd hd (by simp [Account.new, Account.ofStored]),
      fun h0 => absurd h0 (by simp [hp])⟩
  | hit hp acc locked he hw =>
    refine ⟨hg, id, fun _ _ => rfl, fun h0 _ c hc => ?_, fun h0 _ hc => ?_, fun _ _ => ⟨locked, he, hw⟩,
      fun h0 c hc hd => ?_, fun _ => .inl rfl⟩
    · have hc : acc = some c := hc
      subst hc
      cases locked with
      | true => simp [Host.view, Host.written, he]
      | false =>
        have := (hg.fine h0).read a _ hp he
        simp [Host.view, Host.written, he, ← this, Stored.orEmpty]
    · have hc : acc = none := hc
      subst hc
      cases locked with
      | true =>
        have := (hg.fine h0).missing a hp he
        simp [Host.view, Host.written, he, this]
      | false =>
        have := (hg.fine h0).read a _ hp he
        simp [Host.view, Host.written, he, ← this]
    · have hc : acc = some c := hc
      subst hc
      exact (hg.fine h0).destroyed a c locked he hd
  | fail hp =>
    exact ⟨⟨hg.readonly, fun h0 => absurd h0 (by simp)⟩, fun h0 => absurd h0 (by simp),
      fun h0 => absurd h0 (by simp), fun h0 => absurd h0 (by simp), fun h0 => absurd h0 (by simp),
      fun h0 => absurd h0 (by simp), fun h0 => absurd h0 (by simp), fun _ => .inr rfl⟩
  | fetch hp he =>
    have hw0 : h.written a = none := by
      rcases he with he | ⟨acc, he, _⟩ <;> simp [Host.written, he]
    have hva : h.view env a = .orEmpty (env.world.accounts a) := by simp [Host.view, hw0]
    have hview : ∀ x, Host.view env { h with
          accounts := put h.accounts a (some ((env.world.accounts a).map Account.ofStored, w))
          lockedAccounts := if w then a :: h.lockedAccounts else h.lockedAccounts
          requests := h.requests + 1 } x = h.view env x := by
      intro x
      by_cases hx : x = a
      · subst hx
        rw [hva]
        cases hs : env.world.accounts x with
        | none => simp [Host.view, Host.written, put, hs]
        | some s =>
          cases w <;> simp [Host.view, Host.written, put, hs, Stored.orEmpty, Account.ofStored]
      · simp [Host.view, Host.written, put, hx]
    refine ⟨⟨hg.readonly, fun h0 => ?_⟩, id, fun _ => hview, fun h0 _ c hc => ?_, fun h0 _ hc => ?_,
      fun _ _ => ⟨w, by simp [put], id⟩, fun h0 c hc hd => ?_, fun _ => .inl rfl⟩
    · have hf := hg.fine h0
      refine ⟨fun x c hp he => ?_, fun x hp he => ?_, fun x hp => ?_, fun x c l hw hd => ?_,
        fun hM dom hn hs => ?_⟩
      · by_cases hx : x = a
        · subst hx
          simp [put] at he
          rw [← he.1]
          cases env.world.accounts x <;> simp [Account.ofStored]
        · exact hf.read x c hp (by simpa [put, hx] using he)
      · by_cases hx : x = a
        · subst hx
          simp [put] at he
          exact he.1
        · exact hf.missing x hp (by simpa [put, hx] using he)
      · rw [hview]; exact hf.nonce x hp
      · by_cases hx : x = a
        · subst hx
          simp [put] at hw
          obtain ⟨⟨s, _, hs⟩, _⟩ := hw
          rw [← hs] at hd
          exact absurd hd (by simp [Account.ofStored])
        · exact hf.destroyed x c l (by simpa [put, hx] using hw) hd
      · have := hf.money hM dom hn (fun x c hw => by
          by_cases hx : x = a
          · subst hx; rw [hw0] at hw; cases hw
          · exact hs x c (by simpa [Host.written, put, hx] using hw))
        rw [sumOn_congr dom _ _ (fun x => by rw [hview x])]
        exact this
    · rw [hva]
      have hc : (env.world.accounts a).map Account.ofStored = some c := hc
      cases hs : env.world.accounts a with
      | none => rw [hs] at hc; cases hc
      | some s => rw [hs] at hc; cases hc; rfl
    · rw [hva]
      have hc : (env.world.accounts a).map Account.ofStored = none := hc
      cases hs : env.world.accounts a with
      | none => rfl
      | some s => rw [hs] at hc; cases hc
    · exact absurd hd (by rw [ofStored_destruct _ _ hc]; simp)

end Verif.Evm
