import Verif.Wallet.FilesLemmas
import Verif.Wallet.ClientConfirm
/-!
# A client that is killed (C107)

The specification: `f` is what is on disk, `start w f` is the client that the
program has after it was started again.
-/
namespace Verif.Wallet

open Verif.Serial Verif.Tx

/-! ### Specification -/

/-- The money in outputs that a client knows to be its own: what the wallet
holds (seeds aside) and what was set aside for payments. -/
def coins (cl : Client) : List Input := cl.wallet.utxos ++ aside cl

/-- The operations that do not settle a payment. -/
def Unsettling : ClientOp → Prop
  | .abandon _ | .confirm _ | .restart _ => False
  | _ => True

/-- The same money, keys and pending payments. -/
structure Same (a b : Client) : Prop where
  txs : a.txs = b.txs
  inputs : a.inputs = b.inputs
  spend : a.spend = b.spend
  keys : a.wallet.keys = b.wallet.keys
  utxos : a.wallet.utxos.Perm b.wallet.utxos
  queue : a.wallet.queue.Perm b.wallet.utxos
  balance : a.wallet.balance.toNat = value b.wallet.utxos % 2 ^ 64

/-! ### Starting again -/

theorem start_files (w : Wallet) {cl : Client} (h : Fits cl) (o : Option Bytes) :
    start w ⟨some (clientBytes cl), o⟩ =
      some ⟨match o with | none => w | some b => loadWallet w b,
        cl.txs, cl.inputs, cl.spend⟩ := by
  have hd : dec tPending (clientBytes cl) = .ok (pendingWire cl) [] := by
    have := roundtrip tPending (pendingWire cl) (pendingWire_wf h) []
    rw [List.append_nil] at this
    exact this
  unfold start
  dsimp only
  rw [hd]
  dsimp only
  rw [ofPending_wire]
  cases o <;> rfl

theorem fold_value (l : List Input) :
    ∀ t : UInt64, (l.foldl (fun t i => t + i.prevoutData.value) t).toNat =
      (t.toNat + value l) % 2 ^ 64 := by
  induction l with
  | nil =>
    intro t
    rw [value_nil, List.foldl_nil, Nat.add_zero, Nat.mod_eq_of_lt t.toNat_lt]
  | cons i l ih =>
    intro t
    rw [List.foldl_cons, ih, value_cons, UInt64.toNat_add]
    omega

theorem load_balance (w : Wallet) (keys : List PubKey) (l : List Input) :
    (load w keys l).balance.toNat = value l % 2 ^ 64 := by
  have := fold_value l 0
  simpa [load] using this

theorem order_nodup {cl : Client} (h : Fits cl) {order : List Input}
    (ho : order.Perm cl.wallet.utxos) :
    order.length < 2 ^ 64 ∧ (order.map (·.prevout)).Nodup :=
  ⟨ho.length_eq ▸ h.utxos.1, (ho.map _).nodup_iff.mpr h.utxos.2⟩

/-- C107: a client that is killed when no save is under way has everything
when it is started again. -/
theorem C107_saved (w : Wallet) (sec : Secrets) {cl : Client} (h : Fits cl)
    {order : List Input} (ho : order.Perm cl.wallet.utxos) :
    ∃ r, start w (filesOf sec cl order) = some r ∧ Same r cl := by
  obtain ⟨hl, hn⟩ := order_nodup h ho
  obtain ⟨m, n, h1, _, h3⟩ := loadWallet_prefix w sec cl.wallet.keys order h.keys.2 h.keys.1
    hn hl (walletBytes sec cl.wallet.keys order) (List.prefix_refl _)
  obtain ⟨h4, h5⟩ := h3 rfl
  rw [List.take_of_length_le h4, List.take_of_length_le h5] at h1
  refine ⟨_, start_files w h _, ⟨rfl, rfl, rfl, ?_, ?_, ?_, ?_⟩⟩
  all_goals dsimp only
  all_goals rw [h1]
  · rfl
  · exact ho
  · exact ho
  · rw [load_balance]
    have : value order = value cl.wallet.utxos := by
      unfold value total
      exact ((ho.map _).map _).sum_nat
    rw [this]

/-- C107: with a client file that was cut short the program does not start, so
it never works with wrong pending payments. -/
theorem C107_client_cut (w : Wallet) {cl : Client} (h : Fits cl) {p : Bytes}
    (hp : p <+: clientBytes cl) (hne : p ≠ clientBytes cl) (o : Option Bytes) :
    start w ⟨some p, o⟩ = none := by
  obtain ⟨s, hs⟩ := hp
  have hs' : s ≠ [] := by
    rintro rfl
    exact hne (by simpa using hs)
  have hr := truncated tPending (pendingWire cl) (pendingWire_wf h) p s hs.symm hs'
  unfold start
  dsimp only
  cases hd : dec tPending p with
  | ok v r => exact absurd hd (hr v r)
  | fail r => rfl
  | bad => rfl

/-- C107: a wallet file that was cut short is loaded as far as it goes: some of
the keys that were saved; outputs only if all keys are there, and then some of
those that were saved; the balance is what they are worth. -/
theorem C107_wallet_cut (w : Wallet) (sec : Secrets) {cl : Client} (h : Fits cl)
    {order : List Input} (ho : order.Perm cl.wallet.utxos) {p : Bytes}
    (hp : p <+: walletBytes sec cl.wallet.keys order) :
    ∃ r m n, start w ⟨some (clientBytes cl), some p⟩ = some r ∧
      r.txs = cl.txs ∧ r.inputs = cl.inputs ∧ r.spend = cl.spend ∧
      r.wallet.keys = cl.wallet.keys.take m ∧ r.wallet.utxos = order.take n ∧
      r.wallet.queue = order.take n ∧
      (r.wallet.utxos ≠ [] → r.wallet.keys = cl.wallet.keys) ∧
      r.wallet.balance.toNat = value r.wallet.utxos % 2 ^ 64 := by
  obtain ⟨hl, hn⟩ := order_nodup h ho
  obtain ⟨m, n, h1, h2, _⟩ := loadWallet_prefix w sec cl.wallet.keys order h.keys.2 h.keys.1
    hn hl p hp
  refine ⟨_, m, n, start_files w h _, rfl, rfl, rfl, ?_⟩
  dsimp only
  rw [h1]
  refine ⟨rfl, rfl, rfl, ?_, load_balance _ _ _⟩
  intro hu
  have hn0 : n ≠ 0 := by
    rintro rfl
    exact hu rfl
  exact List.take_of_length_le (h2 hn0)

/-! ### Killed between the two files -/

theorem register_keeps (c : Crypto) (l : List Input) :
    ∀ cl : Client, ∀ e ∈ cl.spend, e ∈ (register c cl l).spend := by
  induction l with
  | nil => intro cl e he; exact he
  | cons i l ih =>
    intro cl e he
    refine ih _ e ?_
    unfold put
    dsimp only
    split
    · exact he
    · exact List.mem_append_left _ he

theorem made_keeps (c : Crypto) (cl : Client) (r : Option FullTx × Wallet) :
    ∀ e ∈ cl.spend, e ∈ (made c cl r).2.spend := by
  intro e he
  obtain ⟨o, w⟩ := r
  cases o with
  | none => exact he
  | some t => exact register_keeps c t.inputs { cl with wallet := w } e he

theorem submit_spend (c : Crypto) (r : Option FullTx × Client) :
    (submit c r).2.spend = r.2.spend := by
  obtain ⟨o, cl⟩ := r
  cases o <;> rfl

theorem unsettling_keeps (c : Crypto) (sg : Signer) (cl : Client) (op : ClientOp)
    (h : Unsettling op) : ∀ e ∈ cl.spend, e ∈ (perform c sg cl op).spend := by
  intro e he
  cases op with
  | mint v ds => exact he
  | create a k d => exact made_keeps c cl _ e he
  | send a k d =>
    show e ∈ (submit c (Wallet.create c sg cl a k d)).2.spend
    rw [submit_spend]
    exact made_keeps c cl _ e he
  | fan n v k d =>
    show e ∈ (submit c (made c cl _)).2.spend
    rw [submit_spend]
    exact made_keeps c cl _ e he
  | importTx t => exact he
  | importInput i =>
    show e ∈ (Wallet.importInput c cl i).spend
    unfold Wallet.importInput
    split <;> exact he
  | newAddress d => exact he
  | abandon id => exact h.elim
  | confirm id => exact h.elim
  | restart o => exact h.elim

/-- C107: killed between the two files of the save of an operation that settles
no payment, the client has lost no money and no key when it is started again.
(Operations that save twice, `send` and `fan`, pass through `create` and
`importTx`.) -/
theorem C107_between_partial (c : Crypto) (sg : Signer) (w : Wallet) (sec : Secrets)
    {cl : Client} (h : Fits cl) {op : ClientOp} (hop : Unsettling op)
    (h' : Fits (perform c sg cl op)) {order : List Input}
    (ho : order.Perm cl.wallet.utxos) :
    ∃ r, start w ⟨some (clientBytes (perform c sg cl op)),
        some (walletBytes sec cl.wallet.keys order)⟩ = some r ∧
      (∀ i ∈ coins cl, i ∈ coins r) ∧ r.wallet.keys = cl.wallet.keys ∧
      r.txs = (perform c sg cl op).txs := by
  obtain ⟨hl, hn⟩ := order_nodup h ho
  obtain ⟨m, n, h1, _, h3⟩ := loadWallet_prefix w sec cl.wallet.keys order h.keys.2 h.keys.1
    hn hl (walletBytes sec cl.wallet.keys order) (List.prefix_refl _)
  obtain ⟨h4, h5⟩ := h3 rfl
  rw [List.take_of_length_le h4, List.take_of_length_le h5] at h1
  refine ⟨_, start_files w h' _, ?_, ?_, rfl⟩
  · intro i hi
    unfold coins at hi ⊢
    dsimp only
    rw [h1, List.mem_append] at *
    rcases hi with hi | hi
    · exact Or.inl (ho.mem_iff.mpr hi)
    · obtain ⟨e, he, rfl⟩ := List.mem_map.mp hi
      exact Or.inr (List.mem_map_of_mem (unsettling_keeps c sg cl op hop e he))
  · dsimp only
    rw [h1]
    rfl

/-- C107: wherever the program was killed, a client that starts again has no
money and no key that it did not have before or after the operation. -/
theorem C107_nothing_new (w : Wallet) (sec : Secrets) {old new : Client} (h : Fits old)
    (h' : Fits new) {o o' : List Input} (ho : o.Perm old.wallet.utxos)
    (ho' : o'.Perm new.wallet.utxos) {f : Files}
    (hk : Killed (filesOf sec old o) (clientBytes new)
      (walletBytes sec new.wallet.keys o') f) {r : Client} (hr : start w f = some r) :
    (∀ i ∈ coins r, i ∈ coins old ∨ i ∈ coins new) ∧
    (∀ k ∈ r.wallet.keys, k ∈ old.wallet.keys ∨ k ∈ new.wallet.keys) ∧
    (r.txs = old.txs ∧ r.spend = old.spend ∨ r.txs = new.txs ∧ r.spend = new.spend) := by
  cases hk with
  | before =>
    obtain ⟨r', h1, h2⟩ := C107_saved w sec h ho
    rw [h1] at hr
    cases hr
    refine ⟨fun i hi => Or.inl ?_, fun k hk => Or.inl (h2.keys ▸ hk), Or.inl ⟨h2.txs, h2.spend⟩⟩
    unfold coins aside at hi ⊢
    rw [h2.spend, List.mem_append] at hi
    exact List.mem_append.mpr (hi.imp_left h2.utxos.mem_iff.mp)
  | client p hp =>
    by_cases hne : p = clientBytes new
    · subst hne
      obtain ⟨hl, hn⟩ := order_nodup h ho
      obtain ⟨m, n, h1, _, _⟩ := loadWallet_prefix w sec old.wallet.keys o h.keys.2 h.keys.1
        hn hl _ (List.prefix_refl _)
      have hf := start_files w h' (some (walletBytes sec old.wallet.keys o))
      have hr' : start w ⟨some (clientBytes new), some (walletBytes sec old.wallet.keys o)⟩ =
        some r := hr
      rw [hf] at hr'
      dsimp only at hr'
      rw [h1] at hr'
      cases hr'
      refine ⟨fun i hi => ?_, fun k hk => Or.inl (List.mem_of_mem_take hk), Or.inr ⟨rfl, rfl⟩⟩
      rcases List.mem_append.mp hi with hi | hi
      · exact Or.inl (List.mem_append_left _ (ho.mem_iff.mp (List.mem_of_mem_take hi)))
      · exact Or.inr (List.mem_append_right _ hi)
    · have := C107_client_cut w h' hp hne (some (walletBytes sec old.wallet.keys o))
      have hr' : start w ⟨some p, some (walletBytes sec old.wallet.keys o)⟩ = some r := hr
      rw [this] at hr'
      cases hr'
  | wallet p hp =>
    obtain ⟨r', m, n, h1, h2, _, h4, h5, h6, _⟩ := C107_wallet_cut w sec h' ho' hp
    rw [h1] at hr
    cases hr
    refine ⟨fun i hi => Or.inr ?_, fun k hk => Or.inr ?_, Or.inr ⟨h2, h4⟩⟩
    · unfold coins aside at hi ⊢
      rw [h4, h6, List.mem_append] at hi
      rcases hi with hi | hi
      · exact List.mem_append_left _ (ho'.mem_iff.mp (List.mem_of_mem_take hi))
      · exact List.mem_append_right _ hi
    · rw [h5] at hk
      exact List.mem_of_mem_take hk

/-! ### What goes wrong -/

/-- The wallet of a program that just started. -/
def newborn : Wallet := { seedCommit := zero }

/-- Some private keys. -/
def someSecrets : Secrets := id

/-- The client that made a payment of 4 out of an output worth 5 and did not
send it yet. -/
def drafted : Client := (create toy sgn client 4 keyB (keyC, 0)).2

/-- The same client after it sent the payment. -/
def paid : Client := (send toy sgn client 4 keyB (keyC, 0)).2

/-- The payment. -/
def payment : Hash := (paid.txs.map (·.1)).headD zero

theorem client_clash : NoClash toy (owned toy client) := by
  unfold NoClash
  decide

theorem drafted_history : ClientHistory toy sgn drafted :=
  .step client_history (.create 4 keyB (keyC, 0)) client_clash

theorem paid_history : ClientHistory toy sgn paid :=
  .step client_history (.send 4 keyB (keyC, 0)) client_clash

theorem client_fits : Fits client :=
    ⟨⟨by decide, by decide, by unfold FullTx.Fits; decide⟩, by decide, by decide,
      by decide, by decide⟩

theorem paid_fits : Fits paid :=
    ⟨⟨by decide, by decide, by unfold FullTx.Fits; decide⟩, by decide, by decide,
      by decide, by decide⟩

/-- The claim about the end of a payment is false: a client whose payment of 4
was abandoned by the user, killed after the file of pending payments was written
and before the wallet was, starts again without the 5 that were set aside: they
are neither in the wallet nor set aside, and there is no payment left to
abandon. -/
theorem C107_abandon_violated : ∃ (cl : Client) (id : Hash) (f : Files) (r : Client),
    ClientHistory toy sgn cl ∧ coin 1 5 ∈ coins cl ∧
    (abandon toy cl id).1 = true ∧ coin 1 5 ∈ coins (abandon toy cl id).2 ∧
    Killed (filesOf someSecrets cl cl.wallet.utxos) (clientBytes (abandon toy cl id).2)
      (walletBytes someSecrets (abandon toy cl id).2.wallet.keys
        (abandon toy cl id).2.wallet.utxos) f ∧
    start newborn f = some r ∧ coin 1 5 ∉ coins r ∧ r.txs = [] ∧
    r.wallet.balance = 7 := by
  have hf : Fits (abandon toy paid payment).2 :=
    ⟨⟨by decide, by decide, by unfold FullTx.Fits; decide⟩, by decide, by decide,
      by decide, by decide⟩
  obtain ⟨hl, hn⟩ := order_nodup paid_fits (List.Perm.refl _)
  obtain ⟨m, n, h1, _, h3⟩ := loadWallet_prefix newborn someSecrets paid.wallet.keys
    paid.wallet.utxos paid_fits.keys.2 paid_fits.keys.1 hn hl _ (List.prefix_refl _)
  obtain ⟨h4, h5⟩ := h3 rfl
  rw [List.take_of_length_le h4, List.take_of_length_le h5] at h1
  refine ⟨paid, payment, _, _, paid_history, by decide, by decide, by decide,
    .client _ (List.prefix_refl _), start_files newborn hf _, ?_⟩
  dsimp only [filesOf]
  rw [h1]
  exact ⟨by decide, by decide, by decide⟩

/-- Nor does it hold when a payment is confirmed: the change of 1 is lost, and
the payment is no longer pending, so that nothing will bring it. -/
theorem C107_confirm_violated : ∃ (cl : Client) (id : Hash) (f : Files) (r : Client),
    ClientHistory toy sgn cl ∧ (confirm toy cl id).1 = true ∧
    balanceOf (confirm toy cl id).2.wallet = 8 ∧
    Killed (filesOf someSecrets cl cl.wallet.utxos) (clientBytes (confirm toy cl id).2)
      (walletBytes someSecrets (confirm toy cl id).2.wallet.keys
        (confirm toy cl id).2.wallet.utxos) f ∧
    start newborn f = some r ∧ r.txs = [] ∧ r.inputs = [] ∧ aside r = [] ∧
    r.wallet.balance = 7 := by
  have hf : Fits (confirm toy paid payment).2 :=
    ⟨⟨by decide, by decide, by unfold FullTx.Fits; decide⟩, by decide, by decide,
      by decide, by decide⟩
  obtain ⟨hl, hn⟩ := order_nodup paid_fits (List.Perm.refl _)
  obtain ⟨m, n, h1, _, h3⟩ := loadWallet_prefix newborn someSecrets paid.wallet.keys
    paid.wallet.utxos paid_fits.keys.2 paid_fits.keys.1 hn hl _ (List.prefix_refl _)
  obtain ⟨h4, h5⟩ := h3 rfl
  rw [List.take_of_length_le h4, List.take_of_length_le h5] at h1
  refine ⟨paid, payment, _, _, paid_history, by decide, by decide,
    .client _ (List.prefix_refl _), start_files newborn hf _, ?_⟩
  dsimp only [filesOf]
  rw [h1]
  exact ⟨by decide, by decide, by decide, by decide⟩

/-- Nor does it hold for the wallet file itself: a client that was asked for a
new address, killed after it opened the wallet file, starts again with no key
and no money, without an error. -/
theorem C107_wallet_violated : ∃ (cl : Client) (d : Draw) (f : Files) (r : Client),
    ClientHistory toy sgn cl ∧ balanceOf cl.wallet = 12 ∧
    Killed (filesOf someSecrets cl cl.wallet.utxos) (clientBytes (newAddress cl d).2)
      (walletBytes someSecrets (newAddress cl d).2.wallet.keys
        (newAddress cl d).2.wallet.utxos) f ∧
    start newborn f = some r ∧ r.wallet.keys = [] ∧ coins r = [] ∧
    r.wallet.balance = 0 := by
  have hf : Fits (newAddress client (keyC, 0)).2 :=
    ⟨⟨by decide, by decide, by unfold FullTx.Fits; decide⟩, by decide, by decide,
      by decide, by decide⟩
  refine ⟨client, (keyC, 0), _, _, client_history, by decide,
    .wallet [] List.nil_prefix, start_files newborn hf _, ?_⟩
  exact ⟨by decide, by decide, by decide⟩

/-- And a client killed after it opened the file of pending payments does not
start again, whatever the wallet file. -/
theorem C107_client_violated : ∃ (cl : Client) (d : Draw) (f : Files),
    ClientHistory toy sgn cl ∧
    Killed (filesOf someSecrets cl cl.wallet.utxos) (clientBytes (newAddress cl d).2)
      (walletBytes someSecrets (newAddress cl d).2.wallet.keys
        (newAddress cl d).2.wallet.utxos) f ∧
    ∀ w o, start w { f with wallet := o } = none := by
  have hf : Fits (newAddress client (keyC, 0)).2 :=
    ⟨⟨by decide, by decide, by unfold FullTx.Fits; decide⟩, by decide, by decide,
      by decide, by decide⟩
  refine ⟨client, (keyC, 0), _, client_history, .client [] List.nil_prefix, ?_⟩
  intro w o
  exact C107_client_cut w hf List.nil_prefix (by decide) o

/-- Between the two saves of `send` the money is set aside for a payment that is
not on record: a client killed there has 5 that it can neither spend nor get
back, as there is nothing to abandon or to confirm. -/
theorem C107_draft_violated : ∃ (cl r : Client),
    ClientHistory toy sgn cl ∧ cl = (create toy sgn client 4 keyB (keyC, 0)).2 ∧
    start newborn (filesOf someSecrets cl cl.wallet.utxos) = some r ∧
    coin 1 5 ∉ r.wallet.utxos ∧ coin 1 5 ∈ aside r ∧
    ∀ id, abandon toy r id = (false, r) ∧ confirm toy r id = (false, r) := by
  have hf : Fits drafted :=
    ⟨⟨by decide, by decide, by unfold FullTx.Fits; decide⟩, by decide, by decide,
      by decide, by decide⟩
  obtain ⟨r, hr, hs⟩ := C107_saved newborn someSecrets hf (List.Perm.refl _)
  refine ⟨drafted, r, drafted_history, rfl, hr, ?_, ?_, ?_⟩
  · intro h
    have := hs.utxos.mem_iff.mp h
    revert this
    decide
  · unfold aside
    rw [hs.spend]
    decide
  · intro id
    have ht : r.txs = [] := hs.txs.trans (by rfl)
    have hi : r.inputs = [] := hs.inputs.trans (by rfl)
    unfold abandon confirm confirmPending confirmInput
    rw [ht, hi]
    exact ⟨rfl, by simp [hi]⟩

/-! ### Examples -/

/-- The operation and the clients that `C107_between_partial` speaks about exist. -/
example : ∃ r, start newborn ⟨some (clientBytes (perform toy sgn client
      (.send 4 keyB (keyC, 0)))),
      some (walletBytes someSecrets client.wallet.keys client.wallet.utxos)⟩ = some r ∧
    (∀ i ∈ coins client, i ∈ coins r) :=
  have ⟨r, h1, h2, _⟩ := C107_between_partial toy sgn newborn someSecrets client_fits
    (op := .send 4 keyB (keyC, 0)) trivial paid_fits (List.Perm.refl _)
  ⟨r, h1, h2⟩

example : coins client = [coin 1 5, coin 2 7] := rfl

/-- The files of the example hold bytes. -/
example : (clientBytes paid).length = 457 ∧
    (walletBytes someSecrets paid.wallet.keys paid.wallet.utxos).length = 224 := by
  decide +kernel

/-- A wallet file cut after the first key loses the others. -/
example : (loadWallet newborn ((walletBytes someSecrets paid.wallet.keys
    paid.wallet.utxos).take 80)).keys = paid.wallet.keys.take 1 := by
  decide +kernel

end Verif.Wallet
