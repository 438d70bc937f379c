import Verif.Wallet.Props
/-!
# The balance of a wallet (C30)
-/
namespace Verif.Wallet

open Verif.Serial Verif.Tx

/-! ### Specification -/

/-- The operations on a wallet.  Booleans say whether a payment is signed. -/
inductive Op
  | key (d : Draw)
  | mint (v : UInt32) (ds : List Draw)
  | send (amount : UInt32) (payee : PubKey) (d : Draw) (b : Bool)
  | fan (count : UInt64) (v : UInt32) (payee : PubKey) (d : Draw) (b : Bool)
  | counts (nin nout : UInt64) (payee : PubKey) (b : Bool)
  | confirm (t : FullTx)
  | credit (l : List Input)
  | load (keys : List PubKey) (order : List Input)

def apply (c : Crypto) (sg : Signer) (w : Wallet) : Op → Wallet
  | .key d => (generateKey w d).2
  | .mint v ds => (Wallet.mint c w v ds).2
  | .send amount payee d b => (sendTo c sg w amount payee d b).2
  | .fan count v payee d b => (Wallet.fan c sg w count v payee d b).2
  | .counts nin nout payee b => (sendCounts c sg w nin nout payee b).2
  | .confirm t => confirmTx c w t
  | .credit l => confirmInputs w l
  | .load keys order => Wallet.load w keys order

/-- A new wallet, perhaps with seeds. -/
def Fresh (w : Wallet) : Prop :=
  w.utxos = [] ∧ w.queue = [] ∧ w.balance = 0

/-- None of the outputs is an unspent seed. -/
def NoSeed (c : Crypto) (w : Wallet) (l : List Input) : Prop :=
  ∀ i ∈ l, ∀ s ∈ seeds c w, i.prevout ≠ s.prevout

/-- Which operations are considered.  A transaction that is confirmed spends
nothing that the wallet still holds: the wallet forgot the outputs when it made
the transaction.  No transaction spends its own outputs.  Seeds are not credited
while they are unspent.  What is loaded was saved. -/
def Allowed (c : Crypto) (w : Wallet) : Op → Prop
  | .confirm t => (∀ i ∈ t.inputs, has w.utxos i = false ∧
      i.prevout.txId ≠ txId c t) ∧ NoSeed c w (newUtxos c w t)
  | .credit l => NoSeed c w l
  | .counts _ _ _ _ => w.utxos.length + seedsLeft w < 2 ^ 64
  | .load _ order => order.Perm w.utxos
  | _ => True

/-- Histories of a wallet whose seeds, if any, are different outputs. -/
inductive History (c : Crypto) (sg : Signer) : Wallet → Prop
  | start {w : Wallet} (h : Fresh w)
    (hd : ((seeds c w).map (·.prevout)).Nodup) : History c sg w
  | step {w : Wallet} (h : History c sg w) (op : Op) (ok : Allowed c w op) :
    History c sg (apply c sg w op)

/-! ### The invariant -/

theorem has_iff (s : List Input) (i : Input) :
    has s i = true ↔ i.prevout ∈ s.map (·.prevout) := by
  simp only [has, List.any_eq_true, decide_eq_true_eq, List.mem_map]

theorem credit_spec {c : Crypto} {w : Wallet} (inv : Inv c w) {l : List Input}
    (hn : NoSeed c w l) :
    Inv c (credit w l) ∧ (credit w l).keys = w.keys ∧
      seeds c (credit w l) = seeds c w ∧
      ∀ p, p ∈ (credit w l).utxos.map (·.prevout) ↔
        p ∈ w.utxos.map (·.prevout) ∨ p ∈ l.map (·.prevout) := by
  induction l generalizing w with
  | nil => simp [credit, inv]
  | cons i l ih =>
    simp only [credit]
    have hn1 : NoSeed c w l := fun x hx => hn x (List.mem_cons_of_mem _ hx)
    split
    · next hi =>
      obtain ⟨h1, h2, h3, h4⟩ := ih inv hn1
      refine ⟨h1, h2, h3, fun p => ?_⟩
      rw [h4, List.map_cons, List.mem_cons]
      rw [has_iff] at hi
      constructor
      · rintro (h | h)
        · exact .inl h
        · exact .inr (.inr h)
      · rintro (h | rfl | h)
        · exact .inl h
        · exact .inl hi
        · exact .inr h
    · next hi =>
      have hi' : i.prevout ∉ w.utxos.map (·.prevout) := by
        rw [← has_iff]; exact hi
      have inv' : Inv c { w with
          utxos := w.utxos ++ [i]
          balance := w.balance + i.prevoutData.value
          queue := w.queue ++ [i] } := by
        refine ⟨inv.perm.append_right _, ?_, ?_⟩
        · show ((seeds c w ++ (w.utxos ++ [i])).map (·.prevout)).Nodup
          rw [← List.append_assoc, List.map_append, List.nodup_append]
          refine ⟨inv.nodup, by simp, ?_⟩
          intro p hp q hq
          simp only [List.map_cons, List.map_nil, List.mem_singleton] at hq
          subst hq
          intro he
          subst he
          rw [List.map_append, List.mem_append] at hp
          rcases hp with hp | hp
          · obtain ⟨s, hs, he⟩ := List.mem_map.mp hp
            exact hn i (List.mem_cons_self ..) s hs he.symm
          · exact hi' hp
        · simp only
          rw [UInt64.toNat_add, inv.balance, value_append, value_cons, value_nil]
          omega
      obtain ⟨h1, h2, h3, h4⟩ := ih inv' hn1
      refine ⟨h1, h2, h3, fun p => ?_⟩
      rw [h4]
      simp only [List.map_append, List.map_cons, List.map_nil, List.mem_append,
        List.mem_cons, List.not_mem_nil, or_false]
      constructor
      · rintro ((h | h) | h)
        · exact .inl h
        · exact .inr (.inl h)
        · exact .inr (.inr h)
      · rintro (h | h | h)
        · exact .inl (.inl h)
        · exact .inl (.inr h)
        · exact .inr h

theorem debit_none {w : Wallet} {l : List Input}
    (h : ∀ i ∈ l, has w.utxos i = false) : debit w l = w := by
  induction l with
  | nil => rfl
  | cons i l ih =>
    simp only [debit]
    rw [h i (List.mem_cons_self ..)]
    exact ih fun x hx => h x (List.mem_cons_of_mem _ hx)

theorem newUtxos_id {c : Crypto} {w : Wallet} {t : FullTx} {i : Input}
    (h : i ∈ newUtxos c w t) : i.prevout.txId = txId c t := by
  unfold newUtxos at h
  rw [List.mem_filterMap] at h
  obtain ⟨n, _, hn⟩ := h
  unfold inputFromOutputId at hn
  cases ho : t.outputs[n]? with
  | none => simp [ho] at hn
  | some o =>
    simp only [ho] at hn
    split at hn
    · simp only [Option.some.injEq] at hn
      rw [← hn]
    · cases hn

theorem mint_spec {c : Crypto} {w : Wallet} (inv : Inv c w) (v : UInt32)
    (ds : List Draw) : Inv c (mint c w v ds).2 := by
  induction ds generalizing w with
  | nil => exact inv
  | cons d ds ih =>
    obtain ⟨l, h1, _⟩ := generateKey_spec w d
    simp only [mint]
    rw [h1]
    exact ih (inv.keys l)

theorem Inv.confirm {c : Crypto} {w : Wallet} (inv : Inv c w) {t : FullTx}
    (ok : Allowed c w (.confirm t)) :
    Inv c (confirmTx c w t) ∧ confirmTx c w t = credit w (newUtxos c w t) := by
  obtain ⟨h1, h2, h3, h4⟩ := credit_spec inv ok.2
  have : confirmTx c w t = credit w (newUtxos c w t) := by
    unfold confirmTx updateBalance
    apply debit_none
    intro i hi
    obtain ⟨hx, hy⟩ := ok.1 i hi
    apply Bool.eq_false_iff.mpr
    intro hh
    rw [has_iff, h4] at hh
    rcases hh with hh | hh
    · rw [← has_iff, hx] at hh; cases hh
    · obtain ⟨x, hx, he⟩ := List.mem_map.mp hh
      rw [← he, newUtxos_id hx] at hy
      exact hy rfl
  exact ⟨this ▸ h1, this⟩

theorem Inv.step {c : Crypto} {sg : Signer} {w : Wallet} (inv : Inv c w)
    (op : Op) (ok : Allowed c w op) : Inv c (apply c sg w op) := by
  cases op with
  | key d =>
    obtain ⟨l, h1, _⟩ := generateKey_spec w d
    simp only [apply, h1]
    exact inv.keys l
  | mint v ds => exact mint_spec inv v ds
  | send amount payee d b =>
    simp only [apply, sendTo]
    rcases accumulate_mod inv amount.toUInt64 with ⟨ha, _⟩ |
      ⟨ins, tot, w1, ha, hp, ht, hle, hi, hk⟩
    · simp only [ha]; exact inv
    · obtain ⟨l, ch, hc, _⟩ := change_spec c w1 tot amount.toUInt64 d hle
      simp only [ha, hc]
      exact hi.keys l
  | fan count v payee d b =>
    simp only [apply, fan]
    rcases accumulate_mod inv (count * v.toUInt64) with ⟨ha, _⟩ |
      ⟨ins, tot, w1, ha, hp, ht, hle, hi, hk⟩
    · simp only [ha]; exact inv
    · obtain ⟨l, ch, hc, _⟩ := change_spec c w1 tot _ d hle
      simp only [ha, hc]
      exact hi.keys l
  | counts nin nout payee b =>
    simp only [apply]
    rcases counts_mod (sg := sg) inv nin nout payee b ok with ⟨h1, _⟩ |
      ⟨t, w', h1, h2, h3, _⟩
    · rw [h1]; exact inv
    · rw [h1]; exact h3
  | confirm t => exact (inv.confirm ok).1
  | credit l => exact (credit_spec inv ok).1
  | load keys order =>
    simp only [apply, load]
    have ok : order.Perm w.utxos := ok
    refine ⟨.refl _, ?_, ?_⟩
    · have hx : ((seeds c w ++ order).map (·.prevout)).Perm
          ((held c w).map (·.prevout)) := (ok.append_left _).map _
      exact hx.nodup_iff.mpr inv.nodup
    · simp only
      rw [sum64_aux, UInt64.toNat_zero, Nat.zero_add]

theorem History.inv {c : Crypto} {sg : Signer} {w : Wallet}
    (h : History c sg w) : Inv c w := by
  induction h with
  | start h hd =>
    obtain ⟨h1, h2, h3⟩ := h
    refine ⟨by rw [h1, h2], ?_, by rw [h1, h3]; simp [value_nil]⟩
    unfold held
    rw [h1, List.append_nil]
    exact hd
  | step h op ok ih => exact ih.step op ok

/-! ### C30 -/

/-- **C30, when every transaction that is confirmed was made by the wallet:** the
balance is the value of what the wallet holds (modulo 2^64), the outputs offered
for spending are those it holds, each once, and the assertion of
`update_balance` holds. -/
theorem C30_balance_partial {c : Crypto} {sg : Signer} {w : Wallet}
    (h : History c sg w) :
    (balanceOf w).toNat = value (held c w) % 2 ^ 64 ∧
    w.queue.Perm w.utxos ∧ ((held c w).map (·.prevout)).Nodup ∧
    assertOk w = true := by
  have inv := h.inv
  refine ⟨?_, inv.perm, inv.nodup, by
    simp [assertOk, inv.perm.length_eq]⟩
  have hval : value (held c w) =
      seedsLeft w * w.seedValue.toUInt64.toNat + value w.utxos := by
    unfold held
    rw [value_append]
    unfold seeds
    rw [value_seeds, List.length_range]
  unfold balanceOf
  split
  · rw [UInt64.toNat_add, UInt64.toNat_mul, inv.balance, hval]
    unfold seedsLeft
    omega
  · next he =>
    have he : w.seedFrom = w.seedTo := Classical.not_not.mp he
    rw [inv.balance, hval]
    unfold seedsLeft
    rw [he]
    simp

/-! ### Examples -/

def keyA : PubKey := fill 32 7
def keyB : PubKey := fill 32 8
def sgn : Signer := fun k _ => fill 64 (k.val.headD 0)

/-- An output worth `v` that belongs to key A. -/
def coin (n : UInt8) (v : UInt64) : Input :=
  ⟨⟨fill 32 n, 0⟩, ⟨p2pkCommitment toy keyA, v⟩⟩

/-- A wallet that made key A. -/
def empty : Wallet := (generateKey { seedCommit := zero } (keyA, 0)).2

/-- The same with outputs worth 5 and 7. -/
def rich : Wallet := confirmInputs empty [coin 1 5, coin 2 7]

theorem empty_history : History toy sgn empty :=
  .step (.start ⟨rfl, rfl, rfl⟩ (by simp [seeds, seedsLeft])) (.key (keyA, 0))
    trivial

theorem rich_history : History toy sgn rich :=
  .step empty_history (.credit [coin 1 5, coin 2 7]) (by
    intro i _ s hs
    simp [seeds, seedsLeft, empty, generateKey] at hs)

example : (balanceOf rich) = 12 := by decide

/-- Paying 6 out of 5 and 7 leaves 6 as change. -/
example : ∃ t w, sendTo toy sgn rich 6 keyB (keyB, 0) true = (some t, w) ∧
    t.inputs = [coin 1 5, coin 2 7] ∧ t.outputs.map (·.value) = [6, 6] ∧
    balanceOf w = 0 := by
  refine ⟨_, _, rfl, rfl, rfl, rfl⟩

/-- That payment passes validation. -/
example {t : FullTx} {w : Wallet}
    (h : sendTo toy sgn rich 6 keyB (keyB, 0) true = (some t, w)) :
    checkTx toy t = .pass := by
  have hw : w.keys = [keyA, keyB] := by
    have : (sendTo toy sgn rich 6 keyB (keyB, 0) true).2.keys = [keyA, keyB] :=
      rfl
    rw [h] at this
    exact this
  refine C29_accepted rich_history.inv ?_ ?_ (by decide) (by decide) h
  · intro i hi
    have : held toy rich = [coin 1 5, coin 2 7] := rfl
    rw [this] at hi
    simp only [List.mem_cons, List.not_mem_nil, or_false] at hi
    rcases hi with rfl | rfl <;> decide
  · intro k hk id
    rw [hw] at hk
    simp only [List.mem_cons, List.not_mem_nil, or_false] at hk
    rcases hk with rfl | rfl <;> exact ⟨by decide, rfl⟩

example : sendTo toy sgn rich 13 keyB (keyB, 0) true = (none, rich) :=
  C29_refused rich_history.inv 13 keyB (keyB, 0) true (by decide)

/-- A wallet with ten seeds pays with three of them. -/
example : ∃ t w, sendTo toy sgn { empty with seedTo := 10, seedValue := 4 } 9
    keyB (keyB, 0) false = (some t, w) ∧ t.inputs.length = 3 ∧
    t.outputs.map (·.value) = [9, 3] ∧ balanceOf w = 28 := by
  refine ⟨_, _, rfl, rfl, rfl, rfl⟩

/-- A transaction that spends the output worth 5, made by someone else with the
same key (a copy of the wallet). -/
def foreign : FullTx where
  inputs := [coin 1 5]
  outputs := [⟨p2pkCommitment toy keyB, 5⟩]
  witness := []

/-- **C30 is violated** by a confirmed transaction that spends an output the
wallet still holds: the output is no longer held and no longer counted, but it is
offered first for spending.  The assertion of `update_balance` fails.  Without
assertions the next payment spends the output a second time, and the balance
wraps around. -/
theorem C30_violated : ∃ w, History toy sgn w ∧
    balanceOf w = 5 ∧ foreign.inputs ⊆ w.utxos ∧
    assertOk (confirmTx toy w foreign) = false ∧
    balanceOf (confirmTx toy w foreign) = 0 ∧
    held toy (confirmTx toy w foreign) = [] ∧
    ∃ t w', sendTo toy sgn (confirmTx toy w foreign) 5 keyA (keyA, 0) true =
        (some t, w') ∧ t.inputs = foreign.inputs ∧
      balanceOf w' = 18446744073709551611 := by
  refine ⟨confirmInputs empty [coin 1 5], ?_, by decide, ?_, by decide,
    by decide, by decide, ?_⟩
  · exact .step empty_history (.credit [coin 1 5]) (by
      intro i _ s hs
      simp [seeds, seedsLeft, empty, generateKey] at hs)
  · intro i hi
    have : (confirmInputs empty [coin 1 5]).utxos = [coin 1 5] := rfl
    rw [this]
    exact hi
  · exact ⟨_, _, rfl, rfl, rfl⟩

/-- With values near 2^64 the sum of the inputs wraps around, and a payment that
the wallet can afford is refused. -/
theorem C29_overflow : ∃ w, History toy sgn w ∧ 10 ≤ value (held toy w) ∧
    sendTo toy sgn w 10 keyB (keyB, 0) true = (none, w) := by
  refine ⟨confirmInputs empty [coin 1 5, coin 2 18446744073709551615], ?_,
    by decide, rfl⟩
  exact .step empty_history (.credit _) (by
      intro i _ s hs
      simp [seeds, seedsLeft, empty, generateKey] at hs)

end Verif.Wallet
