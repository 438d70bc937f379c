import Verif.Wallet.Cli
import Verif.Wallet.ClientConfirm
import Verif.Bech32.Props
import Verif.Hex.Props
import Verif.Serial.Props
import Verif.Tx.Lemmas
import Verif.Config.FileLemmas
/-!
# C110: the commands of the client
-/
namespace Verif.Wallet.Cli

open Verif.Serial hiding dec
open Verif.Tx Verif.Evm
open Verif.Http (lit stoull decimal startsDigit stoullDigits)
open Verif.Config (dec)

/-! ### Specification -/

/-- The world is well enough for the program to come to the command. -/
def Ready (w : World) : Prop := (∀ f, w.config f = none) ∧ w.started = true

/-- A command line: the program, its three files, a command with arguments. -/
def line (f : Text × Text × Text × Text) (name : String) (args : List Text) : List Text :=
  f.1 :: f.2.1 :: f.2.2.1 :: f.2.2.2 :: lit name :: args

/-- The text `a` is an address of the key `k`. -/
def AddressOf (a : Text) (k : PubKey) : Prop :=
  Bech32.addressDecode (a.map UInt8.toNat) = .key (k.val.map UInt8.toNat)

/-- The client has nothing to do with this transaction so far. -/
def Unknown (c : Crypto) (cl : Client) (id : Hash) : Prop :=
  (∀ e ∈ cl.inputs, e.1 ≠ id) ∧ (∀ e ∈ cl.txs, e.1 ≠ id) ∧
    ∀ x ∈ owned c cl, x.prevout.txId ≠ id

/-! ### Texts -/

theorem run_ready {c : Crypto} {sg : Signer} {w : World} (hw : Ready w) (cl : Client)
    (f : Text × Text × Text × Text) (name : String) (args : List Text) :
    run c sg w cl (line f name args) = command c sg w cl (line f name args) (lit name) := by
  unfold run line
  simp only [hw.1, hw.2, if_true]

theorem run_send {c : Crypto} {sg : Signer} {w : World} (hw : Ready w) (cl : Client)
    (f : Text × Text × Text × Text) (v a : Text) (rest : List Text) :
    run c sg w cl (line f "send" (v :: a :: rest)) =
      reading cl v fun v => paying cl a fun payee =>
        report c payee (answered c w (create c sg cl v.toUInt32 payee (w.draws 0))) := by
  rw [run_ready hw]
  unfold command
  rw [if_neg (by decide), if_pos rfl]
  rfl

theorem run_fan {c : Crypto} {sg : Signer} {w : World} (hw : Ready w) (cl : Client)
    (f : Text × Text × Text × Text) (n v a : Text) (rest : List Text) :
    run c sg w cl (line f "fan" (n :: v :: a :: rest)) =
      reading cl v fun v => reading cl n fun n => paying cl a fun payee =>
      report c payee (answered c w (made c cl
        (fan c sg cl.wallet n.toUInt32.toUInt64 v.toUInt32 payee (w.draws 0) true))) := by
  rw [run_ready hw]
  unfold command
  rw [if_neg (by decide), if_neg (by decide), if_pos rfl]
  rfl

theorem run_mint {c : Crypto} {sg : Signer} {w : World} (hw : Ready w) (cl : Client)
    (f : Text × Text × Text × Text) (n v : Text) (rest : List Text) :
    run c sg w cl (line f "mint" (n :: v :: rest)) =
      reading cl n fun n => reading cl v fun v =>
      done (mintCoins c cl v.toUInt32 ((List.range n.toNat).map w.draws)).2
        [Hex.toHex (txId c
          (mintCoins c cl v.toUInt32 ((List.range n.toNat).map w.draws)).1).val] := by
  rw [run_ready hw]
  unfold command
  rw [if_pos rfl]
  rfl

theorem run_newaddress {c : Crypto} {sg : Signer} {w : World} (hw : Ready w) (cl : Client)
    (f : Text × Text × Text × Text) (rest : List Text) :
    run c sg w cl (line f "newaddress" rest) = newAddressCommand w cl := by
  rw [run_ready hw]
  unfold command
  rw [if_neg (by decide), if_neg (by decide), if_neg (by decide), if_neg (by decide), if_pos rfl]

theorem run_import {c : Crypto} {sg : Signer} {w : World} (hw : Ready w) (cl : Client)
    (f : Text × Text × Text × Text) (args : List Text) :
    run c sg w cl (line f "importinput" args) = importCommand c cl (line f "importinput" args) := by
  rw [run_ready hw]
  unfold command
  rw [if_neg (by decide), if_neg (by decide), if_neg (by decide), if_neg (by decide),
    if_neg (by decide), if_neg (by decide), if_pos rfl]

theorem run_confirm {c : Crypto} {sg : Signer} {w : World} (hw : Ready w) (cl : Client)
    (f : Text × Text × Text × Text) (args : List Text) :
    run c sg w cl (line f "confirmtx" args) = confirmCommand c w cl (line f "confirmtx" args) := by
  rw [run_ready hw]
  unfold command
  rw [if_neg (by decide), if_neg (by decide), if_neg (by decide), if_neg (by decide),
    if_neg (by decide), if_neg (by decide), if_neg (by decide), if_pos rfl]

theorem reading_ok {cl : Client} {t : Text} {n : UInt64} (h : stoull t = .ok n)
    (k : UInt64 → Run) : reading cl t k = k n := by
  unfold reading; rw [h]

theorem reading_dec (cl : Client) (n : Nat) (h : n < 2 ^ 64) (k : UInt64 → Run) :
    reading cl (dec n) k = k n.toUInt64 := reading_ok (Config.stoull_dec n h) k

theorem paying_ok {cl : Client} {a : Text} {p : PubKey} (h : AddressOf a p)
    (k : PubKey → Run) : paying cl a k = k p := by
  unfold paying
  rw [h]
  simp only [List.map_map]
  have : p.val.map (Nat.toUInt8 ∘ UInt8.toNat) = p.val := by
    conv => rhs; rw [← List.map_id p.val]
    apply List.map_congr_left
    intro b _
    simp
  rw [this]
  unfold toArr
  rw [dif_pos p.property]

/-! ### Numbers -/

theorem stoull_starts (x : UInt8) (r : Text) (hx : 48 ≤ x.toNat ∧ x.toNat ≤ 57) :
    stoull (x :: r) = if decimal (x :: r) 0 < 2 ^ 64 then .ok (decimal (x :: r) 0).toUInt64
      else .throws := by
  have hsp : Verif.Hex.isSpace x = false := by
    have e : x ≠ 32 := by intro he; subst he; exact absurd hx.1 (by decide)
    have e2 : ¬ x ≤ 13 := by
      rw [UInt8.le_iff_toNat_le]
      have : (13 : UInt8).toNat = 13 := rfl
      omega
    simp [Verif.Hex.isSpace, e, e2]
  have hd : (x :: r).dropWhile Verif.Hex.isSpace = x :: r := by simp [List.dropWhile, hsp]
  have h43 : x ≠ 43 := by intro he; subst he; exact absurd hx.1 (by decide)
  have h45 : x ≠ 45 := by intro he; subst he; exact absurd hx.1 (by decide)
  have hs : stoullDigits (x :: r) = if decimal (x :: r) 0 < 2 ^ 64 then
      .ok (decimal (x :: r) 0) else .throws := by
    unfold stoullDigits
    simp only [startsDigit, hx, and_self, decide_true, Bool.not_true, Bool.false_eq_true,
      if_false]
  unfold stoull
  rw [hd]
  split
  · rename_i heq; simp at heq; exact absurd heq.1 h43
  · rename_i heq; simp at heq; exact absurd heq.1 h45
  · rw [hs]; split <;> rfl

theorem decimal_cut (t : Text) (x : UInt8) (r : Text) (n : Nat)
    (ht : ∀ y ∈ t, 48 ≤ y.toNat ∧ y.toNat ≤ 57) (hx : ¬ (48 ≤ x.toNat ∧ x.toNat ≤ 57)) :
    decimal (t ++ x :: r) n = decimal t n := by
  induction t generalizing n with
  | nil => simp only [List.nil_append, decimal, if_neg hx]
  | cons y t ih =>
    have hy := ht y (by simp)
    simp only [List.cons_append, decimal, if_pos hy]
    exact ih _ fun z hz => ht z (by simp [hz])

/-- What follows the first character that is no digit is not looked at. -/
theorem stoull_cut (n : Nat) (x : UInt8) (r : Text)
    (hx : ¬ (48 ≤ x.toNat ∧ x.toNat ≤ 57)) : stoull (dec n ++ x :: r) = stoull (dec n) := by
  have hd := Config.dec_digits n
  have hc := decimal_cut (dec n) x r 0 hd hx
  cases h : dec n with
  | nil => exact absurd h (Config.dec_ne_nil n)
  | cons y t =>
    rw [h] at hd hc
    have hy : 48 ≤ y.toNat ∧ y.toNat ≤ 57 := hd y (by simp)
    rw [List.cons_append, stoull_starts y _ hy, stoull_starts y _ hy, ← List.cons_append, hc]

theorem stoull_minus (n : Nat) (h : n < 2 ^ 64) :
    stoull (45 :: dec n) = .ok (0 - n.toUInt64) := by
  have hd := Config.dec_digits n
  have hs : stoullDigits (dec n) = .ok n := by
    have hc := Config.decimal_dec n
    cases h' : dec n with
    | nil => exact absurd h' (Config.dec_ne_nil n)
    | cons y t =>
      rw [h'] at hd hc
      have hy : 48 ≤ y.toNat ∧ y.toNat ≤ 57 := hd y (by simp)
      unfold stoullDigits
      simp only [startsDigit, hy, and_self, decide_true, Bool.not_true, Bool.false_eq_true,
        if_false, hc, h, if_true]
  unfold stoull
  rw [show (45 :: dec n).dropWhile Verif.Hex.isSpace = 45 :: dec n from by
    simp [List.dropWhile, Verif.Hex.isSpace]]
  simp only [hs]
  rfl

/-! ### What the commands print is read by the commands -/

theorem hashArg_hex (h : Hash) : hashArg (Hex.toHex h.val) = some h := by
  unfold hashArg
  rw [Hex.C37_hash h.val h.property]
  have : (h.val.map some).mapM id = some h.val := by
    generalize h.val = l
    induction l with
    | nil => rfl
    | cons x l ih => simp [List.mapM_cons, ih]
  simp only [this, Option.bind_eq_bind, Option.bind_some]
  unfold toArr
  rw [dif_pos h.property]

theorem inputBytes_length (i : Input) : (inputBytes i).length = 80 := by
  have h1 := i.prevout.txId.property
  have h2 := i.prevoutData.commitment.property
  simp [inputBytes, makeBuffer, tInput, tOutPoint, tOutput, tHash, tU64, enc, Input.wire,
    OutPoint.wire, Output.wire, encInt, h1, h2]

theorem importCommand_hex (c : Crypto) (cl : Client) (f : Text × Text × Text × Text)
    (name : String) (i : Input) (rest : List Text) :
    importCommand c cl (line f name (Hex.toHex (inputBytes i) :: rest)) =
      done (importInput c cl i) [] := by
  have hl := inputBytes_length i
  have h1 : Hex.fromHex (Hex.toHex (inputBytes i)) = some (inputBytes i) :=
    Hex.C37_round_trip _ (by intro e; rw [e] at hl; simp at hl) (by omega)
  have h2 : inputFrom (inputBytes i) = some (some i) := by
    have := C01_roundtrip_buffer tInput i.wire i.wire_wf []
    rw [List.append_nil] at this
    unfold inputFrom inputBytes
    rw [this]
    simp only [Input.ofWire_wire]
  unfold importCommand line
  simp only [List.getElem?_cons_succ, List.getElem?_cons_zero, h1, h2]

theorem newAddress_text (k : PubKey) :
    ∃ a, Bech32.newAddress (k.val.map UInt8.toNat) = some a ∧
      AddressOf (a.map Nat.toUInt8) k := by
  obtain ⟨a, h1, h2⟩ := Bech32.C38_address_round_trip (k.val.map UInt8.toNat)
    ⟨by rw [List.length_map, k.property], by
      intro b hb
      obtain ⟨x, _, rfl⟩ := List.mem_map.mp hb
      exact x.toNat_lt⟩
  refine ⟨a, h1, ?_⟩
  unfold AddressOf
  rw [List.map_map]
  have : a.map (UInt8.toNat ∘ Nat.toUInt8) = a := by
    obtain ⟨d, hd⟩ := Bech32.addressDecode_prefix (s := a) (by rw [h2]; exact fun h => nomatch h)
    have hw := ((Bech32.decode_iff _ _ _).mp hd).1
    conv => rhs; rw [← List.map_id a]
    apply List.map_congr_left
    intro x hx
    unfold Bech32.wellFormed at hw
    rw [Bool.and_eq_true, List.all_eq_true] at hw
    have := of_decide_eq_true (hw.1 x hx)
    simp only [Function.comp, id, Nat.toUInt8, UInt8.toNat_ofNat']
    omega
  rw [this, h2]

theorem mem_txResult {c : Crypto} {t : FullTx} {r : Response} {payee : PubKey} {i : Input}
    (h : i ∈ exportInputs c t payee) : Hex.toHex (inputBytes i) ∈ txResult c t r payee := by
  unfold txResult
  simp only [List.mem_append]
  exact .inl (.inl (.inr (List.mem_flatMap.mpr ⟨i, h, by simp⟩)))

theorem mem_export {c : Crypto} {t : FullTx} {payee : PubKey} {n : Nat} {o : Output}
    (h : t.outputs[n]? = some o) (ho : o.commitment = p2pkCommitment c payee) :
    (⟨⟨txId c t, UInt64.ofNat n⟩, o⟩ : Input) ∈ exportInputs c t payee := by
  unfold exportInputs
  rw [List.mem_filterMap]
  refine ⟨n, List.mem_range.mpr (List.getElem?_eq_some_iff.mp h).1, ?_⟩
  unfold inputFromOutput inputFromOutputId
  simp only [h, ho, if_true]

theorem export_first {c : Crypto} {t : FullTx} {payee : PubKey} {o : Output} {l : List Output}
    (h : t.outputs = o :: l) (ho : o.commitment = p2pkCommitment c payee) :
    ∃ rest, exportInputs c t payee = ⟨⟨txId c t, 0⟩, o⟩ :: rest := by
  unfold exportInputs
  rw [h, List.length_cons, List.range_succ_eq_map, List.filterMap_cons]
  have : inputFromOutput c t 0 = some ⟨⟨txId c t, 0⟩, o⟩ := by
    unfold inputFromOutput inputFromOutputId
    rw [h]
    rfl
  rw [this]
  simp only [ho, if_true]
  exact ⟨_, rfl⟩

theorem sendTo_first {c : Crypto} {sg : Signer} {w w' : Wallet} {amount : UInt32}
    {payee : PubKey} {d : Draw} {b : Bool} {t : FullTx}
    (h : sendTo c sg w amount payee d b = (some t, w')) :
    ∃ ch, t.outputs = ⟨p2pkCommitment c payee, amount.toUInt64⟩ :: ch := by
  unfold sendTo at h
  split at h
  · cases h
  · simp only [Prod.mk.injEq, Option.some.injEq] at h
    rw [← h.1, (signIf_same ..).2]
    exact ⟨_, rfl⟩

theorem register_wallet (c : Crypto) (cl : Client) (l : List Input) :
    (register c cl l).wallet = cl.wallet := by
  induction l generalizing cl with
  | nil => rfl
  | cons i l ih => rw [register, ih]

/-- `send` of the model, when the sentinel answers. -/
theorem answered_some {c : Crypto} {w : World} {t : FullTx} {cl : Client} {r : Response}
    (h : w.answer t = some r) :
    answered c w (some t, cl) = (some (t, r), if r.status = .confirmed then
      (confirm c (importTx c cl t) (txId c t)).2 else importTx c cl t) := by
  unfold answered sendTransaction
  simp only [h]

theorem answered_none {c : Crypto} {w : World} {t : FullTx} {cl : Client}
    (h : w.answer t = none) :
    answered c w (some t, cl) = (none, importTx c cl t) := by
  unfold answered sendTransaction
  simp only [h]

theorem importTx_there (c : Crypto) (cl : Client) (t : FullTx) :
    ((importTx c cl t).txs.lookup (txId c t)).isSome := by
  unfold importTx put
  dsimp only
  split
  · next h => exact h
  · next h =>
    have h' : cl.txs.lookup (txId c t) = none := by
      cases hl : cl.txs.lookup (txId c t) with
      | none => rfl
      | some _ => rw [hl] at h; exact absurd rfl h
    rw [List.lookup_append, h']
    simp

/-! ### C110 -/

/-- What a payment made by a command leaves: the payment `t` is pending, or it is
confirmed already. -/
def Settled (c : Crypto) (sent : Client) (t : FullTx) (r : Response) (cl : Client) : Prop :=
  (r.status ≠ .confirmed → cl = sent) ∧
    (r.status = .confirmed → confirm c sent (txId c t) = (true, cl))

theorem settled {c : Crypto} {cl : Client} {t : FullTx} {r : Response} :
    Settled c (importTx c cl t) t r (if r.status = .confirmed then
      (confirm c (importTx c cl t) (txId c t)).2 else importTx c cl t) := by
  constructor
  · intro h; rw [if_neg h]
  · intro h
    rw [if_pos h]
    obtain ⟨u, hu⟩ := Option.isSome_iff_exists.mp (importTx_there c cl t)
    rw [confirm_eq]
    unfold confirmPending
    rw [hu]
    simp

theorem mint_made (c : Crypto) (w : Wallet) (v : UInt32) (ds : List Draw) :
    (mint c w v ds).1.inputs = [] ∧ (mint c w v ds).1.outputs.length = ds.length ∧
      (∀ o ∈ (mint c w v ds).1.outputs, o.value = v.toUInt64 ∧
        ∃ k ∈ (mint c w v ds).2.keys, o.commitment = p2pkCommitment c k) ∧
      held c (mint c w v ds).2 = held c w := by
  have keep : ∀ (ds : List Draw) (w : Wallet) (k : PubKey), k ∈ w.keys →
      k ∈ (mint c w v ds).2.keys := by
    intro ds
    induction ds with
    | nil => intro w k h; exact h
    | cons d ds ih =>
      intro w k h
      obtain ⟨l, h1, h2, h3⟩ := generateKey_spec w d
      simp only [mint]
      apply ih
      rw [h1]
      exact h3 k h
  induction ds generalizing w with
  | nil => exact ⟨rfl, rfl, by simp [mint], rfl⟩
  | cons d ds ih =>
    obtain ⟨l, h1, h2, h3⟩ := generateKey_spec w d
    obtain ⟨i1, i2, i3, i4⟩ := ih (generateKey w d).2
    simp only [mint]
    refine ⟨i1, by simp [i2], ?_, ?_⟩
    · intro o ho
      rcases List.mem_cons.mp ho with rfl | ho
      · exact ⟨rfl, _, keep ds _ _ (by rw [h1]; exact h2), rfl⟩
      · exact i3 o ho
    · rw [i4, h1]
      rfl

/-- **C110.** `send` with an amount below 2^32 in decimal and an address pays that
amount, out of what the wallet holds, to the key of the address, and nothing else but
change to itself; the program prints the number of the transaction, what the
recipient has to import, and the answer of the sentinel. -/
theorem C110_send {c : Crypto} {sg : Signer} {w : World} (hw : Ready w) {cl : Client}
    (inv : Inv c cl.wallet) (f : Text × Text × Text × Text) (n : UInt32) (a : Text)
    (k : PubKey) (ha : AddressOf a k) (haff : n.toNat ≤ value (held c cl.wallet))
    (fits : value (held c cl.wallet) < 2 ^ 64) (hr : ∀ t, (w.answer t).isSome) :
    ∃ t w' sent r out, send c sg cl n k (w.draws 0) = (some t, sent) ∧
      Payment c cl.wallet w' t [⟨p2pkCommitment c k, n.toUInt64⟩] ∧ sent.wallet = w' ∧
      w.answer t = some r ∧
      (run c sg w cl (line f "send" [dec n.toNat, a])).ended = .exit 0 ∧
      (run c sg w cl (line f "send" [dec n.toNat, a])).out = out ∧
      Settled c sent t r (run c sg w cl (line f "send" [dec n.toNat, a])).client ∧
      out.take 4 = [lit "tx_id:", Hex.toHex (txId c t).val,
        lit "Data for recipient importinput:",
        Hex.toHex (inputBytes ⟨⟨txId c t, 0⟩, ⟨p2pkCommitment c k, n.toUInt64⟩⟩)] ∧
      lit "Sentinel responded: " ++ r.status.text ∈ out := by
  obtain ⟨t, w', h1, hp⟩ := C29_pays (sg := sg) inv n k (w.draws 0) true haff fits
  obtain ⟨r, hr⟩ := Option.isSome_iff_exists.mp (hr t)
  obtain ⟨ch, hch⟩ := sendTo_first h1
  obtain ⟨rest, hrest⟩ := export_first (c := c) (payee := k) hch rfl
  have hcr : create c sg cl n k (w.draws 0) =
      (some t, register c { cl with wallet := w' } t.inputs) := by
    unfold create; rw [h1]; rfl
  have hrun : run c sg w cl (line f "send" [dec n.toNat, a]) =
      report c k (answered c w (create c sg cl n k (w.draws 0))) := by
    rw [run_send hw, reading_dec _ _ (Nat.lt_trans n.toNat_lt (by decide)), paying_ok ha]
    have : n.toNat.toUInt64.toUInt32 = n := by
      apply UInt32.toNat_inj.mp
      have := n.toNat_lt
      simp [Nat.toUInt64]
    rw [this]
  rw [hcr, answered_some hr] at hrun
  refine ⟨t, w', importTx c (register c { cl with wallet := w' } t.inputs) t, r, _, ?_, hp,
    ?_, hr, ?_, rfl, ?_, ?_, ?_⟩
  · unfold send; rw [hcr]; rfl
  · exact register_wallet _ _ _
  · rw [hrun]; rfl
  · rw [hrun]; exact settled
  · rw [hrun]
    show (txResult c t r k).take 4 = _
    unfold txResult
    rw [hrest]
    rfl
  · rw [hrun]
    show _ ∈ txResult c t r k
    unfold txResult
    simp

/-- **C110.** `fan` with a count and a value below 2^32 in decimal and an address makes
as many outputs of that value to the key of the address, and prints for each of them
what the recipient has to import. -/
theorem C110_fan {c : Crypto} {sg : Signer} {w : World} (hw : Ready w) {cl : Client}
    (inv : Inv c cl.wallet) (f : Text × Text × Text × Text) (n v : UInt32) (a : Text)
    (k : PubKey) (ha : AddressOf a k)
    (haff : n.toNat * v.toNat ≤ value (held c cl.wallet))
    (fits : value (held c cl.wallet) < 2 ^ 64) (hr : ∀ t, (w.answer t).isSome) :
    ∃ t w' sent r, fanOut c sg cl n v k (w.draws 0) = (some t, sent) ∧
      Payment c cl.wallet w' t (List.replicate n.toNat ⟨p2pkCommitment c k, v.toUInt64⟩) ∧
      sent.wallet = w' ∧ w.answer t = some r ∧
      (run c sg w cl (line f "fan" [dec n.toNat, dec v.toNat, a])).ended = .exit 0 ∧
      Settled c sent t r (run c sg w cl (line f "fan" [dec n.toNat, dec v.toNat, a])).client ∧
      ∀ j o, t.outputs[j]? = some o → o.commitment = p2pkCommitment c k →
        Hex.toHex (inputBytes ⟨⟨txId c t, UInt64.ofNat j⟩, o⟩) ∈
          (run c sg w cl (line f "fan" [dec n.toNat, dec v.toNat, a])).out := by
  have e32 : ∀ n : UInt32, n.toNat.toUInt64.toUInt32 = n := by
    intro n
    apply UInt32.toNat_inj.mp
    have := n.toNat_lt
    simp [Nat.toUInt64]
  have en : n.toUInt64.toNat = n.toNat := by simp
  rcases C29_fan (sg := sg) inv n.toUInt64 v k (w.draws 0) true (by rw [en]; omega) fits with
    ⟨h1, _⟩ | ⟨_, t, w', h1, hp⟩
  · rw [en] at h1; omega
  · rw [en] at hp
    obtain ⟨r, hr⟩ := Option.isSome_iff_exists.mp (hr t)
    have hrun : run c sg w cl (line f "fan" [dec n.toNat, dec v.toNat, a]) =
        report c k (answered c w (made c cl (some t, w'))) := by
      rw [run_fan hw, reading_dec _ _ (Nat.lt_trans v.toNat_lt (by decide)),
        reading_dec _ _ (Nat.lt_trans n.toNat_lt (by decide)), paying_ok ha, e32, e32, h1]
    rw [show made c cl (some t, w') = (some t, register c { cl with wallet := w' } t.inputs)
      from rfl, answered_some hr] at hrun
    refine ⟨t, w', importTx c (register c { cl with wallet := w' } t.inputs) t, r, ?_, hp,
      register_wallet _ _ _, hr, ?_, ?_, ?_⟩
    · unfold fanOut; rw [h1]; rfl
    · rw [hrun]; rfl
    · rw [hrun]; exact settled
    · intro j o hj ho
      rw [hrun]
      exact mem_txResult (mem_export hj ho)

/-- **C110.** `mint` makes a transaction without inputs, with as many outputs as asked
for, of the value asked for, each to a key of the wallet; it is pending. -/
theorem C110_mint {c : Crypto} {sg : Signer} {w : World} (hw : Ready w) (cl : Client)
    (f : Text × Text × Text × Text) (n : UInt64) (v : UInt32) :
    ∃ t cl', run c sg w cl (line f "mint" [dec n.toNat, dec v.toNat]) =
        ⟨cl', [Hex.toHex (txId c t).val], .exit 0⟩ ∧
      t.inputs = [] ∧ t.outputs.length = n.toNat ∧
      (∀ o ∈ t.outputs, o.value = v.toUInt64 ∧
        ∃ k ∈ cl'.wallet.keys, o.commitment = p2pkCommitment c k) ∧
      (cl'.txs.lookup (txId c t)).isSome ∧ cl'.spend = cl.spend ∧ cl'.inputs = cl.inputs ∧
      held c cl'.wallet = held c cl.wallet := by
  obtain ⟨h1, h2, h3, h4⟩ := mint_made c cl.wallet v ((List.range n.toNat).map w.draws)
  have e32 : v.toNat.toUInt64.toUInt32 = v := by
    apply UInt32.toNat_inj.mp
    have := v.toNat_lt
    simp [Nat.toUInt64]
  have e64 : n.toNat.toUInt64 = n := by simp [Nat.toUInt64]
  refine ⟨(mintCoins c cl v ((List.range n.toNat).map w.draws)).1,
    (mintCoins c cl v ((List.range n.toNat).map w.draws)).2, ?_, h1, ?_, h3, ?_, rfl, rfl, h4⟩
  · rw [run_mint hw, reading_dec _ _ n.toNat_lt,
      reading_dec _ _ (Nat.lt_trans v.toNat_lt (by decide)), e32, e64]
    rfl
  · have : (mintCoins c cl v ((List.range n.toNat).map w.draws)).1.outputs.length = _ := h2
    rw [this]
    simp
  · exact importTx_there ..

/-- **C110.** `newaddress` prints an address of a key that the wallet has from then
on. -/
theorem C110_newaddress {c : Crypto} {sg : Signer} {w : World} (hw : Ready w) (cl : Client)
    (f : Text × Text × Text × Text) :
    ∃ a k cl', run c sg w cl (line f "newaddress" []) = ⟨cl', [a], .exit 0⟩ ∧
      AddressOf a k ∧ k ∈ cl'.wallet.keys ∧ cl' = (newAddress cl (w.draws 0)).2 := by
  obtain ⟨a, h1, h2⟩ := newAddress_text (newAddress cl (w.draws 0)).1
  refine ⟨_, _, _, ?_, h2, ?_, rfl⟩
  · rw [run_newaddress hw]
    unfold newAddressCommand
    dsimp only
    rw [h1]
    rfl
  · obtain ⟨l, e1, e2, _⟩ := generateKey_spec cl.wallet (w.draws 0)
    show (generateKey cl.wallet (w.draws 0)).1 ∈ (generateKey cl.wallet (w.draws 0)).2.keys
    rw [e1]
    exact e2

/-- **C110.** A payment from one client to another with the commands: the recipient
asks for an address, the sender pays to it and hands over what is printed, the
recipient imports that and confirms the transaction.  Then the recipient holds an
output of exactly that amount more than before. -/
theorem C110_payment {c : Crypto} {sa sb : Signer} {wa wb : World} (ha : Ready wa)
    (hb : Ready wb) (hr : ∀ t, (wa.answer t).isSome) {A B : Client} (inv : Inv c A.wallet)
    (hist : ClientHistory c sb B) (fa fb : Text × Text × Text × Text) (n : UInt32)
    (haff : n.toNat ≤ value (held c A.wallet)) (fits : value (held c A.wallet) < 2 ^ 64) :
    ∃ addr B1 id data rest, run c sb wb B (line fb "newaddress" []) = ⟨B1, [addr], .exit 0⟩ ∧
      (run c sa wa A (line fa "send" [dec n.toNat, addr])).ended = .exit 0 ∧
      (run c sa wa A (line fa "send" [dec n.toNat, addr])).out =
        lit "tx_id:" :: Hex.toHex id.val :: lit "Data for recipient importinput:" ::
          data :: rest ∧
      (Unknown c B1 id → ∃ B2 B3 i out,
        run c sb wb B1 (line fb "importinput" [data]) = ⟨B2, [], .exit 0⟩ ∧
        run c sb wb B2 (line fb "confirmtx" [Hex.toHex id.val]) = ⟨B3, out, .exit 0⟩ ∧
        held c B3.wallet = held c B1.wallet ++ [i] ∧ i.prevoutData.value.toNat = n.toNat ∧
        i.prevout.txId = id ∧ aside B3 = aside B1 ∧ Inv c B3.wallet) := by
  obtain ⟨addr, k, B1, h1, h2, h3, h4⟩ := C110_newaddress (c := c) (sg := sb) hb B fb
  obtain ⟨t, w', sent, r, out, _, _, _, _, h5, h6, _, h7, _⟩ :=
    C110_send (sg := sa) ha inv fa n addr k h2 haff fits hr
  refine ⟨addr, B1, txId c t,
    Hex.toHex (inputBytes ⟨⟨txId c t, 0⟩, ⟨p2pkCommitment c k, n.toUInt64⟩⟩), out.drop 4, h1, h5,
    ?_, fun hu => ?_⟩
  · rw [h6]
    conv => lhs; rw [← List.take_append_drop 4 out, h7]
    rfl
  · have hist1 : ClientHistory c sb B1 := by
      rw [h4]
      exact .step hist (.newAddress (wb.draws 0)) trivial
    obtain ⟨B3, h8, h9, h10, _, _, h11⟩ := C31_received_partial
      (i := ⟨⟨txId c t, 0⟩, ⟨p2pkCommitment c k, n.toUInt64⟩⟩) hist1 ⟨k, h3, rfl⟩ hu.1 hu.2.1
      (fun x hx he => hu.2.2 x hx (by rw [he]))
    refine ⟨importInput c B1 ⟨⟨txId c t, 0⟩, ⟨p2pkCommitment c k, n.toUInt64⟩⟩, B3, _,
      [lit "Confirmed. Balance: " ++ wb.amount (balanceOf B3.wallet) ++ lit " UTXOs: " ++
        dec (utxoCount B3.wallet)], ?_, ?_, h9, ?_, rfl, h10, h11⟩
    · rw [run_import hb, importCommand_hex]
      rfl
    · rw [run_confirm hb]
      unfold confirmCommand line
      simp only [List.getElem?_cons_succ, List.getElem?_cons_zero, hashArg_hex, h8]
      rfl
    · simp

/-! ### Refusals -/

theorem confirm_false {c : Crypto} {cl cl' : Client} {id : Hash}
    (h : confirm c cl id = (false, cl')) : cl' = cl := by
  rw [confirm_eq] at h
  unfold confirmPending at h
  cases hl : cl.txs.lookup id with
  | some t => rw [hl] at h; simp at h
  | none =>
    rw [hl] at h
    unfold confirmInput at h
    dsimp only at h
    cases hi : cl.inputs.lookup id with
    | some i => rw [hi] at h; simp at h
    | none => rw [hi] at h; simp at h; exact h.symm

/-- A run that failed without changing the client, or one that did not fail. -/
def Clean (cl : Client) (r : Run) : Prop :=
  r.ended = .exit (-1) ∨ r.ended = .throws → r.client = cl

theorem clean_done (cl cl' : Client) (out : List Text) : Clean cl (done cl' out) := by
  rintro (h | h) <;> cases h

theorem clean_same (cl : Client) (out : List Text) (e : End) : Clean cl ⟨cl, out, e⟩ :=
  fun _ => rfl

theorem clean_reading {cl : Client} {t : Text} {k : UInt64 → Run}
    (h : ∀ n, Clean cl (k n)) : Clean cl (reading cl t k) := by
  unfold reading
  split
  · exact h _
  · exact clean_same _ _ _
  · exact clean_same _ _ _
  · exact clean_same _ _ _

theorem clean_paying {cl : Client} {a : Text} {k : PubKey → Run}
    (h : ∀ p, Clean cl (k p)) : Clean cl (paying cl a k) := by
  unfold paying
  split
  · exact clean_same _ _ _
  · exact clean_same _ _ _
  · split
    · exact clean_same _ _ _
    · exact h _

theorem clean_made {c : Crypto} {w : World} (hr : ∀ t, (w.answer t).isSome) {cl : Client}
    {payee : PubKey} {p : Option FullTx × Wallet} (h : p.1 = none → p.2 = cl.wallet) :
    Clean cl (report c payee (answered c w (made c cl p))) := by
  obtain ⟨o, w'⟩ := p
  cases o with
  | none =>
    have : w' = cl.wallet := h rfl
    subst this
    exact clean_same _ _ _
  | some t =>
    obtain ⟨r, hr⟩ := Option.isSome_iff_exists.mp (hr t)
    show Clean cl (report c payee (answered c w (some t, _)))
    rw [answered_some hr]
    exact clean_done _ _ _

/-- **C110, in part.** If the sentinels answer, a command that fails (the program returns
-1, or ends by an exception) leaves the client as it was.  Missing: sentinels that do
not answer (`C110_silent_violated`). -/
theorem C110_failed_partial {c : Crypto} {sg : Signer} {w : World} {cl : Client}
    (inv : Inv c cl.wallet) (hr : ∀ t, (w.answer t).isSome) (args : List Text)
    (h : (run c sg w cl args).ended = .exit (-1) ∨ (run c sg w cl args).ended = .throws) :
    (run c sg w cl args).client = cl := by
  have key : Clean cl (run c sg w cl args) := by
    unfold run
    split
    · split
      · exact clean_same _ _ _
      · split
        · unfold command
          repeat' split
          · unfold mintCommand
            split
            · exact clean_reading fun _ => clean_reading fun _ => clean_done _ _ _
            · exact clean_same _ _ _
          · unfold sendCommand
            split
            · refine clean_reading fun v => clean_paying fun p => ?_
              unfold create
              refine clean_made hr fun hn => ?_
              rcases sendTo_mod (sg := sg) inv v.toUInt32 p (w.draws 0) true with h1 |
                ⟨t, w', h1, _⟩
              · rw [h1]
              · rw [h1] at hn; cases hn
            · exact clean_same _ _ _
          · unfold fanCommand
            split
            · refine clean_reading fun v => clean_reading fun n => clean_paying fun p => ?_
              refine clean_made hr fun hn => ?_
              rcases fan_mod (sg := sg) inv n.toUInt32.toUInt64 v.toUInt32 p (w.draws 0) true
                with h1 | ⟨t, w', h1, _⟩
              · rw [h1]
              · rw [h1] at hn; cases hn
            · exact clean_same _ _ _
          · exact clean_done _ _ _
          · unfold newAddressCommand
            dsimp only
            split
            · rintro (h | h) <;> cases h
            · exact clean_done _ _ _
          · exact clean_done _ _ _
          · unfold importCommand
            repeat' split
            · exact clean_same _ _ _
            · exact clean_same _ _ _
            · exact clean_same _ _ _
            · exact clean_same _ _ _
            · exact clean_done _ _ _
          · unfold confirmCommand
            repeat' split
            · exact clean_same _ _ _
            · exact clean_same _ _ _
            · next hc =>
              rw [confirm_false hc]
              exact clean_same _ _ _
            · exact clean_done _ _ _
          · exact clean_same _ _ _
        · exact clean_same _ _ _
    · exact clean_same _ _ _
    · exact clean_same _ _ _
  exact key h

/-- **C110.** What is refused: a payment that the wallet cannot afford, an address that
does not decode (for example because of up to four wrong characters, C76), a command
without its arguments, a text that is not an amount; each time the client is as
before and the program does not return 0. -/
theorem C110_refused {c : Crypto} {sg : Signer} {w : World} (hw : Ready w) {cl : Client}
    (inv : Inv c cl.wallet) (f : Text × Text × Text × Text) :
    (∀ (n : UInt32) a k, AddressOf a k → value (held c cl.wallet) < n.toNat →
      run c sg w cl (line f "send" [dec n.toNat, a]) =
        ⟨cl, [lit "Could not generate valid send tx."], .exit (-1)⟩) ∧
    (∀ (n : UInt32) a, Bech32.addressDecode (a.map UInt8.toNat) = .invalid →
      run c sg w cl (line f "send" [dec n.toNat, a]) =
        ⟨cl, [lit "Could not decode address"], .exit (-1)⟩) ∧
    (∀ a, (run c sg w cl (line f "send" [a])).ended = .exit (-1) ∧
      (run c sg w cl (line f "send" [a])).client = cl) ∧
    (∀ v a, stoull v = .throws →
      run c sg w cl (line f "send" [v, a]) = ⟨cl, [], .throws⟩) := by
  refine ⟨fun n a k ha h => ?_, fun n a ha => ?_, fun a => ?_, fun v a hv => ?_⟩
  · rw [run_send hw, reading_dec _ _ (Nat.lt_trans n.toNat_lt (by decide)), paying_ok ha]
    have : n.toNat.toUInt64.toUInt32 = n := by
      apply UInt32.toNat_inj.mp
      have := n.toNat_lt
      simp [Nat.toUInt64]
    rw [this]
    unfold create
    rw [C29_refused inv n k _ _ h]
    rfl
  · rw [run_send hw, reading_dec _ _ (Nat.lt_trans n.toNat_lt (by decide))]
    unfold paying
    rw [ha]
    rfl
  · rw [run_ready hw]
    unfold command
    rw [if_neg (by decide), if_pos rfl]
    exact ⟨rfl, rfl⟩
  · rw [run_send hw]
    unfold reading
    rw [hv]

/-! ### Violations -/

/-- C110, violated: only the lowest 32 bits of an amount are used, a minus sign is
accepted, and what follows the digits is not looked at.  So `send 4294967297` pays 1,
`send -1` is `send 4294967295`, and `send 12.34` is `send 12`. -/
theorem C110_amount_violated (c : Crypto) (sg : Signer) {w : World} (hw : Ready w)
    (cl : Client) (f : Text × Text × Text × Text) (a : Text) :
    (∀ n : Nat, n < 2 ^ 64 → run c sg w cl (line f "send" [dec n, a]) =
      run c sg w cl (line f "send" [dec (n % 2 ^ 32), a])) ∧
    (∀ n : Nat, 1 ≤ n → n ≤ 2 ^ 32 → run c sg w cl (line f "send" [45 :: dec n, a]) =
      run c sg w cl (line f "send" [dec (2 ^ 32 - n), a])) ∧
    (∀ n : Nat, n < 2 ^ 32 → ∀ (x : UInt8) rest, ¬ (48 ≤ x.toNat ∧ x.toNat ≤ 57) →
      run c sg w cl (line f "send" [dec n ++ x :: rest, a]) =
        run c sg w cl (line f "send" [dec n, a])) := by
  refine ⟨fun n hn => ?_, fun n h1 h2 => ?_, fun n hn x rest hx => ?_⟩
  · rw [run_send hw, run_send hw, reading_dec _ _ hn, reading_dec _ _ (by omega)]
    have : n.toUInt64.toUInt32 = (n % 2 ^ 32).toUInt64.toUInt32 := by
      apply UInt32.toNat_inj.mp
      simp [Nat.toUInt64]
    rw [this]
  · rw [run_send hw, run_send hw, reading_ok (stoull_minus n (by omega)),
      reading_dec _ _ (by omega)]
    have : (0 - n.toUInt64).toUInt32 = (2 ^ 32 - n).toUInt64.toUInt32 := by
      apply UInt32.toNat_inj.mp
      have e : (0 - n.toUInt64).toNat = 2 ^ 64 - n := by
        rw [UInt64.toNat_sub]
        simp [Nat.toUInt64]
        omega
      rw [UInt64.toNat_toUInt32, UInt64.toNat_toUInt32, e]
      simp [Nat.toUInt64]
      omega
    rw [this]
  · rw [run_send hw, run_send hw]
    unfold reading
    rw [stoull_cut n x rest hx]

/-- C110, violated: a command that does not exist is reported to have succeeded, and so
is a command line that is too short. -/
theorem C110_unknown_violated (c : Crypto) (sg : Signer) {w : World} (hw : Ready w)
    (cl : Client) (f : Text × Text × Text × Text) :
    (∀ args, run c sg w cl (line f "abandon" args) =
      ⟨cl, [lit "Unknown command"], .exit 0⟩) ∧
    (∀ p a b d, (run c sg w cl [p, a, b, d]).ended = .exit 0) := by
  refine ⟨fun args => ?_, fun _ _ _ _ => rfl⟩
  rw [run_ready hw]
  unfold command
  rw [if_neg (by decide), if_neg (by decide), if_neg (by decide), if_neg (by decide),
    if_neg (by decide), if_neg (by decide), if_neg (by decide), if_neg (by decide)]
  rfl

/-- C110, violated: without an argument, `importinput` and `confirmtx` read outside the
list of arguments; with a number of a transaction that is too long `confirmtx` writes
outside an array, and with one that is too short it looks for bytes that were never
written. -/
theorem C110_missing_violated (c : Crypto) (sg : Signer) {w : World} (hw : Ready w)
    (cl : Client) (f : Text × Text × Text × Text) :
    (run c sg w cl (line f "importinput" [])).ended = .undefined ∧
    (run c sg w cl (line f "confirmtx" [])).ended = .undefined ∧
    (∀ t : Text, 64 < t.length →
      (run c sg w cl (line f "confirmtx" [t])).ended = .undefined) ∧
    (run c sg w cl (line f "confirmtx" [[48, 49]])).ended = .undefined := by
  refine ⟨?_, ?_, fun t ht => ?_, ?_⟩
  · rw [run_import hw]; rfl
  · rw [run_confirm hw]; rfl
  · rw [run_confirm hw]
    unfold confirmCommand line hashArg
    simp only [List.getElem?_cons_succ, List.getElem?_cons_zero,
      (Hex.C37_hash_violated.1 t).mpr ht]
  · rw [run_confirm hw]
    unfold confirmCommand line hashArg
    simp only [List.getElem?_cons_succ, List.getElem?_cons_zero, Hex.C37_hash_violated.2]
    rfl

/-- C110, violated: if the sentinel does not answer, the program says that there is no
valid payment and returns -1, and does not print what the recipient needs.  But the
payment is made and pending: what it spends has left the wallet, and a sentinel may
have received it. -/
theorem C110_silent_violated {c : Crypto} {sg : Signer} {w : World} (hw : Ready w)
    {cl : Client} (inv : Inv c cl.wallet) (f : Text × Text × Text × Text) (n : UInt32)
    (a : Text) (k : PubKey) (ha : AddressOf a k)
    (haff : n.toNat ≤ value (held c cl.wallet)) (fits : value (held c cl.wallet) < 2 ^ 64)
    (hr : ∀ t, w.answer t = none) :
    ∃ t w' sent, send c sg cl n k (w.draws 0) = (some t, sent) ∧
      Payment c cl.wallet w' t [⟨p2pkCommitment c k, n.toUInt64⟩] ∧
      run c sg w cl (line f "send" [dec n.toNat, a]) =
        ⟨sent, [lit "Could not generate valid send tx."], .exit (-1)⟩ := by
  obtain ⟨t, w', h1, hp⟩ := C29_pays (sg := sg) inv n k (w.draws 0) true haff fits
  have hcr : create c sg cl n k (w.draws 0) =
      (some t, register c { cl with wallet := w' } t.inputs) := by
    unfold create; rw [h1]; rfl
  refine ⟨t, w', _, by unfold send; rw [hcr]; rfl, hp, ?_⟩
  rw [run_send hw, reading_dec _ _ (Nat.lt_trans n.toNat_lt (by decide)), paying_ok ha]
  have : n.toNat.toUInt64.toUInt32 = n := by
    apply UInt32.toNat_inj.mp
    have := n.toNat_lt
    simp [Nat.toUInt64]
  rw [this, hcr, answered_none (hr t)]
  rfl

/-- Nothing is confirmed: neither by a sentinel nor when the client asks. -/
def Quiet (w : World) : Prop :=
  (∀ t r, w.answer t = some r → r.status ≠ .confirmed) ∧ ∀ cl, w.sync cl = cl

/-- Runs of the program, one after the other. -/
def session (c : Crypto) (sg : Signer) : Client → List (World × List Text) → Client
  | cl, [] => cl
  | cl, (w, args) :: l => session c sg (run c sg w cl args).client l

/-- What is set aside stays so. -/
def Keeps (cl cl' : Client) : Prop := ∀ e ∈ cl.spend, e ∈ cl'.spend

theorem put_keeps {α : Type} {m : List (Hash × α)} {k : Hash} {v : α} {e : Hash × α}
    (h : e ∈ m) : e ∈ put m k v := by
  unfold put
  split
  · exact h
  · exact List.mem_append_left _ h

theorem register_keeps (c : Crypto) (cl : Client) (l : List Input) :
    Keeps cl (register c cl l) := by
  induction l generalizing cl with
  | nil => exact fun _ h => h
  | cons i l ih =>
    rw [register]
    exact fun e he => ih _ e (put_keeps he)

theorem keeps_reading {cl : Client} {t : Text} {k : UInt64 → Run}
    (h : ∀ n, Keeps cl (k n).client) : Keeps cl (reading cl t k).client := by
  unfold reading
  split
  · exact h _
  all_goals exact fun _ h => h

theorem keeps_paying {cl : Client} {a : Text} {k : PubKey → Run}
    (h : ∀ p, Keeps cl (k p).client) : Keeps cl (paying cl a k).client := by
  unfold paying
  split
  · exact fun _ h => h
  · exact fun _ h => h
  · split
    · exact fun _ h => h
    · exact h _

theorem keeps_made {c : Crypto} {w : World} (hq : Quiet w) (cl : Client) (payee : PubKey)
    (p : Option FullTx × Wallet) :
    Keeps cl (report c payee (answered c w (made c cl p))).client := by
  obtain ⟨o, w'⟩ := p
  cases o with
  | none => exact fun _ h => h
  | some t =>
    show Keeps cl (report c payee (answered c w
      (some t, register c { cl with wallet := w' } t.inputs))).client
    have hk : Keeps cl (register c { cl with wallet := w' } t.inputs) :=
      register_keeps c { cl with wallet := w' } t.inputs
    cases hr : w.answer t with
    | none => rw [answered_none hr]; exact hk
    | some r => rw [answered_some hr, if_neg (hq.1 t r hr)]; exact hk

theorem run_keeps {c : Crypto} {sg : Signer} {w : World} (hq : Quiet w) (cl : Client)
    (args : List Text) (hn : args[4]? ≠ some (lit "confirmtx")) :
    Keeps cl (run c sg w cl args).client := by
  unfold run
  split
  · next prog cfg a b name rest =>
    split
    · exact fun _ h => h
    · split
      · unfold command
        repeat' split
        · unfold mintCommand
          split
          · exact keeps_reading fun _ => keeps_reading fun _ => fun _ h => h
          · exact fun _ h => h
        · unfold sendCommand
          split
          · exact keeps_reading fun _ => keeps_paying fun _ => keeps_made hq _ _ _
          · exact fun _ h => h
        · unfold fanCommand
          split
          · exact keeps_reading fun _ => keeps_reading fun _ => keeps_paying fun _ =>
              keeps_made hq _ _ _
          · exact fun _ h => h
        · show Keeps cl (w.sync cl)
          rw [hq.2]
          exact fun _ h => h
        · unfold newAddressCommand
          dsimp only
          split <;> exact fun _ h => h
        · exact fun _ h => h
        · unfold importCommand
          repeat' split
          all_goals try exact fun _ h => h
          show Keeps cl (importInput c cl _)
          unfold importInput
          split <;> exact fun _ h => h
        · next h => exact absurd (by rw [← h]; rfl) hn
        · exact fun _ h => h
      · exact fun _ h => h
  · exact fun _ h => h
  · exact fun _ h => h

/-- C110, violated: a payment that the sentinel refuses is reported to have succeeded (the
program returns 0), and what it was to spend stays set aside through every later
session in which nothing is confirmed: there is no command that gives it back, though
the client has a function for it (C31). -/
theorem C110_stuck_violated {c : Crypto} {sg : Signer} {w : World} (hw : Ready w)
    {cl : Client} (hist : ClientHistory c sg cl) (hc : NoClash c (owned c cl))
    (f : Text × Text × Text × Text) (n : UInt32) (a : Text) (k : PubKey)
    (ha : AddressOf a k) (haff : n.toNat ≤ value (held c cl.wallet))
    (fits : value (held c cl.wallet) < 2 ^ 64)
    (hr : ∀ t, w.answer t = some ⟨.stateInvalid, none⟩) :
    ∃ t sent, send c sg cl n k (w.draws 0) = (some t, sent) ∧
      (t.inputs ++ held c sent.wallet).Perm (held c cl.wallet) ∧
      (run c sg w cl (line f "send" [dec n.toNat, a])).ended = .exit 0 ∧
      (run c sg w cl (line f "send" [dec n.toNat, a])).client = sent ∧
      ∀ l : List (World × List Text),
        (∀ e ∈ l, Quiet e.1 ∧ e.2[4]? ≠ some (lit "confirmtx")) →
        ∀ i ∈ t.inputs, i ∈ aside (session c sg sent l) := by
  obtain ⟨t, w', sent, r, out, h1, h2, h3, h4, h5, _, h6, _⟩ := C110_send (sg := sg) hw
    hist.sane.inv f n a k ha haff fits (fun t => by rw [hr]; rfl)
  have hs : r.status ≠ .confirmed := by
    rw [hr] at h4
    rw [← Option.some.inj h4]
    exact fun h => nomatch h
  refine ⟨t, sent, h1, ?_, h5, h6.1 hs, fun l hl i hi => ?_⟩
  · rw [h3]; exact h2.spends
  · have h7 : i ∈ aside sent := by
      unfold send at h1
      cases hcr : create c sg cl n k (w.draws 0) with
      | mk o cl1 =>
        rw [hcr] at h1
        cases o with
        | none => cases h1
        | some t' =>
          simp only [submit, Prod.mk.injEq, Option.some.injEq] at h1
          obtain ⟨rfl, rfl⟩ := h1
          show i ∈ aside cl1
          rw [(C31_create hist hc hcr).2]
          exact List.mem_append_right _ hi
    clear h1 h3 h6 hr h5
    induction l generalizing sent with
    | nil => exact h7
    | cons e l ih =>
      obtain ⟨v, args⟩ := e
      have hv := hl (v, args) (List.mem_cons_self ..)
      refine ih _ (fun e he => hl e (List.mem_cons_of_mem _ he)) ?_
      unfold aside at h7 ⊢
      obtain ⟨e, he, rfl⟩ := List.mem_map.mp h7
      exact List.mem_map_of_mem (run_keeps hv.1 sent args hv.2 e he)

/-! ### Examples -/

/-- A world in which sentinels take what they get. -/
def net (k : PubKey) (s : Status) : World where
  config _ := none
  started := true
  draws _ := (k, 0)
  answer _ := some ⟨s, none⟩
  sync cl := cl
  amount n := dec n.toNat

theorem net_ready (k : PubKey) (s : Status) : Ready (net k s) := ⟨fun _ => rfl, rfl⟩

/-- The names of files. -/
def names : Text × Text × Text × Text := (lit "cli", lit "a.cfg", lit "c.dat", lit "w.dat")

/-- A recipient without money. -/
def poor : Client := { wallet := empty }

/-- What a recipient prints and does, and the sender in between. -/
def exchange (n : Nat) : Run × Run × Run × Run :=
  let b1 := run toy sgn (net keyB .pending) poor (line names "newaddress" [])
  let a := run toy sgn (net keyC .pending) client (line names "send" [dec n, b1.out.headD []])
  let b2 := run toy sgn (net keyB .pending) b1.client
    (line names "importinput" [(a.out[3]?).getD []])
  let b3 := run toy sgn (net keyB .pending) b2.client
    (line names "confirmtx" [(a.out[1]?).getD []])
  (b1, a, b2, b3)

/-- The whole exchange: 4 of 12 are paid, and the recipient has 4. -/
example : (exchange 4).2.1.ended = .exit 0 ∧ balanceOf (exchange 4).2.1.client.wallet = 7 ∧
    (exchange 4).2.2.2.ended = .exit 0 ∧ balanceOf (exchange 4).2.2.2.client.wallet = 4 := by
  decide +kernel

/-- The hypotheses of `C110_payment`, `C110_stuck_violated` and the others. -/
example : Ready (net keyB .stateInvalid) ∧ (∀ t, ((net keyC .pending).answer t).isSome) ∧
    Inv toy client.wallet ∧ ClientHistory toy sgn client ∧ NoClash toy (owned toy client) ∧
    value (held toy client.wallet) = 12 ∧ ClientHistory toy sgn poor ∧
    (∃ a, AddressOf a keyB) ∧ Quiet (net keyB .stateInvalid) ∧
    Unknown toy (exchange 4).1.client (fill 32 3) := by
  refine ⟨net_ready _ _, fun _ => rfl, rich_history.inv, client_history, ?_, by decide,
    .start empty_history.inv, ?_, ⟨fun t r h => ?_, fun _ => rfl⟩, ?_⟩
  · unfold NoClash; decide
  · obtain ⟨a, _, h⟩ := newAddress_text keyB
    exact ⟨_, h⟩
  · have : r = ⟨.stateInvalid, none⟩ := (Option.some.inj h).symm
    subst this
    exact fun h => nomatch h
  · unfold Unknown; decide +kernel

/-- More than the wallet holds; an address with a wrong character; no number. -/
example : value (held toy client.wallet) < (13 : UInt32).toNat ∧
    Bech32.addressDecode ((lit "usd1xyz").map UInt8.toNat) = .invalid ∧
    (run toy sgn (net keyC .pending) client (line names "send" [lit "all", lit "usd1xyz"])).ended =
      .throws := by
  decide +kernel

end Verif.Wallet.Cli
