import Verif.Wallet.Client
import Verif.Wallet.Balance
/-!
# Abandoned and confirmed payments of the client (C31)
-/
namespace Verif.Wallet

open Verif.Serial Verif.Tx

/-! ### Specification -/

/-- The outputs set aside for payments that are not settled. -/
def aside (cl : Client) : List Input := cl.spend.map (·.2)

/-- All that is the client's: what its wallet holds and what is set aside. -/
def owned (c : Crypto) (cl : Client) : List Input := held c cl.wallet ++ aside cl

/-- Different outputs among these have different hashes. -/
def NoClash (c : Crypto) (l : List Input) : Prop :=
  ∀ i ∈ l, ∀ j ∈ l, i.hash c = j.hash c → i = j

/-- The client is in order: the wallet is, nothing is owned twice, and the maps
are filed under the right keys. -/
structure Sane (c : Crypto) (cl : Client) : Prop where
  inv : Inv c cl.wallet
  nodup : ((owned c cl).map (·.prevout)).Nodup
  keyed : ∀ e ∈ cl.spend, e.1 = e.2.hash c
  keys : (cl.spend.map (·.1)).Nodup
  txs : (cl.txs.map (·.1)).Nodup
  txKeyed : ∀ e ∈ cl.txs, e.1 = txId c e.2

/-- The operations of a client. -/
inductive ClientOp
  | mint (v : UInt32) (ds : List Draw)
  | create (amount : UInt32) (payee : PubKey) (d : Draw)
  | send (amount : UInt32) (payee : PubKey) (d : Draw)
  | fan (count v : UInt32) (payee : PubKey) (d : Draw)
  | importTx (t : FullTx)
  | importInput (i : Input)
  | newAddress (d : Draw)
  | abandon (id : Hash)
  | confirm (id : Hash)
  | restart (order : List Input)

def perform (c : Crypto) (sg : Signer) (cl : Client) : ClientOp → Client
  | .mint v ds => (mintCoins c cl v ds).2
  | .create amount payee d => (Wallet.create c sg cl amount payee d).2
  | .send amount payee d => (Wallet.send c sg cl amount payee d).2
  | .fan count v payee d => (fanOut c sg cl count v payee d).2
  | .importTx t => Wallet.importTx c cl t
  | .importInput i => Wallet.importInput c cl i
  | .newAddress d => (Wallet.newAddress cl d).2
  | .abandon id => (Wallet.abandon c cl id).2
  | .confirm id => (Wallet.confirm c cl id).2
  | .restart order => Wallet.restart cl order

/-- A pending transaction that may be confirmed: it spends nothing that the
wallet still holds, does not spend its own outputs, and its outputs are not owned
yet. -/
structure Confirmable (c : Crypto) (cl : Client) (t : FullTx) : Prop where
  spent : ∀ i ∈ t.inputs, has cl.wallet.utxos i = false ∧
    i.prevout.txId ≠ txId c t
  fresh : ∀ i ∈ owned c cl, i.prevout.txId ≠ txId c t
  small : t.outputs.length < 2 ^ 64
  clash : NoClash c (owned c cl ++ t.inputs)

/-- Which operations are considered: hashes of outputs do not clash, what is
confirmed was not confirmed before, or is still held; what is loaded was
saved.  `importTx` is what `send_transaction` does before it asks the
sentinel. -/
def Permitted (c : Crypto) (cl : Client) : ClientOp → Prop
  | .create _ _ _ | .send _ _ _ | .fan _ _ _ _ => NoClash c (owned c cl)
  | .abandon id => ∀ t, cl.txs.lookup id = some t →
      NoClash c (owned c cl ++ t.inputs)
  | .confirm id => (∀ t, cl.txs.lookup id = some t → Confirmable c cl t) ∧
      ∀ i, cl.inputs.lookup id = some i → has cl.wallet.utxos i = true ∨
        ∀ x ∈ owned c cl, x.prevout ≠ i.prevout
  | .restart order => order.Perm cl.wallet.utxos
  | _ => True

/-- Histories of a client that starts with a wallet in order. -/
inductive ClientHistory (c : Crypto) (sg : Signer) : Client → Prop
  | start {w : Wallet} (h : Inv c w) : ClientHistory c sg { wallet := w }
  | step {cl : Client} (h : ClientHistory c sg cl) (op : ClientOp)
    (ok : Permitted c cl op) : ClientHistory c sg (perform c sg cl op)

/-! ### Maps -/

theorem put_new {α : Type} {m : List (Hash × α)} {k : Hash} {v : α}
    (h : k ∉ m.map (·.1)) : put m k v = m ++ [(k, v)] := by
  unfold put
  rw [if_neg]
  intro hs
  rw [Option.isSome_iff_exists] at hs
  obtain ⟨x, hx⟩ := hs
  rw [List.lookup_eq_some_iff] at hx
  obtain ⟨a, b, hab, _⟩ := hx
  exact h (by rw [hab]; simp)

theorem lookup_mem {α : Type} {m : List (Hash × α)} {k : Hash} {v : α}
    (h : m.lookup k = some v) : (k, v) ∈ m := by
  rw [List.lookup_eq_some_iff] at h
  obtain ⟨a, b, hab, _⟩ := h
  rw [hab]; simp

theorem lookup_none {α : Type} {m : List (Hash × α)} {k : Hash}
    (h : m.lookup k = none) : k ∉ m.map (·.1) := by
  rw [List.lookup_eq_none_iff] at h
  intro hm
  obtain ⟨e, he, rfl⟩ := List.mem_map.mp hm
  have := h e he
  simp at this

theorem lookup_not {α : Type} {m : List (Hash × α)} {k : Hash}
    (h : k ∉ m.map (·.1)) : m.lookup k = none := by
  cases hl : m.lookup k with
  | none => rfl
  | some v => exact absurd (List.mem_map_of_mem (lookup_mem hl)) h

theorem del_keys {α : Type} (m : List (Hash × α)) (k : Hash) :
    k ∉ (del m k).map (·.1) := by
  intro h
  obtain ⟨e, he, hk⟩ := List.mem_map.mp h
  unfold del at he
  rw [List.mem_filter] at he
  simp [hk] at he

theorem del_same {α : Type} {m : List (Hash × α)} {k : Hash}
    (h : k ∉ m.map (·.1)) : del m k = m := by
  unfold del
  rw [List.filter_eq_self]
  intro e he
  simp only [ne_eq, decide_eq_true_eq]
  rintro rfl
  exact h (List.mem_map_of_mem he)

theorem del_perm {α : Type} {m : List (Hash × α)} {k : Hash} {v : α}
    (hn : (m.map (·.1)).Nodup) (h : (k, v) ∈ m) :
    ((k, v) :: del m k).Perm m := by
  induction m with
  | nil => cases h
  | cons e m ih =>
    rw [List.map_cons, List.nodup_cons] at hn
    rw [List.mem_cons] at h
    rcases h with rfl | h
    · have : del ((k, v) :: m) k = del m k := by
        unfold del; simp
      rw [this, del_same hn.1]
    · have hne : e.1 ≠ k := by
        rintro rfl
        exact hn.1 (List.mem_map_of_mem (f := (·.1)) h)
      have : del (e :: m) k = e :: del m k := by
        unfold del; simp [hne]
      rw [this]
      exact (List.Perm.swap _ _ _).trans ((ih hn.2 h).cons _)

theorem del_nodup {α : Type} {m : List (Hash × α)} (k : Hash)
    (hn : (m.map (·.1)).Nodup) : ((del m k).map (·.1)).Nodup :=
  hn.sublist (List.Sublist.map _ (List.filter_sublist ..))

theorem put_nodup {α : Type} {m : List (Hash × α)} (k : Hash) (v : α)
    (hn : (m.map (·.1)).Nodup) : ((put m k v).map (·.1)).Nodup := by
  by_cases h : k ∈ m.map (·.1)
  · unfold put
    rw [if_pos]
    · exact hn
    · cases hl : m.lookup k with
      | none => exact absurd h (lookup_none hl)
      | some _ => rfl
  · rw [put_new h, List.map_append, List.nodup_append]
    refine ⟨hn, by simp, ?_⟩
    intro a ha b hb
    simp only [List.map_cons, List.map_nil, List.mem_singleton] at hb
    subst hb
    rintro rfl
    exact h ha

theorem put_mem {α : Type} {m : List (Hash × α)} {k : Hash} {v : α}
    {e : Hash × α} (h : e ∈ put m k v) : e ∈ m ∨ e = (k, v) := by
  unfold put at h
  split at h
  · exact .inl h
  · simpa using h

/-! ### Making payments -/

theorem nodup_of_prevout {l : List Input} (h : (l.map (·.prevout)).Nodup) :
    l.Nodup := by
  unfold List.Nodup at h ⊢
  rw [List.pairwise_map] at h
  exact h.imp fun hne he => hne (by rw [he])

theorem NoClash.subset {c : Crypto} {l m : List Input} (h : NoClash c l)
    (hs : ∀ x ∈ m, x ∈ l) : NoClash c m :=
  fun i hi j hj => h i (hs i hi) j (hs j hj)

theorem register_spec {c : Crypto} {cl : Client} {l : List Input}
    (hl : (cl.spend.map (·.1) ++ l.map (Input.hash c)).Nodup) :
    register c cl l =
      { cl with spend := cl.spend ++ l.map fun i => (i.hash c, i) } := by
  induction l generalizing cl with
  | nil => simp [register]
  | cons i l ih =>
    simp only [register]
    have hi : i.hash c ∉ cl.spend.map (·.1) := by
      intro h
      rw [List.nodup_append] at hl
      exact hl.2.2 _ h _ (by simp) rfl
    rw [put_new hi, ih]
    · simp
    · simpa using hl

theorem hashes_nodup {c : Crypto} {l : List Input} (hc : NoClash c l)
    (hn : l.Nodup) : (l.map (Input.hash c)).Nodup := by
  induction l with
  | nil => simp
  | cons i l ih =>
    rw [List.nodup_cons] at hn
    rw [List.map_cons, List.nodup_cons]
    refine ⟨?_, ih (hc.subset fun x hx => List.mem_cons_of_mem _ hx) hn.2⟩
    intro h
    obtain ⟨j, hj, he⟩ := List.mem_map.mp h
    have := hc j (List.mem_cons_of_mem _ hj) i (List.mem_cons_self ..) he
    exact hn.1 (this ▸ hj)

theorem aside_hash {c : Crypto} {cl : Client} (s : Sane c cl) :
    cl.spend.map (·.1) = (aside cl).map (Input.hash c) := by
  unfold aside
  rw [List.map_map]
  apply List.map_congr_left
  intro e he
  exact s.keyed e he

/-- Two clients with the same money and transactions in order. -/
theorem Sane.wallet {c : Crypto} {cl : Client} (s : Sane c cl) {w : Wallet}
    (hi : Inv c w) (hp : (held c w).Perm (held c cl.wallet)) :
    Sane c { cl with wallet := w } where
  inv := hi
  nodup := (((hp.append_right _).map _).nodup_iff).mpr s.nodup
  keyed := s.keyed
  keys := s.keys
  txs := s.txs
  txKeyed := s.txKeyed

theorem Sane.made {c : Crypto} {cl : Client} (s : Sane c cl)
    (hc : NoClash c (owned c cl)) {t : FullTx} {w : Wallet} (hi : Inv c w)
    (hp : (t.inputs ++ held c w).Perm (held c cl.wallet)) :
    ∃ cl', Wallet.made c cl (some t, w) = (some t, cl') ∧ Sane c cl' ∧
      cl'.wallet = w ∧ aside cl' = aside cl ++ t.inputs ∧ cl'.txs = cl.txs ∧
      cl'.inputs = cl.inputs := by
  have hperm : (held c w ++ (aside cl ++ t.inputs)).Perm (owned c cl) := by
    refine List.Perm.trans ?_ (hp.append_right _)
    refine List.perm_append_comm.trans ?_
    rw [List.append_assoc, List.append_assoc]
    exact List.perm_append_comm.trans (by rw [List.append_assoc])
  have hn : (held c w ++ (aside cl ++ t.inputs)).Nodup :=
    (hperm.nodup_iff).mpr (nodup_of_prevout s.nodup)
  have hc' : NoClash c (aside cl ++ t.inputs) := hc.subset fun x hx =>
    hperm.subset (List.mem_append_right _ hx)
  have hreg := register_spec (c := c) (cl := { cl with wallet := w })
    (l := t.inputs) (by
      show (cl.spend.map (·.1) ++ t.inputs.map (Input.hash c)).Nodup
      rw [aside_hash s, ← List.map_append]
      exact hashes_nodup hc' (List.nodup_append.mp hn).2.1)
  refine ⟨{ cl with
      wallet := w
      spend := cl.spend ++ t.inputs.map fun i => (i.hash c, i) },
    by simp only [Wallet.made]; rw [hreg], ?_, rfl, ?_, rfl, rfl⟩
  · refine ⟨hi, ?_, ?_, ?_, s.txs, s.txKeyed⟩
    · have : (owned c { cl with
          wallet := w
          spend := cl.spend ++ t.inputs.map fun i => (i.hash c, i) }) =
          held c w ++ (aside cl ++ t.inputs) := by
        simp only [owned, aside, List.map_append, List.map_map]
        congr 2
        exact List.map_id _
      rw [this]
      exact ((hperm.map _).nodup_iff).mpr s.nodup
    · intro e he
      simp only [List.mem_append, List.mem_map] at he
      rcases he with he | ⟨i, _, rfl⟩
      · exact s.keyed e he
      · rfl
    · have : (cl.spend ++ t.inputs.map fun i => (i.hash c, i)).map (·.1) =
          (aside cl ++ t.inputs).map (Input.hash c) := by
        rw [List.map_append, List.map_append, aside_hash s, List.map_map]
        rfl
      simp only
      rw [this]
      exact hashes_nodup hc' (List.nodup_append.mp hn).2.1
  · simp only [aside, List.map_append, List.map_map]
    congr 1
    exact List.map_id _

theorem sendTo_mod {c : Crypto} {sg : Signer} {w : Wallet} (inv : Inv c w)
    (amount : UInt32) (payee : PubKey) (d : Draw) (b : Bool) :
    sendTo c sg w amount payee d b = (none, w) ∨
    ∃ t w', sendTo c sg w amount payee d b = (some t, w') ∧
      (t.inputs ++ held c w').Perm (held c w) ∧ Inv c w' := by
  rcases accumulate_mod inv amount.toUInt64 with ⟨ha, _⟩ |
    ⟨ins, tot, w1, ha, hp, ht, hle, hi, hk⟩
  · left; simp only [sendTo, ha]
  · right
    obtain ⟨l, ch, hc, _⟩ := change_spec c w1 tot amount.toUInt64 d hle
    refine ⟨_, _, by simp only [sendTo, ha, hc]; rfl, ?_, hi.keys l⟩
    rw [(signIf_same c sg _ b _).1]
    exact hp

theorem fan_mod {c : Crypto} {sg : Signer} {w : Wallet} (inv : Inv c w)
    (count : UInt64) (v : UInt32) (payee : PubKey) (d : Draw) (b : Bool) :
    fan c sg w count v payee d b = (none, w) ∨
    ∃ t w', fan c sg w count v payee d b = (some t, w') ∧
      (t.inputs ++ held c w').Perm (held c w) ∧ Inv c w' := by
  rcases accumulate_mod inv (count * v.toUInt64) with ⟨ha, _⟩ |
    ⟨ins, tot, w1, ha, hp, ht, hle, hi, hk⟩
  · left; simp only [fan, ha]
  · right
    obtain ⟨l, ch, hc, _⟩ := change_spec c w1 tot _ d hle
    refine ⟨_, _, by simp only [fan, ha, hc]; rfl, ?_, hi.keys l⟩
    rw [(signIf_same c sg _ b _).1]
    exact hp

theorem Sane.importTx {c : Crypto} {cl : Client} (s : Sane c cl) (t : FullTx) :
    Sane c (Wallet.importTx c cl t) where
  inv := s.inv
  nodup := s.nodup
  keyed := s.keyed
  keys := s.keys
  txs := put_nodup _ _ s.txs
  txKeyed := by
    intro e he
    rcases put_mem he with h | rfl
    · exact s.txKeyed e h
    · rfl

/-! ### Giving outputs back -/

theorem credit_one {w : Wallet} {i : Input} (h : has w.utxos i = false) :
    confirmInputs w [i] = { w with
      utxos := w.utxos ++ [i]
      balance := w.balance + i.prevoutData.value
      queue := w.queue ++ [i] } := by
  simp [confirmInputs, updateBalance, credit, debit, h]

theorem checkPending_iff (txs : List (Hash × FullTx)) (i : Input) :
    checkPending txs i = true ↔ ∃ e ∈ txs, i ∈ e.2.inputs := by
  simp [checkPending]

theorem Sane.credit {c : Crypto} {cl : Client} (s : Sane c cl) {i : Input}
    (hx : ∀ x ∈ owned c cl, x.prevout ≠ i.prevout) :
    Sane c { cl with wallet := confirmInputs cl.wallet [i] } ∧
    held c (confirmInputs cl.wallet [i]) = held c cl.wallet ++ [i] ∧
    (confirmInputs cl.wallet [i]).keys = cl.wallet.keys := by
  have hh : has cl.wallet.utxos i = false := by
    rw [Bool.eq_false_iff]
    intro h
    rw [has_iff] at h
    obtain ⟨x, hm, he⟩ := List.mem_map.mp h
    exact hx x (List.mem_append_left _ (List.mem_append_right _ hm)) he
  have hns : NoSeed c cl.wallet [i] := by
    intro j hj x hxs
    simp only [List.mem_singleton] at hj
    subst hj
    exact fun he => hx x (List.mem_append_left _ (List.mem_append_left _ hxs))
      he.symm
  have hcs := credit_spec s.inv hns
  have hheld : held c (confirmInputs cl.wallet [i]) =
      held c cl.wallet ++ [i] := by
    rw [credit_one hh]
    show seeds c cl.wallet ++ (cl.wallet.utxos ++ [i]) = _
    rw [← List.append_assoc]
    rfl
  refine ⟨⟨hcs.1, ?_, s.keyed, s.keys, s.txs, s.txKeyed⟩, hheld, ?_⟩
  · show ((held c (confirmInputs cl.wallet [i]) ++ aside cl).map _).Nodup
    rw [hheld]
    have : (held c cl.wallet ++ [i] ++ aside cl).Perm (i :: owned c cl) := by
      rw [List.append_assoc]
      exact List.perm_middle
    refine ((this.map _).nodup_iff).mpr ?_
    rw [List.map_cons, List.nodup_cons]
    refine ⟨?_, s.nodup⟩
    intro h
    obtain ⟨x, hm, he⟩ := List.mem_map.mp h
    exact hx x hm he
  · rw [credit_one hh]

/-- One output is given back. -/
theorem Sane.back {c : Crypto} {cl : Client} (s : Sane c cl) {i : Input}
    (hi : (i.hash c, i) ∈ cl.spend) :
    Sane c { cl with
      spend := del cl.spend (i.hash c)
      wallet := confirmInputs cl.wallet [i] } ∧
    held c (confirmInputs cl.wallet [i]) = held c cl.wallet ++ [i] ∧
    (i :: (del cl.spend (i.hash c)).map (·.2)).Perm (aside cl) := by
  have hd := del_perm s.keys hi
  have hperm : (i :: (del cl.spend (i.hash c)).map (·.2)).Perm (aside cl) :=
    hd.map (f := fun e : Hash × Input => e.2)
  have hnd : ((i :: (held c cl.wallet ++
      (del cl.spend (i.hash c)).map (·.2))).map (·.prevout)).Nodup := by
    have : (i :: (held c cl.wallet ++
        (del cl.spend (i.hash c)).map (·.2))).Perm (owned c cl) :=
      List.perm_middle.symm.trans (hperm.append_left _)
    exact ((this.map _).nodup_iff).mpr s.nodup
  rw [List.map_cons, List.nodup_cons] at hnd
  have s1 : Sane c { cl with spend := del cl.spend (i.hash c) } :=
    ⟨s.inv, hnd.2, fun e he => s.keyed e (List.mem_filter.mp he).1,
      del_nodup _ s.keys, s.txs, s.txKeyed⟩
  obtain ⟨h1, h2, _⟩ := s1.credit (i := i) (by
    intro x hx he
    exact hnd.1 (he ▸ List.mem_map_of_mem hx))
  exact ⟨h1, h2, hperm⟩

theorem giveBack_spec {c : Crypto} {cl : Client} (s : Sane c cl)
    {l : List Input} (hc : NoClash c (owned c cl ++ l)) :
    Sane c (giveBack c cl l) ∧ (giveBack c cl l).txs = cl.txs ∧
    (giveBack c cl l).inputs = cl.inputs ∧
    ∃ r, (held c (giveBack c cl l).wallet).Perm (held c cl.wallet ++ r) ∧
      (r ++ aside (giveBack c cl l)).Perm (aside cl) ∧
      ∀ x, x ∈ r ↔ x ∈ l ∧ x ∈ aside cl ∧ checkPending cl.txs x = false := by
  induction l generalizing cl with
  | nil => exact ⟨s, rfl, rfl, [], by simp [giveBack]⟩
  | cons i l ih =>
    simp only [giveBack]
    have hin : i ∈ aside cl → (i.hash c, i) ∈ cl.spend := by
      intro h
      obtain ⟨e, he, rfl⟩ := List.mem_map.mp h
      have := s.keyed e he
      rw [← this]
      exact he
    have hsub : ∀ x ∈ owned c cl ++ l, x ∈ owned c cl ++ i :: l := by
      intro x hx
      simp only [List.mem_append, List.mem_cons] at hx ⊢
      rcases hx with h | h
      · exact .inl h
      · exact .inr (.inr h)
    split
    · next hs =>
      obtain ⟨j, hj⟩ := Option.isSome_iff_exists.mp hs
      have hjm := lookup_mem hj
      have hij : i = j := by
        refine hc i (by simp) j ?_ (s.keyed _ hjm)
        refine List.mem_append_left _ (List.mem_append_right _ ?_)
        exact List.mem_map_of_mem (f := (·.2)) hjm
      subst hij
      have hia : i ∈ aside cl := List.mem_map_of_mem (f := (·.2)) hjm
      split
      · next hp =>
        obtain ⟨h1, h2, h3, r, h4, h5, h6⟩ := ih s (hc.subset hsub)
        refine ⟨h1, h2, h3, r, h4, h5, fun x => ?_⟩
        rw [h6, List.mem_cons]
        constructor
        · rintro ⟨a, b⟩; exact ⟨.inr a, b⟩
        · rintro ⟨rfl | a, b, d⟩
          · rw [hp] at d; cases d
          · exact ⟨a, b, d⟩
      · next hp =>
        have hp : checkPending cl.txs i = false := by simpa using hp
        obtain ⟨b1, b2, b3⟩ := s.back hjm
        have howned : (held c (confirmInputs cl.wallet [i]) ++
            (del cl.spend (i.hash c)).map (·.2)).Perm (owned c cl) := by
          rw [b2, List.append_assoc]
          exact (b3.append_left _)
        obtain ⟨h1, h2, h3, r, h4, h5, h6⟩ := ih b1 (hc.subset (by
          intro x hx
          apply hsub
          rw [List.mem_append] at hx ⊢
          rcases hx with h | h
          · exact .inl (howned.subset h)
          · exact .inr h))
        have h4 : (held c (giveBack c { cl with
            spend := del cl.spend (i.hash c)
            wallet := confirmInputs cl.wallet [i] } l).wallet).Perm
            (held c (confirmInputs cl.wallet [i]) ++ r) := h4
        refine ⟨h1, h2, h3, i :: r, ?_, ?_, fun x => ?_⟩
        · rw [b2, List.append_assoc] at h4
          exact h4
        · exact (h5.cons i).trans b3
        · have hnd : (i :: (del cl.spend (i.hash c)).map (·.2)).Nodup := by
            refine (b3.nodup_iff).mpr ?_
            have := nodup_of_prevout s.nodup
            unfold owned at this
            exact (List.nodup_append.mp this).2.1
          rw [List.nodup_cons] at hnd
          have hm := b3.mem_iff (a := x)
          rw [List.mem_cons] at hm
          rw [List.mem_cons, h6, List.mem_cons]
          show x = i ∨ x ∈ l ∧ x ∈ (del cl.spend (i.hash c)).map (·.2) ∧ _ ↔ _
          constructor
          · rintro (rfl | ⟨a, b, d⟩)
            · exact ⟨.inl rfl, hia, hp⟩
            · exact ⟨.inr a, hm.mp (.inr b), d⟩
          · rintro ⟨a, b, d⟩
            by_cases hxi : x = i
            · exact .inl hxi
            · right
              rcases a with a | a
              · exact absurd a hxi
              · rcases hm.mpr b with h | h
                · exact absurd h hxi
                · exact ⟨a, h, d⟩
    · next hs =>
      obtain ⟨h1, h2, h3, r, h4, h5, h6⟩ := ih s (hc.subset hsub)
      refine ⟨h1, h2, h3, r, h4, h5, fun x => ?_⟩
      rw [h6, List.mem_cons]
      constructor
      · rintro ⟨a, b⟩; exact ⟨.inr a, b⟩
      · rintro ⟨rfl | a, b, d⟩
        · exfalso
          apply hs
          cases hl : cl.spend.lookup (x.hash c) with
          | none =>
            exact absurd (List.mem_map_of_mem (f := (·.1)) (hin b))
              (lookup_none hl)
          | some _ => rfl
        · exact ⟨a, b, d⟩

end Verif.Wallet
