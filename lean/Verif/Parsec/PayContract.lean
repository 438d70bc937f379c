/-!
# The payment contract (C141)

The Lua contract of `scripts/gen_bytecode.lua` that the benchmark and the tests of PArSEC use, and the
wallet of the benchmark. One call of the contract is one transaction: it runs by itself on the rows of
the accounts (C85 and C103 say so of the broker and of the Lua runner).
-/
namespace Verif.Parsec.Contract

variable {N S : Type} [DecidableEq N]

/-- Integers of Lua 5.4 are 64 bits wide and wrap around; they are signed. `string.unpack` with `I8`
does not change the bits. -/
def wrap (z : Int) : Int := (z + 9223372036854775808) % 18446744073709551616 - 9223372036854775808

/-- The row of an account, `string.pack("I8 I8", balance, seq)`, as the integers that Lua reads
(scripts/gen_bytecode.lua:9-20). An empty row reads as `0, 0`. Rows of other lengths do not arise: rows
are written by the contract and by `account_wallet::init` (tools/bench/parsec/lua/wallet.cpp:33-49). -/
structure Acct where
  bal : Int := 0
  seq : Int := 0
  deriving DecidableEq, Repr

/-- The parameter of the contract after `string.unpack` (scripts/gen_bytecode.lua:3). A parameter that
is too short is an error of Lua; this case is left out. -/
structure Pay (N S : Type) where
  payer : N
  payee : N
  value : Int
  seq : Int
  sig : S
  deriving DecidableEq

/-- What is signed: `sig_payload` (scripts/gen_bytecode.lua:31-33). -/
def Pay.payload (p : Pay N S) : N × Int × Int := (p.payee, p.value, p.seq)

/-- `updates[key] = v` (scripts/gen_bytecode.lua:18-20). -/
def put (u : List (N × Acct)) (n : N) (a : Acct) : List (N × Acct) :=
  (n, a) :: u.filter fun e => e.1 ≠ n

/-- `pay_contract` (scripts/gen_bytecode.lua:2-56). `none`: `error` was called, or `check_sig` failed
(src/parsec/agent/runners/lua/impl.cpp:210-270, see C103). A key that is asked for twice is given with
the same value twice (src/parsec/broker/impl.cpp:766-772). -/
def pay (valid : N → S → N × Int × Int → Bool) (w : N → Acct) (p : Pay N S) :
    Option (List (N × Acct)) :=
  if valid p.payer p.sig p.payload = false then none
  else if p.seq < (w p.payer).seq then none
  else if (w p.payer).bal < p.value then none
  else if 0 < p.value then
    some (put (put [] p.payer ⟨wrap ((w p.payer).bal - p.value), wrap (p.seq + 1)⟩) p.payee
      ⟨wrap ((w p.payee).bal + p.value), (w p.payee).seq⟩)
  else some (put [] p.payer ⟨(w p.payer).bal, wrap (p.seq + 1)⟩)

/-- The rows after the updates of a contract are committed (C54, C85). -/
def apply (w : N → Acct) (u : List (N × Acct)) : N → Acct := fun n => (u.lookup n).getD (w n)

/-- `account_wallet` (tools/bench/parsec/lua/wallet.hpp:66-73): the fields that change. -/
structure Wallet where
  bal : Nat
  seq : Nat
  deriving DecidableEq, Repr

/-- `account_wallet::pay` and `make_pay_params` (tools/bench/parsec/lua/wallet.cpp:51-104). `none`: it
returns false. -/
def Wallet.pay (me : N) (sign : N × Int × Int → S) (a : Wallet) (to : N) (amount : Nat) :
    Option (Pay N S) :=
  if a.bal < amount then none
  else some ⟨me, to, wrap amount, wrap a.seq, sign (to, wrap amount, wrap a.seq)⟩

/-- The number that the wallet reads from the bits of a row. -/
def unsigned (z : Int) : Nat := (z % 18446744073709551616).toNat

/-- The callback of `execute_params` (tools/bench/parsec/lua/wallet.cpp:106-126). `none`: the assertion
fails. -/
def Wallet.result (me : N) (a : Wallet) : Option (List (N × Acct)) → Option Wallet
  | none => some a
  | some u => (u.lookup me).map fun r => ⟨unsigned r.bal, unsigned r.seq⟩

/-! ### Specification -/

/-- Payments that went through, one after the other. A payment that is refused changes nothing. -/
inductive Run (valid : N → S → N × Int × Int → Bool) (w : N → Acct) :
    List (Pay N S) → (N → Acct) → Prop
  | nil : Run valid w [] w
  | step {ps : List (Pay N S)} {w' : N → Acct} {p : Pay N S} {u : List (N × Acct)}
      (h : Run valid w ps w') (hp : pay valid w' p = some u) : Run valid w (ps ++ [p]) (apply w' u)

/-- What the accounts `ns` have together. -/
def total (ns : List N) (w : N → Acct) : Int := (ns.map fun n => (w n).bal).sum

/-- The payment is not one of money to the payer. -/
def Pay.Other (p : Pay N S) : Prop := p.payer = p.payee → p.value ≤ 0

/-! ### Lemmas -/

theorem wrap_id {z : Int} (h1 : -9223372036854775808 ≤ z) (h2 : z < 9223372036854775808) :
    wrap z = z := by
  unfold wrap
  omega

theorem pay_some {valid : N → S → N × Int × Int → Bool} {w : N → Acct} {p : Pay N S}
    {u : List (N × Acct)} (h : pay valid w p = some u) :
    valid p.payer p.sig p.payload = true ∧ (w p.payer).seq ≤ p.seq ∧ p.value ≤ (w p.payer).bal ∧
    u = if 0 < p.value then
      put (put [] p.payer ⟨wrap ((w p.payer).bal - p.value), wrap (p.seq + 1)⟩) p.payee
        ⟨wrap ((w p.payee).bal + p.value), (w p.payee).seq⟩
      else put [] p.payer ⟨(w p.payer).bal, wrap (p.seq + 1)⟩ := by
  unfold pay at h
  split at h
  · simp at h
  · next h1 =>
    split at h
    · simp at h
    · next h2 =>
      split at h
      · simp at h
      · next h3 =>
        refine ⟨by simpa using h1, by omega, by omega, ?_⟩
        split at h
        · next h4 => rw [if_pos h4]; exact (Option.some.inj h).symm
        · next h4 => rw [if_neg h4]; exact (Option.some.inj h).symm

theorem put_at (u : List (N × Acct)) (n : N) (a : Acct) : (put u n a).lookup n = some a := by
  simp [put]

theorem put_ne {u : List (N × Acct)} {n m : N} (a : Acct) (h : m ≠ n) :
    (put u n a).lookup m = u.lookup m := by
  have hb : (m == n) = false := by simp [h]
  simp only [put, List.lookup_cons, hb]
  induction u with
  | nil => rfl
  | cons e u ih =>
    obtain ⟨k, v⟩ := e
    by_cases hk : k = n
    · have hm : (m == k) = false := by rw [hk]; exact hb
      simp only [List.filter_cons, hk, ne_eq, not_true_eq_false, decide_false, Bool.false_eq_true,
        if_false, List.lookup_cons, hb]
      exact ih
    · simp only [List.filter_cons, ne_eq, hk, not_false_eq_true, decide_true, if_true,
        List.lookup_cons]
      cases m == k with
      | true => rfl
      | false => exact ih

/-- The rows after a payment to another. -/
theorem after_other {valid : N → S → N × Int × Int → Bool} {w : N → Acct} {p : Pay N S}
    {u : List (N × Acct)} (h : pay valid w p = some u) (hv : 0 < p.value)
    (hne : p.payer ≠ p.payee) :
    apply w u p.payer = ⟨wrap ((w p.payer).bal - p.value), wrap (p.seq + 1)⟩ ∧
    apply w u p.payee = ⟨wrap ((w p.payee).bal + p.value), (w p.payee).seq⟩ ∧
    ∀ n, n ≠ p.payer → n ≠ p.payee → apply w u n = w n := by
  obtain ⟨-, -, -, hu⟩ := pay_some h
  rw [if_pos hv] at hu
  subst hu
  refine ⟨?_, ?_, ?_⟩
  · simp only [apply, put_ne _ hne, put_at, Option.getD_some]
  · simp only [apply, put_at, Option.getD_some]
  · intro n h1 h2
    simp only [apply, put_ne _ h2, put_ne _ h1]
    rfl

/-- The rows after a payment of nothing. -/
theorem after_nothing {valid : N → S → N × Int × Int → Bool} {w : N → Acct} {p : Pay N S}
    {u : List (N × Acct)} (h : pay valid w p = some u) (hv : p.value ≤ 0) :
    apply w u p.payer = ⟨(w p.payer).bal, wrap (p.seq + 1)⟩ ∧
    ∀ n, n ≠ p.payer → apply w u n = w n := by
  obtain ⟨-, -, -, hu⟩ := pay_some h
  rw [if_neg (by omega)] at hu
  subst hu
  refine ⟨?_, ?_⟩
  · simp only [apply, put_at, Option.getD_some]
  · intro n h1
    simp only [apply, put_ne _ h1]
    rfl

theorem total_congr {ns : List N} {w w' : N → Acct} (h : ∀ n ∈ ns, (w' n).bal = (w n).bal) :
    total ns w' = total ns w := by
  unfold total
  congr 1
  exact List.map_congr_left h

/-- One balance changes. -/
theorem total_one {ns : List N} (hd : ns.Nodup) {w w' : N → Acct} {a : N} (ha : a ∈ ns) {d : Int}
    (h1 : (w' a).bal = (w a).bal + d) (h2 : ∀ n ∈ ns, n ≠ a → (w' n).bal = (w n).bal) :
    total ns w' = total ns w + d := by
  induction ns with
  | nil => simp at ha
  | cons n ns ih =>
    rw [List.nodup_cons] at hd
    have hc : ∀ x : N → Acct, total (n :: ns) x = (x n).bal + total ns x := fun x => rfl
    rw [hc, hc]
    by_cases hn : n = a
    · subst hn
      have := total_congr (ns := ns) (w := w) (w' := w') fun m hm =>
        h2 m (List.mem_cons_of_mem _ hm) fun he => hd.1 (he ▸ hm)
      omega
    · have h3 := ih hd.2 ((List.mem_cons.mp ha).resolve_left fun h => hn h.symm)
        fun m hm => h2 m (List.mem_cons_of_mem _ hm)
      have h4 := h2 n List.mem_cons_self hn
      omega

/-- Two balances change. -/
theorem total_two {ns : List N} (hd : ns.Nodup) {w w' : N → Acct} {a b : N} (ha : a ∈ ns)
    (hb : b ∈ ns) (hab : a ≠ b) {d : Int} (h1 : (w' a).bal = (w a).bal - d)
    (h2 : (w' b).bal = (w b).bal + d) (h3 : ∀ n ∈ ns, n ≠ a → n ≠ b → (w' n).bal = (w n).bal) :
    total ns w' = total ns w := by
  let m : N → Acct := fun n => if n = a then w' a else w n
  have e1 : total ns m = total ns w + -d := by
    apply total_one hd ha
    · simp only [m, if_true]; omega
    · intro n _ hn
      simp only [m, if_neg hn]
  have e2 : total ns w' = total ns m + d := by
    apply total_one hd hb
    · simp only [m, if_neg (Ne.symm hab)]; omega
    · intro n hn hnb
      by_cases hna : n = a
      · simp only [m, hna, if_true]
      · simp only [m, if_neg hna]
        exact h3 n hn hna hnb
  omega

theorem total_nonneg {ns : List N} {w : N → Acct} (h : ∀ n ∈ ns, 0 ≤ (w n).bal) :
    0 ≤ total ns w := by
  induction ns with
  | nil => simp [total]
  | cons n ns ih =>
    have h1 := h n List.mem_cons_self
    have h2 := ih fun m hm => h m (List.mem_cons_of_mem _ hm)
    have hc : total (n :: ns) w = (w n).bal + total ns w := rfl
    omega

theorem total_pair {ns : List N} (hd : ns.Nodup) {w : N → Acct} (h : ∀ n ∈ ns, 0 ≤ (w n).bal)
    {a b : N} (ha : a ∈ ns) (hb : b ∈ ns) (hab : a ≠ b) :
    (w a).bal + (w b).bal ≤ total ns w := by
  let m : N → Acct := fun n => if n = a then {} else if n = b then {} else w n
  let k : N → Acct := fun n => if n = a then {} else w n
  have e1 : total ns w = total ns k + (w a).bal := by
    apply total_one hd ha
    · simp [k]
    · intro n _ hn
      simp only [k, if_neg hn]
  have e2 : total ns k = total ns m + (w b).bal := by
    apply total_one hd hb
    · simp only [k, m, if_neg (Ne.symm hab), if_true]; omega
    · intro n _ hn
      simp only [k, m, if_neg hn]
  have e3 : 0 ≤ total ns m := total_nonneg fun n hn => by
    simp only [m]
    split
    · exact Int.le_refl 0
    · split
      · exact Int.le_refl 0
      · exact h n hn
  omega

/-! ### The property -/

/-- **C141.** A payment that is signed, in order and covered goes through. -/
theorem C141_accepted {valid : N → S → N × Int × Int → Bool} {w : N → Acct} {p : Pay N S}
    (hs : valid p.payer p.sig (p.payee, p.value, p.seq) = true) (hq : (w p.payer).seq ≤ p.seq)
    (hb : p.value ≤ (w p.payer).bal) : ∃ u, pay valid w p = some u := by
  have h1 : valid p.payer p.sig p.payload = true := hs
  unfold pay
  rw [h1, if_neg (by simp), if_neg (by omega), if_neg (by omega)]
  split
  · exact ⟨_, rfl⟩
  · exact ⟨_, rfl⟩

/-- **C141.** A payment that goes through is signed by the payer and moves its value from the payer to
the payee, who may have at most 2^63 - 1 then; nothing else changes. What is missing: the payee is
another (`C141_mint_violated`) and does not have too much (`C141_stuck_violated`). -/
theorem C141_moves_partial {valid : N → S → N × Int × Int → Bool} {w : N → Acct} {p : Pay N S}
    {u : List (N × Acct)} (h : pay valid w p = some u) (hv : 0 < p.value)
    (hne : p.payer ≠ p.payee) (hb : (w p.payer).bal < 9223372036854775808)
    (h0 : 0 ≤ (w p.payee).bal) (ho : (w p.payee).bal + p.value < 9223372036854775808) :
    valid p.payer p.sig (p.payee, p.value, p.seq) = true ∧ p.value ≤ (w p.payer).bal ∧
    (apply w u p.payer).bal = (w p.payer).bal - p.value ∧
    (apply w u p.payee).bal = (w p.payee).bal + p.value ∧
    ∀ n, n ≠ p.payer → n ≠ p.payee → apply w u n = w n := by
  obtain ⟨h1, -, h3, -⟩ := pay_some h
  obtain ⟨g1, g2, g3⟩ := after_other h hv hne
  refine ⟨h1, h3, ?_, ?_, g3⟩
  · rw [g1]; exact wrap_id (by omega) (by omega)
  · rw [g2]; exact wrap_id (by omega) (by omega)

/-- **C141.** Payments to others do not change what all accounts have together, if that is below 2^63, and
no balance becomes negative. What is missing: payments to oneself, see `C141_mint_violated`. -/
theorem C141_supply_partial {valid : N → S → N × Int × Int → Bool} {w w' : N → Acct}
    {ps : List (Pay N S)} (hr : Run valid w ps w') {ns : List N} (hd : ns.Nodup)
    (hn : ∀ n ∈ ns, 0 ≤ (w n).bal) (ht : total ns w < 9223372036854775808)
    (hp : ∀ p ∈ ps, p.payer ∈ ns ∧ p.payee ∈ ns ∧ p.Other) :
    total ns w' = total ns w ∧ ∀ n ∈ ns, 0 ≤ (w' n).bal := by
  induction hr with
  | nil => exact ⟨rfl, hn⟩
  | @step ps w1 p u hr h ih =>
    obtain ⟨i1, i2⟩ := ih fun q hq => hp q (List.mem_append_left _ hq)
    obtain ⟨ha, hb, ho⟩ := hp p (List.mem_append_right _ List.mem_cons_self)
    by_cases hv : 0 < p.value
    · have hne : p.payer ≠ p.payee := fun he => absurd (ho he) (by omega)
      have hsum := total_pair hd i2 ha hb hne
      obtain ⟨-, -, hcov, -⟩ := pay_some h
      have hb0 := i2 _ hb
      have ha0 := i2 _ ha
      obtain ⟨-, -, g1, g2, g3⟩ := C141_moves_partial h hv hne (by omega) hb0 (by omega)
      refine ⟨?_, ?_⟩
      · rw [← i1]
        exact total_two hd ha hb hne g1 g2 fun n _ h1 h2 => by rw [g3 n h1 h2]
      · intro n hnn
        by_cases h1 : n = p.payer
        · rw [h1, g1]; omega
        · by_cases h2 : n = p.payee
          · rw [h2, g2]; omega
          · rw [g3 n h1 h2]; exact i2 n hnn
    · obtain ⟨g1, g2⟩ := after_nothing h (by omega)
      have hbal : ∀ n, (apply w1 u n).bal = (w1 n).bal := by
        intro n
        by_cases h1 : n = p.payer
        · rw [h1, g1]
        · rw [g2 n h1]
      refine ⟨?_, ?_⟩
      · rw [total_congr fun n _ => hbal n, i1]
      · intro n hnn
        rw [hbal n]
        exact i2 n hnn

/-- The number expected of an account only grows. -/
theorem seq_after {valid : N → S → N × Int × Int → Bool} {w : N → Acct} {p : Pay N S}
    {u : List (N × Acct)} (h : pay valid w p = some u) (ho : p.Other)
    (hl : -9223372036854775808 ≤ p.seq) (hs : p.seq < 9223372036854775807) :
    (apply w u p.payer).seq = p.seq + 1 ∧ ∀ n, (w n).seq ≤ (apply w u n).seq := by
  obtain ⟨-, hq, -, -⟩ := pay_some h
  have hw : wrap (p.seq + 1) = p.seq + 1 := wrap_id (by omega) (by omega)
  by_cases hv : 0 < p.value
  · have hne : p.payer ≠ p.payee := fun he => absurd (ho he) (by omega)
    obtain ⟨g1, g2, g3⟩ := after_other h hv hne
    refine ⟨by rw [g1]; exact hw, ?_⟩
    intro n
    by_cases h1 : n = p.payer
    · rw [h1, g1]
      simp only [hw]
      omega
    · by_cases h2 : n = p.payee
      · rw [h2, g2]
        exact Int.le_refl _
      · rw [g3 n h1 h2]
        exact Int.le_refl _
  · obtain ⟨g1, g2⟩ := after_nothing h (by omega)
    refine ⟨by rw [g1]; exact hw, ?_⟩
    intro n
    by_cases h1 : n = p.payer
    · rw [h1, g1]
      simp only [hw]
      omega
    · rw [g2 n h1]
      exact Int.le_refl _

/-- **C141.** The payments of one payer that go through have increasing numbers, so none goes through
twice. What is missing: payments to oneself (`C141_replay_violated`) and the number 2^63 - 1
(`C141_sequence_violated`). -/
theorem C141_once_partial {valid : N → S → N × Int × Int → Bool} {w w' : N → Acct}
    {ps : List (Pay N S)} (hr : Run valid w ps w')
    (hp : ∀ p ∈ ps, p.Other ∧ -9223372036854775808 ≤ p.seq ∧ p.seq < 9223372036854775807)
    {i j : Nat} {p q : Pay N S} (hij : i < j) (hi : ps[i]? = some p) (hj : ps[j]? = some q)
    (hpq : p.payer = q.payer) : p.seq < q.seq := by
  have key : (∀ x ∈ ps, x.seq < (w' x.payer).seq) ∧
      ∀ (i j : Nat) (p q : Pay N S), i < j → ps[i]? = some p → ps[j]? = some q →
        p.payer = q.payer → p.seq < q.seq := by
    clear hi hj hij hpq
    induction hr with
    | nil => simp
    | @step ps w1 y u hr h ih =>
      obtain ⟨i1, i2⟩ := ih fun x hx => hp x (List.mem_append_left _ hx)
      obtain ⟨o1, o2, o3⟩ := hp y (List.mem_append_right _ List.mem_cons_self)
      obtain ⟨g1, g2⟩ := seq_after h o1 o2 o3
      obtain ⟨-, hq, -, -⟩ := pay_some h
      refine ⟨?_, ?_⟩
      · intro x hx
        rcases List.mem_append.mp hx with hx | hx
        · have := i1 x hx
          have := g2 x.payer
          omega
        · simp only [List.mem_cons, List.not_mem_nil, or_false] at hx
          subst hx
          rw [g1]
          omega
      · intro i j p q hij hi hj hpq
        by_cases hjl : j < ps.length
        · rw [List.getElem?_append_left hjl] at hj
          rw [List.getElem?_append_left (by omega)] at hi
          exact i2 i j p q hij hi hj hpq
        · have hj' : j = ps.length := by
            have := (List.getElem?_eq_some_iff.mp hj).1
            simp at this
            omega
          subst hj'
          rw [List.getElem?_append_left (by omega)] at hi
          simp at hj
          subst hj
          have := i1 p (List.mem_of_getElem? hi)
          rw [hpq] at this
          omega
  exact key.2 i j p q hij hi hj hpq

/-- **C141**, not met: whoever pays themself has the value in addition, and their number stays. -/
theorem C141_mint_violated {valid : N → S → N × Int × Int → Bool} {w : N → Acct} {p : Pay N S}
    (he : p.payee = p.payer) (hs : valid p.payer p.sig (p.payee, p.value, p.seq) = true)
    (hq : (w p.payer).seq ≤ p.seq) (hv : 0 < p.value) (hb : p.value ≤ (w p.payer).bal)
    (ho : (w p.payer).bal + p.value < 9223372036854775808) :
    ∃ u, pay valid w p = some u ∧
      apply w u p.payer = ⟨(w p.payer).bal + p.value, (w p.payer).seq⟩ := by
  obtain ⟨u, hu⟩ := C141_accepted hs hq hb
  refine ⟨u, hu, ?_⟩
  obtain ⟨-, -, -, h4⟩ := pay_some hu
  rw [if_pos hv] at h4
  subst h4
  rw [he]
  simp only [apply, put_at, Option.getD_some]
  rw [wrap_id (by omega) ho]

/-- **C141**, not met: the same payment to oneself then goes through again. -/
theorem C141_replay_violated {valid : N → S → N × Int × Int → Bool} {w : N → Acct} {p : Pay N S}
    (he : p.payee = p.payer) (hs : valid p.payer p.sig (p.payee, p.value, p.seq) = true)
    (hq : (w p.payer).seq ≤ p.seq) (hv : 0 < p.value) (hb : p.value ≤ (w p.payer).bal)
    (ho : (w p.payer).bal + p.value < 9223372036854775808) :
    ∃ w', Run valid w [p, p] w' := by
  obtain ⟨u, h1, h2⟩ := C141_mint_violated he hs hq hv hb ho
  obtain ⟨u', h3⟩ := C141_accepted (w := apply w u) hs (by rw [h2]; exact hq)
    (by rw [h2]; simp only; omega)
  exact ⟨_, .step (ps := [p]) (.step (ps := []) .nil h1) h3⟩

/-- **C141**, not met: an account that has 2^63 or more cannot pay. -/
theorem C141_stuck_violated (valid : N → S → N × Int × Int → Bool) {w : N → Acct} {n : Nat}
    (h1 : 9223372036854775808 ≤ n) (h2 : n < 18446744073709551616) {p : Pay N S}
    (hb : (w p.payer).bal = wrap n) (hv : 0 < p.value) : pay valid w p = none := by
  have : wrap n < 0 := by unfold wrap; omega
  unfold pay
  split
  · rfl
  · split
    · rfl
    · rw [if_pos (by omega)]

/-- **C141**, not met: after a payment with number 2^63 - 1 every payment that the payer signed before
goes through again, if it is covered. -/
theorem C141_sequence_violated {valid : N → S → N × Int × Int → Bool} {w : N → Acct} {p q : Pay N S}
    {u : List (N × Acct)} (h : pay valid w p = some u) (hn : p.seq = 9223372036854775807)
    (ho : p.Other) (hq : q.payer = p.payer) (hl : -9223372036854775808 ≤ q.seq)
    (hs : valid q.payer q.sig (q.payee, q.value, q.seq) = true)
    (hb : q.value ≤ (apply w u q.payer).bal) : ∃ u', pay valid (apply w u) q = some u' := by
  apply C141_accepted hs _ hb
  have : (apply w u p.payer).seq = wrap (p.seq + 1) := by
    by_cases hv : 0 < p.value
    · have hne : p.payer ≠ p.payee := fun he => absurd (ho he) (by omega)
      rw [(after_other h hv hne).1]
    · rw [(after_nothing h (by omega)).1]
  rw [hq, this, hn]
  have : wrap (9223372036854775807 + 1) = -9223372036854775808 := by decide
  omega

/-- **C141.** A payment by a wallet that knows the row of its account goes through, and the wallet
knows the row afterwards. -/
theorem C141_wallet {valid : N → S → N × Int × Int → Bool} {w : N → Acct} {me to : N}
    {sign : N × Int × Int → S} (hsig : ∀ m, valid me (sign m) m = true) {a : Wallet} {amount : Nat}
    (hrow : w me = ⟨a.bal, a.seq⟩) (hb : a.bal < 9223372036854775808)
    (hs : a.seq < 9223372036854775807) (ham : amount ≤ a.bal) (hto : to ≠ me) :
    ∃ p u a', a.pay me sign to amount = some p ∧ pay valid w p = some u ∧
      a.result me (some u) = some a' ∧ apply w u me = ⟨a'.bal, a'.seq⟩ ∧
      a'.bal = a.bal - amount ∧ a'.seq = a.seq + 1 := by
  have hw1 : wrap amount = amount := wrap_id (by omega) (by omega)
  have hw2 : wrap a.seq = a.seq := wrap_id (by omega) (by omega)
  have hp : a.pay me sign to amount =
      some ⟨me, to, amount, a.seq, sign (to, amount, a.seq)⟩ := by
    unfold Wallet.pay
    rw [if_neg (by omega), hw1, hw2]
  obtain ⟨u, hu⟩ := C141_accepted (valid := valid) (w := w)
    (p := ⟨me, to, amount, a.seq, sign (to, amount, a.seq)⟩) (hsig _) (by simp [hrow])
    (by simp [hrow]; omega)
  have hl : u.lookup me = some ⟨(a.bal : Int) - amount, (a.seq : Int) + 1⟩ := by
    obtain ⟨-, -, -, h4⟩ := pay_some hu
    simp only [hrow] at h4
    have e1 : wrap ((a.seq : Int) + 1) = (a.seq : Int) + 1 := wrap_id (by omega) (by omega)
    have e2 : wrap ((a.bal : Int) - amount) = (a.bal : Int) - amount := wrap_id (by omega) (by omega)
    split at h4
    · rw [h4, put_ne _ (Ne.symm hto), put_at, e1, e2]
    · next hz =>
      rw [h4, put_at, e1]
      have : amount = 0 := by omega
      simp [this]
  have u1 : (((a.bal : Int) - amount) % 18446744073709551616).toNat = a.bal - amount := by omega
  have u2 : (((a.seq : Int) + 1) % 18446744073709551616).toNat = a.seq + 1 := by omega
  have c1 : ((a.bal - amount : Nat) : Int) = (a.bal : Int) - amount := by omega
  have c2 : ((a.seq + 1 : Nat) : Int) = (a.seq : Int) + 1 := by omega
  refine ⟨_, u, ⟨a.bal - amount, a.seq + 1⟩, hp, hu, ?_, ?_, rfl, rfl⟩
  · simp only [Wallet.result, hl, Option.map_some, unsigned]
    rw [u1, u2]
  · simp only [apply, hl, Option.getD_some]
    rw [c1, c2]

/-! ### Concrete cases -/

/-- A signature is the name of the signer. -/
def names : Nat → Nat → Nat × Int × Int → Bool := fun n s _ => n = s

/-- Account 1 has 10. -/
def start : Nat → Acct := fun n => if n = 1 then ⟨10, 0⟩ else {}

/-- The rows after a payment, as they were if it is refused. -/
def next (w : Nat → Acct) (p : Pay Nat Nat) : Nat → Acct := apply w ((pay names w p).getD [])

theorem next_run {w w' : Nat → Acct} {ps : List (Pay Nat Nat)} (h : Run names w ps w')
    (p : Pay Nat Nat) (hp : (pay names w' p).isSome = true) :
    Run names w (ps ++ [p]) (next w' p) := by
  obtain ⟨u, hu⟩ := Option.isSome_iff_exists.mp hp
  have := Run.step h hu
  simpa only [next, hu, Option.getD_some] using this

/-- Two payments in a row. -/
example : ∃ w', Run names start [⟨1, 2, 4, 0, 1⟩, ⟨2, 1, 3, 0, 2⟩] w' ∧ w' 1 = ⟨9, 1⟩ ∧
    w' 2 = ⟨1, 1⟩ ∧ total [1, 2] w' = 10 :=
  ⟨_, next_run (next_run .nil ⟨1, 2, 4, 0, 1⟩ (by decide +kernel)) ⟨2, 1, 3, 0, 2⟩
    (by decide +kernel), by decide +kernel, by decide +kernel, by decide +kernel⟩

/-- The first is not accepted again. -/
example : pay names (apply start [(1, ⟨6, 1⟩), (2, ⟨4, 0⟩)]) ⟨1, 2, 4, 0, 1⟩ = none := by
  decide +kernel

/-- Account 1 pays itself its 10 twice, with one signature, and has 30. -/
example : ∃ w', Run names start [⟨1, 1, 10, 0, 1⟩, ⟨1, 1, 10, 0, 1⟩] w' ∧ w' 1 = ⟨30, 0⟩ :=
  ⟨_, next_run (next_run .nil ⟨1, 1, 10, 0, 1⟩ (by decide +kernel)) ⟨1, 1, 10, 0, 1⟩
    (by decide +kernel), by decide +kernel⟩

/-- Account 2 has all that an account can spend. -/
def rich : Nat → Acct := fun n => if n = 1 then ⟨1, 0⟩ else ⟨9223372036854775807, 0⟩

/-- The payee of a payment has 2^63 afterwards and cannot pay 1. -/
example : (pay names rich ⟨1, 2, 1, 0, 1⟩).isSome ∧
    pay names (apply rich ((pay names rich ⟨1, 2, 1, 0, 1⟩).getD [])) ⟨2, 1, 1, 0, 2⟩ = none := by
  decide +kernel

/-- A payment that is accepted, with the greatest number, and an older one after it. -/
example : (pay names start ⟨1, 2, 4, 9223372036854775807, 1⟩).isSome ∧
    (pay names (apply start ((pay names start ⟨1, 2, 4, 9223372036854775807, 1⟩).getD []))
      ⟨1, 2, 4, 0, 1⟩).isSome := by
  decide +kernel

/-- A wallet pays. -/
example : ∃ p u a', Wallet.pay 1 (fun _ => 1) ⟨10, 0⟩ 2 4 = some p ∧ pay names start p = some u ∧
    Wallet.result 1 ⟨10, 0⟩ (some u) = some a' ∧ a'.bal = 6 ∧ a'.seq = 1 := by
  obtain ⟨p, u, a', h1, h2, h3, -, h5, h6⟩ := C141_wallet (valid := names) (w := start) (me := 1)
    (to := 2) (sign := fun _ => 1) (fun _ => rfl) (a := ⟨10, 0⟩) (amount := 4) rfl (by decide)
    (by decide) (by decide) (by decide)
  exact ⟨p, u, a', h1, h2, h3, h5, h6⟩

end Verif.Parsec.Contract
