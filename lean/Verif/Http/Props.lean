import Verif.Http.Handlers
/-!
# What requests to the HTTP server do (C96, C97)
-/
namespace Verif.Http

open Verif.Serial Verif.Evm Verif.Hex

/-! ### Specification -/

/-- The last block a log query asks for, and the first, when both are given. -/
def LogRange (ag : Agent) (q : List (String × Json)) (first last : UInt64) : Prop :=
  (∃ t w, find "blockhash" q = some (.str t) ∧ uint256beFromHex t = some w ∧ first = toU64 w ∧
    last = toU64 w) ∨
  ((∀ t, find "blockhash" q ≠ some (.str t)) ∧ ∃ f t, find "fromBlock" q = some (.str f) ∧
    find "toBlock" q = some (.str t) ∧ blockNumber ag f = some first ∧ blockNumber ag t = some last)

/-- The addresses a log query asks for. -/
def LogAddresses (q : List (String × Json)) (as : List Address) : Prop :=
  (∃ t a, find "address" q = some (.str t) ∧ addressFromJson (.str t) = some a ∧ as = [a]) ∨
  (∃ l, find "address" q = some (.arr l) ∧ l ≠ [] ∧ l.map addressFromJson = as.map some)

/-- A text of 32 bytes in hex. -/
def topicOf (j : Json) : Option Word :=
  match j.asString with
  | .ok t =>
    match fromHexSized 32 t with
    | some b => if h : b.length = 32 then some ⟨b, h⟩ else none
    | none => none
  | _ => none

/-- A value which is a list or an object. -/
def Json.Compound (j : Json) : Prop := j.isArray = true ∨ j.isObject = true

/-- A request, by its method and its parameters, which ends the process or reaches outside
a buffer. -/
inductive Deadly (ag : Agent) : Method → Json → Prop where
  /-- the parameters are neither a list nor left out -/
  | noList (m : Method) (p : Json) (hm : m = .sendRaw ∨ m = .decodeRaw ∨ m = .block)
      (h : p ≠ .null) (h' : p.isArray = false) : Deadly ag m p
  /-- an address, a hash or a raw transaction of fewer than two characters -/
  | short (m : Method) (t : Text) (l : List Json)
      (hm : m ∈ [.sendRaw, .decodeRaw, .txCount, .balance, .byHash, .receipt, .code])
      (h : t.length < 2) : Deadly ag m (.arr (.str t :: l))
  /-- a raw transaction at which the decoder fails (C53) -/
  | raw (m : Method) (t : Text) (b : Bytes) (l : List Json) (hm : m = .sendRaw ∨ m = .decodeRaw)
      (h2 : 2 ≤ t.length) (hb : fromHex (t.drop 2) = some b)
      (h : txDecode ag.limit chainId b = .throws ∨ txDecode ag.limit chainId b = .undefined) :
      Deadly ag m (.arr (.str t :: l))
  /-- an address of more than 20 bytes, for its code -/
  | longAddress (t : Text) (b : Bytes) (l : List Json) (h2 : 2 ≤ t.length)
      (hb : fromHex (t.drop 2) = some b) (h : 20 < b.length) : Deadly ag .code (.arr (.str t :: l))
  /-- a block, with something else than a truth value or a number in second place -/
  | blockFlag (a b : Json) (l : List Json) (h : b.isString = true ∨ b.Compound) :
      Deadly ag .block (.arr (a :: b :: l))
  /-- the transaction after the last one of a block -/
  | afterLast (n i : Text) (w : Word) (txs : List FullReceipt) (ticket : UInt64) (l : List Json)
      (hn : (n = lit "latest" ∧ ticket = ag.highest) ∨
        (n ≠ lit "latest" ∧ ∃ v, uint256beFromHex n = some v ∧ ticket = toU64 v))
      (hb : ag.block ticket = .ok txs) (hi : uint256beFromHex i = some w)
      (h : (toU64 w).toNat = txs.length) : Deadly ag .blockTx (.arr (.str n :: .str i :: l))
  /-- a number of blocks which is not a decimal number, or is too large -/
  | fees (n e : Text) (rs l : List Json) (last : UInt64)
      (he : ((e = lit "latest" ∨ e = lit "pending") ∧ last = ag.highest) ∨
        (¬ (e = lit "latest" ∨ e = lit "pending") ∧
          ∃ v, uint256beFromJson e = some v ∧ last = toU64 v))
      (h : stoull n = .throws ∨
        ∃ k, stoull n = .ok k ∧ ag.limit < min k.toNat last.toNat) :
      Deadly ag .feeHistory (.arr (.str n :: .str e :: .arr rs :: l))
  /-- a list or an object as a topic of a log query -/
  | topic (q : List (String × Json)) (as : List Address) (ts l : List Json) (j : Json)
      (ha : LogAddresses q as) (ht : find "topics" q = some (.arr ts)) (hj : j ∈ ts)
      (h : j.Compound) : Deadly ag .logs (.arr (.obj q :: l))
  /-- a range of blocks of which the length does not fit, or which ends at the last number -/
  | range (q : List (String × Json)) (as : List Address) (ts l : List Json) (ws : List Word)
      (first last : UInt64)
      (ha : LogAddresses q as) (ht : find "topics" q = some (.arr ts)) (hts : ts ≠ [])
      (hw : ts.map topicOf = ws.map some) (hr : LogRange ag q first last)
      (h : signed last - signed first < -2 ^ 63 ∨ 2 ^ 63 ≤ signed last - signed first ∨
        (last.toNat = 2 ^ 64 - 1 ∧ signed first ≤ signed last ∧
          ((signed last - signed first).toNat * as.length) % 2 ^ 64 ≤ 100)) :
      Deadly ag .logs (.arr (.obj q :: l))
  /-- a type of transaction which does not fit in 32 bits -/
  | type (m : Method) (q : List (String × Json)) (l : List Json) (j : Json)
      (hm : m = .send ∨ m = .call) (hq : find "type" q = some j)
      (h : (∃ i, j = .int i ∧ (i < -2 ^ 31 ∨ 2 ^ 31 ≤ i)) ∨
        (∃ i e, j = .real i e ∧ (i < -2 ^ 31 ∨ 2 ^ 31 ≤ i ∨ (i = 2 ^ 31 - 1 ∧ e = false)))) :
      Deadly ag m (.arr (.obj q :: l))

/-- A request which ends the process or reaches outside a buffer: the body is JSON but
neither an object nor null, or the method and the parameters are so. -/
def DeadlyBody (ag : Agent) (body : Json) : Prop :=
  (body.isObject = false ∧ (∀ _ : body = .null, False)) ∨
  ∃ l name m, body = .obj l ∧ find "method" l = some (.str name) ∧ methodOf name = some m ∧
    Deadly ag m ((find "params" l).getD .null)

/-- An answer of JSON-RPC: a result or an error. -/
def Proper (j : Json) : Prop :=
  (∃ v, j = .obj [("result", v)]) ∨
  (∃ c m, j = .obj [("error", .obj [("code", .int c), ("message", .str m)])])

/-- What a handler did is in order: it answered at most once, with a proper answer, and it
did answer if it says so. -/
def Fine (x : List Json × Bool) : Prop :=
  (x = ([], false)) ∨ ∃ j b, x = ([j], b) ∧ Proper j

/-! ### The handlers -/

theorem proper_result (j : Json) : Proper (result j) := Or.inl ⟨j, rfl⟩
theorem proper_failure (c : Int) (m : Text) : Proper (failure c m) := Or.inr ⟨c, m, rfl⟩

theorem answer_fine {j : Json} (h : Proper j) : ∃ x, answer j = .ok x ∧ Fine x :=
  ⟨_, rfl, Or.inr ⟨_, _, rfl, h⟩⟩
theorem answerFalse_fine {j : Json} (h : Proper j) : ∃ x, answerFalse j = .ok x ∧ Fine x :=
  ⟨_, rfl, Or.inr ⟨_, _, rfl, h⟩⟩
theorem bad_fine : ∃ x, bad = .ok x ∧ Fine x := ⟨_, rfl, Or.inl rfl⟩

theorem execTx_fine {α : Type} (r : Except Int α) (k : α → Outcome Json)
    (h : ∀ a, r = .ok a → ∃ j, k a = .ok j ∧ Proper j) : ∃ x, execTx r k = .ok x ∧ Fine x := by
  cases r with
  | error ec => exact answer_fine (proper_failure _ _)
  | ok a =>
    obtain ⟨j, h1, h2⟩ := h a rfl
    simp only [execTx, h1, Outcome.bind_ok]
    exact answer_fine h2

/-- What was done went well. -/
abbrev Lives (a : Act) : Prop := ∃ x, a = .ok x ∧ Fine x

theorem hexArg_long {t : Text} (h : ¬ t.length < 2) : hexArg t = .ok (fromHex (t.drop 2)) := by
  simp [hexArg, argBytes, h]

theorem hexArg_short {t : Text} (h : t.length < 2) : hexArg t = .throws := by
  simp [hexArg, argBytes, h]

theorem firstArg_some {p j : Json} (h : firstArg p = some j) : ∃ l, p = .arr (j :: l) := by
  unfold firstArg at h
  split at h
  · next a l => exact ⟨l, by simp at h; rw [h]⟩
  · simp at h

/-- The handlers which read one key. -/
theorem read_lives {m : Method} {ag : Agent} {params : Json} (k : Text → Option Bytes → Act)
    (other : Act) (ho : Lives other)
    (hm : m ∈ [.sendRaw, .decodeRaw, .txCount, .balance, .byHash, .receipt, .code])
    (hd : ¬ Deadly ag m params)
    (hk : ∀ t l, params = .arr (.str t :: l) → 2 ≤ t.length → Lives (k t (fromHex (t.drop 2)))) :
    Lives (match firstArg params with
      | some (.str t) => (hexArg t >>= k t)
      | _ => other) := by
  split
  · next t ht =>
    obtain ⟨l, rfl⟩ := firstArg_some ht
    have h2 : ¬ t.length < 2 := fun h => hd (.short m t l hm h)
    rw [hexArg_long h2]
    exact hk t l rfl (by omega)
  · exact ho

theorem count_lives {ag : Agent} {p : Json} (hd : ¬ Deadly ag .txCount p) :
    Lives (getTransactionCount ag p) := by
  unfold getTransactionCount
  refine read_lives _ _ bad_fine (by simp) hd ?_
  intro t l _ _
  split
  · exact bad_fine
  · refine execTx_fine _ _ fun v _ => ?_
    split
    · exact ⟨_, rfl, proper_result _⟩
    · split
      · exact ⟨_, rfl, proper_failure _ _⟩
      · exact ⟨_, rfl, proper_result _⟩

theorem balance_lives {ag : Agent} {p : Json} (hd : ¬ Deadly ag .balance p) :
    Lives (getBalance ag p) := by
  unfold getBalance
  refine read_lives _ _ bad_fine (by simp) hd ?_
  intro t l _ _
  split
  · exact bad_fine
  · refine execTx_fine _ _ fun v _ => ?_
    split
    · exact ⟨_, rfl, proper_result _⟩
    · split
      · exact ⟨_, rfl, proper_failure _ _⟩
      · exact ⟨_, rfl, proper_result _⟩

theorem withReceipt_lives (ag : Agent) (key : Bytes) (k : FullReceipt → Json) :
    Lives (withReceipt ag key k) := by
  unfold withReceipt
  refine execTx_fine _ _ fun v _ => ?_
  split
  · exact ⟨_, rfl, proper_failure _ _⟩
  · split
    · exact ⟨_, rfl, proper_failure _ _⟩
    · exact ⟨_, rfl, proper_result _⟩

theorem byHash_lives {ag : Agent} {p : Json} (hd : ¬ Deadly ag .byHash p) :
    Lives (getTransactionByHash ag p) := by
  unfold getTransactionByHash
  refine read_lives _ _ bad_fine (by simp) hd ?_
  intro t l _ _
  split
  · exact bad_fine
  · exact withReceipt_lives _ _ _

theorem receipt_lives {ag : Agent} {p : Json} (hd : ¬ Deadly ag .receipt p) :
    Lives (getTransactionReceipt ag p) := by
  unfold getTransactionReceipt
  refine read_lives _ _ (answerFalse_fine (proper_failure _ _)) (by simp) hd ?_
  intro t l _ _
  split
  · exact bad_fine
  · exact withReceipt_lives _ _ _

theorem code_lives {ag : Agent} {p : Json} (hd : ¬ Deadly ag .code p) : Lives (getCode ag p) := by
  unfold getCode
  refine read_lives _ _ (answerFalse_fine (proper_failure _ _)) (by simp) hd ?_
  intro t l hp h2
  split
  · exact answerFalse_fine (proper_failure _ _)
  · next b hb =>
    have : ¬ 20 < b.length := fun h => hd (hp ▸ .longAddress t b l h2 hb h)
    unfold codeKey
    rw [if_neg this]
    exact execTx_fine _ _ fun v _ => ⟨_, rfl, proper_result _⟩

theorem storage_lives (ag : Agent) (p : Json) : Lives (getStorageAt ag p) := by
  unfold getStorageAt
  split
  · split
    · exact bad_fine
    · split
      · exact bad_fine
      · exact execTx_fine _ _ fun v _ => ⟨_, rfl, proper_result _⟩
  · exact bad_fine

theorem fetch_lives {ag : Agent} {p : Json} {k : UInt64 → List FullReceipt → Outcome Json}
    (hk : ∀ t l ticket txs, p = .arr (.str t :: l) →
      ((t = lit "latest" ∧ ticket = ag.highest) ∨
        (t ≠ lit "latest" ∧ ∃ v, uint256beFromHex t = some v ∧ ticket = toU64 v)) →
      ag.block ticket = .ok txs → ∃ j, k ticket txs = .ok j ∧ Proper j) :
    Lives (fetchBlock ag p k) := by
  unfold fetchBlock
  split
  · next t rest =>
    split
    · split
      · next ht =>
        exact execTx_fine _ _ fun a ha => hk t rest _ a rfl (Or.inl ⟨ht, rfl⟩) ha
      · next ht =>
        split
        · exact answerFalse_fine (proper_failure _ _)
        · next w hw =>
          exact execTx_fine _ _ fun a ha => hk t rest _ a rfl (Or.inr ⟨ht, w, hw, rfl⟩) ha
    · exact answerFalse_fine (proper_failure _ _)
  · exact answerFalse_fine (proper_failure _ _)

theorem asBool_lives {j : Json} (h : ¬ (j.isString = true ∨ j.Compound)) : ∃ b, j.asBool = .ok b := by
  cases j <;> simp [Json.isString, Json.Compound, Json.isArray, Json.isObject, Json.asBool] at h ⊢

theorem block_lives {ag : Agent} {p : Json} (hd : ¬ Deadly ag .block p) : Lives (getBlock ag p) := by
  have h1 : ∃ j, p.idx 1 = .ok j ∧ ∃ b, j.asBool = .ok b := by
    cases p with
    | null => exact ⟨_, rfl, _, rfl⟩
    | arr l =>
      match l with
      | [] => exact ⟨_, rfl, _, rfl⟩
      | [_] => exact ⟨_, rfl, _, rfl⟩
      | a :: b :: l =>
        exact ⟨b, rfl, asBool_lives fun h => hd (.blockFlag a b l h)⟩
    | bool _ => exact (hd (.noList _ _ (by simp) (by simp) rfl)).elim
    | int _ => exact (hd (.noList _ _ (by simp) (by simp) rfl)).elim
    | real _ _ => exact (hd (.noList _ _ (by simp) (by simp) rfl)).elim
    | str _ => exact (hd (.noList _ _ (by simp) (by simp) rfl)).elim
    | obj _ => exact (hd (.noList _ _ (by simp) (by simp) rfl)).elim
  obtain ⟨j, h1, b, h2⟩ := h1
  unfold getBlock
  rw [h1]
  simp only [Outcome.bind_ok, h2]
  exact fetch_lives fun _ _ _ _ _ _ _ => ⟨_, rfl, proper_result _⟩

theorem txcount_lives (ag : Agent) (p : Json) : Lives (getBlockTxCount ag p) :=
  fetch_lives fun _ _ _ _ _ _ _ => ⟨_, rfl, proper_result _⟩

theorem blocktx_lives {ag : Agent} {p : Json} (hd : ¬ Deadly ag .blockTx p) :
    Lives (getBlockTx ag p) := by
  unfold getBlockTx
  split
  · next b i l =>
    refine fetch_lives fun t l' ticket txs hp hn hb => ?_
    simp only [Json.arr.injEq, List.cons.injEq, Json.str.injEq] at hp
    obtain ⟨rfl, rfl⟩ := hp
    split
    · exact ⟨_, rfl, proper_failure _ _⟩
    · next w hw =>
      split
      · exact ⟨_, rfl, proper_failure _ _⟩
      · next hle =>
        have hne : (toU64 w).toNat ≠ txs.length := fun h => hd (.afterLast b i w txs ticket l hn hb hw h)
        have hlt : (toU64 w).toNat < txs.length := by omega
        rw [List.getElem?_eq_getElem hlt]
        exact ⟨_, rfl, proper_result _⟩
  · exact answerFalse_fine (proper_failure _ _)

theorem stoull_cases (t : Text) : stoull t = .throws ∨ ∃ k, stoull t = .ok k := by
  have hd (t : Text) : stoullDigits t = .throws ∨ ∃ k, stoullDigits t = .ok k := by
    unfold stoullDigits
    split
    · exact Or.inl rfl
    · split
      · exact Or.inr ⟨_, rfl⟩
      · exact Or.inl rfl
  have hb (x : Outcome Nat) (f : Nat → UInt64) (h : x = .throws ∨ ∃ k, x = .ok k) :
      (x >>= fun n => Outcome.ok (f n)) = .throws ∨ ∃ k, (x >>= fun n => Outcome.ok (f n)) = .ok k := by
    rcases h with h | ⟨k, h⟩ <;> rw [h] <;> simp
  unfold stoull
  split <;> exact hb _ _ (hd _)

theorem fees_lives {ag : Agent} {p : Json} (hd : ¬ Deadly ag .feeHistory p) :
    Lives (feeHistory ag p) := by
  unfold feeHistory
  split
  · next n e rs l =>
    have key : ∀ last, (((e = lit "latest" ∨ e = lit "pending") ∧ last = ag.highest) ∨
        (¬ (e = lit "latest" ∨ e = lit "pending") ∧
          ∃ v, uint256beFromJson e = some v ∧ last = toU64 v)) →
        Lives (do
          let blocks ← stoull n
          let blocks := if blocks > last then last else blocks
          if ag.limit < blocks.toNat then .throws
          answer (result (feeJson last blocks rs.length))) := by
      intro last he
      rcases stoull_cases n with h | ⟨k, hk⟩
      · exact (hd (.fees n e rs l last he (Or.inl h))).elim
      · rw [hk]
        simp only [Outcome.bind_ok]
        have : ¬ ag.limit < (if k > last then last else k).toNat := by
          intro h
          refine hd (.fees n e rs l last he (Or.inr ⟨k, hk, ?_⟩))
          split at h
          · next hg =>
            have : last.toNat < k.toNat := UInt64.lt_iff_toNat_lt.1 hg
            omega
          · next hg =>
            have : ¬ last.toNat < k.toNat := fun h => hg (UInt64.lt_iff_toNat_lt.2 h)
            omega
        rw [if_neg this]
        exact answer_fine (proper_result _)
    split
    · exact answer_fine (proper_failure _ _)
    · next last hlast =>
      apply key
      split at hlast
      · next he => exact Or.inl ⟨he, by simpa using hlast.symm⟩
      · next he =>
        refine Or.inr ⟨he, ?_⟩
        simp only [Option.map_eq_some_iff] at hlast
        obtain ⟨v, h1, h2⟩ := hlast
        exact ⟨v, h1, h2.symm⟩
  · exact bad_fine

theorem rawTx_lives {ag : Agent} {m : Method} {p : Json} (hm : m = .sendRaw ∨ m = .decodeRaw)
    (hd : ¬ Deadly ag m p) (k : EvmTx → Act) (hk : ∀ tx, Lives (k tx)) :
    Lives (do
      let p ← p.idx 0
      match rawTxFromJson ag.limit p with
      | .ok tx => k tx
      | .refused => bad
      | .throws => .throws
      | .undefined => .undefined) := by
  have none_ : ∀ j : Json, j.isString = false → rawTxFromJson ag.limit j = .refused := by
    intro j hj
    cases j <;> simp [Json.isString] at hj <;> rfl
  have nol : p ≠ .null → p.isArray = false → False := fun h h' =>
    hd (.noList m p (by rcases hm with h | h <;> simp [h]) h h')
  cases p with
  | null => exact bad_fine
  | arr l =>
    match l with
    | [] => exact bad_fine
    | j :: l =>
      show Lives (match rawTxFromJson ag.limit j with
        | .ok tx => k tx
        | .refused => bad
        | .throws => .throws
        | .undefined => .undefined)
      by_cases hj : j.isString = true
      · cases j with
        | str t =>
          have h2 : ¬ t.length < 2 := fun h =>
            hd (.short m t l (by rcases hm with h | h <;> simp [h]) h)
          simp only [rawTxFromJson, argBytes, if_neg h2]
          cases hb : fromHex (t.drop 2) with
          | none => exact bad_fine
          | some b =>
            simp only
            have hx := fun h => hd (.raw m t b l hm (by omega) hb h)
            cases hr : txDecode ag.limit chainId b with
            | ok tx => exact hk tx
            | refused => exact bad_fine
            | throws => exact (hx (Or.inl hr)).elim
            | undefined => exact (hx (Or.inr hr)).elim
        | _ => simp [Json.isString] at hj
      · rw [none_ j (by simpa using hj)]
        exact bad_fine
  | bool _ => exact (nol (by simp) rfl).elim
  | int _ => exact (nol (by simp) rfl).elim
  | real _ _ => exact (nol (by simp) rfl).elim
  | str _ => exact (nol (by simp) rfl).elim
  | obj _ => exact (nol (by simp) rfl).elim

theorem submit_lives (ag : Agent) (tx : EvmTx) : Lives (submit ag tx) :=
  execTx_fine _ _ fun _ _ => ⟨_, rfl, proper_result _⟩

theorem type_lives {q : List (String × Json)}
    (h : ¬ ∃ j, find "type" q = some j ∧ ((∃ i, j = .int i ∧ (i < -2 ^ 31 ∨ 2 ^ 31 ≤ i)) ∨
        (∃ i e, j = .real i e ∧ (i < -2 ^ 31 ∨ 2 ^ 31 ≤ i ∨ (i = 2 ^ 31 - 1 ∧ e = false))))) :
    ∃ t, typeFromJson (.obj q) = .ok t := by
  unfold typeFromJson
  simp only [Json.key, Outcome.bind_ok]
  cases hf : find "type" q with
  | none => exact ⟨_, rfl⟩
  | some j =>
    simp only [Option.getD_some]
    split
    · cases j with
      | int i =>
        have : -2 ^ 31 ≤ i ∧ i < 2 ^ 31 := by
          refine Classical.byContradiction fun hn => h ⟨_, hf, Or.inl ⟨i, rfl, ?_⟩⟩
          omega
        simp only [Json.asInt, if_pos this, Outcome.bind_ok]
        exact ⟨_, rfl⟩
      | real i e =>
        have : (-2 ^ 31 ≤ i ∧ i < 2 ^ 31 - 1) ∨ (i = 2 ^ 31 - 1 ∧ e = true) := by
          refine Classical.byContradiction fun hn => h ⟨_, hf, Or.inr ⟨i, e, rfl, ?_⟩⟩
          cases e <;> simp at hn ⊢ <;> omega
        simp only [Json.asInt, if_pos this, Outcome.bind_ok]
        exact ⟨_, rfl⟩
      | _ => simp [Json.empty, Json.isNumeric] at *
    · exact ⟨_, rfl⟩

theorem txFromJson_lives {q : List (String × Json)} {t : TxType}
    (h : typeFromJson (.obj q) = .ok t) : ∃ tx, txFromJson (.obj q) = .ok tx := by
  unfold txFromJson
  rw [h]
  exact ⟨_, rfl⟩

theorem send_lives {ag : Agent} {p : Json} (hd : ¬ Deadly ag .send p) :
    Lives (sendTransaction ag p) := by
  unfold sendTransaction
  split
  · next q hq =>
    obtain ⟨l, rfl⟩ := firstArg_some hq
    obtain ⟨t, ht⟩ := type_lives (q := q) fun ⟨j, h1, h2⟩ => hd (.type _ q l j (Or.inl rfl) h1 h2)
    obtain ⟨tx, htx⟩ := txFromJson_lives ht
    rw [htx]
    exact submit_lives ag tx
  · exact answerFalse_fine (proper_failure _ _)

theorem call_lives {ag : Agent} {p : Json} (hd : ¬ Deadly ag .call p) : Lives (call ag p) := by
  unfold call
  split
  · next q hq =>
    obtain ⟨l, rfl⟩ := firstArg_some hq
    obtain ⟨t, ht⟩ := type_lives (q := q) fun ⟨j, h1, h2⟩ => hd (.type _ q l j (Or.inr rfl) h1 h2)
    obtain ⟨tx, htx⟩ := txFromJson_lives ht
    unfold dryrunTxFromJson
    rw [htx]
    simp only [Outcome.bind_ok, Json.key]
    refine execTx_fine _ _ fun r _ => ?_
    split
    · exact ⟨_, rfl, proper_failure _ _⟩
    · exact ⟨_, rfl, proper_failure _ _⟩
    · exact ⟨_, rfl, proper_result _⟩
  · exact answerFalse_fine (proper_failure _ _)

theorem sha3_lives (ag : Agent) (p : Json) : Lives (sha3 ag p) := by
  unfold sha3
  split
  · split
    · exact bad_fine
    · exact answer_fine (proper_result _)
  · exact bad_fine

theorem mapM_option {α β : Type} (f : α → Option β) (l : List α) (r : List β) :
    l.mapM f = some r ↔ l.map f = r.map some := by
  induction l generalizing r with
  | nil => cases r <;> simp
  | cons a l ih =>
    cases hf : f a with
    | none => cases r <;> simp [hf]
    | some b =>
      cases hl : l.mapM f with
      | none =>
        cases r with
        | nil => simp [hf, hl]
        | cons c r =>
          have : ¬ l.map f = r.map some := fun h => by simpa [hl] using (ih r).2 h
          simp [hf, hl, this]
      | some bs =>
        cases r with
        | nil => simp [hf, hl]
        | cons c r =>
          have := ih r
          rw [hl] at this
          simp only [List.mapM_cons, hf, hl, Option.pure_def, Option.bind_eq_bind, Option.bind_some,
            List.map_cons, List.cons.injEq, Option.some.injEq]
          rw [← this, Option.some.injEq]

theorem addresses_lives (q : List (String × Json)) :
    ∃ r, queryAddresses (.obj q) = .ok r ∧ ∀ as, r = some as ↔ LogAddresses q as := by
  unfold queryAddresses
  simp only [Json.key, Outcome.bind_ok]
  cases hf : find "address" q with
  | none => exact ⟨_, rfl, fun as => by simp [LogAddresses, hf]⟩
  | some j =>
    cases j with
    | str t =>
      refine ⟨_, rfl, fun as => ?_⟩
      simp only [LogAddresses, hf, Option.some.injEq, Json.str.injEq, reduceCtorEq, false_and,
        exists_const, or_false, Option.map_eq_some_iff]
      constructor
      · rintro ⟨a, h1, h2⟩; exact ⟨t, a, rfl, h1, h2.symm⟩
      · rintro ⟨t', a, rfl, h1, h2⟩; exact ⟨a, h1, h2.symm⟩
    | arr l =>
      refine ⟨_, rfl, fun as => ?_⟩
      simp only [LogAddresses, hf, Option.some.injEq, Json.arr.injEq, reduceCtorEq, false_and,
        exists_false, false_or]
      constructor
      · intro h
        split at h
        · simp at h
        · next hl => exact ⟨l, rfl, hl, (mapM_option _ _ _).1 h⟩
      · rintro ⟨l', rfl, h1, h2⟩
        rw [if_neg h1]
        exact (mapM_option _ _ _).2 h2
    | _ => exact ⟨_, rfl, fun as => by simp [LogAddresses, hf]⟩

theorem mapM_strings (l : List Json) :
    ((∃ j ∈ l, j.Compound) → l.mapM Json.asString = Outcome.throws) ∧
    ((¬ ∃ j ∈ l, j.Compound) → ∃ ts, l.mapM Json.asString = Outcome.ok ts ∧
      l.map Json.asString = ts.map Outcome.ok) := by
  induction l with
  | nil => exact ⟨by simp, fun _ => ⟨[], rfl, rfl⟩⟩
  | cons j l ih =>
    by_cases hj : j.Compound
    · have : j.asString = .throws := by
        cases j <;> simp [Json.Compound, Json.isArray, Json.isObject] at hj <;> rfl
      refine ⟨fun _ => by simp [List.mapM_cons, this], fun h => (h ⟨j, by simp, hj⟩).elim⟩
    · obtain ⟨t, ht⟩ : ∃ t, j.asString = .ok t := by
        cases j <;> simp [Json.Compound, Json.isArray, Json.isObject] at hj <;> exact ⟨_, rfl⟩
      refine ⟨fun ⟨x, hx, hc⟩ => ?_, fun h => ?_⟩
      · rcases List.mem_cons.1 hx with rfl | hx
        · exact (hj hc).elim
        · rw [List.mapM_cons, ht]
          simp only [Outcome.bind_ok, ih.1 ⟨x, hx, hc⟩]
          rfl
      · obtain ⟨ts, h1, h2⟩ := ih.2 fun ⟨x, hx, hc⟩ => h ⟨x, List.mem_cons_of_mem _ hx, hc⟩
        refine ⟨t :: ts, ?_, by simp [ht, h2]⟩
        rw [List.mapM_cons, ht]
        simp only [Outcome.bind_ok, h1]
        rfl

theorem topics_cases (q : List (String × Json)) :
    (queryTopics (.obj q) = .throws ∧ ∃ ts, find "topics" q = some (.arr ts) ∧
      ∃ j ∈ ts, j.Compound) ∨
    ∃ r, queryTopics (.obj q) = .ok r ∧
      (∀ ts, find "topics" q = some (.arr ts) → ¬ ∃ j ∈ ts, j.Compound) ∧
      ∀ ws, r = some ws ↔ ∃ ts, find "topics" q = some (.arr ts) ∧ ts ≠ [] ∧
        ts.map topicOf = ws.map some := by
  unfold queryTopics
  simp only [Json.key, Outcome.bind_ok]
  cases hf : find "topics" q with
  | none => exact Or.inr ⟨_, rfl, by simp, fun ws => by simp⟩
  | some j =>
    cases j with
    | arr l =>
      by_cases hc : ∃ j ∈ l, j.Compound
      · refine Or.inl ⟨?_, l, rfl, hc⟩
        simp only [Option.getD_some, (mapM_strings l).1 hc, Outcome.bind_throws]
      · obtain ⟨ts, h1, h2⟩ := (mapM_strings l).2 hc
        refine Or.inr ⟨_, by simp only [Option.getD_some, h1, Outcome.bind_ok]; rfl, ?_, fun ws => ?_⟩
        · intro ts' h; simp only [Option.some.injEq, Json.arr.injEq] at h; subst h; exact hc
        · have e : l.map topicOf = ts.map fun t =>
              match fromHexSized 32 t with
              | some b => if h : b.length = 32 then some ⟨b, h⟩ else none
              | none => none := by
            have : l.map topicOf = (l.map Json.asString).map fun o => match o with
                | .ok t =>
                  match fromHexSized 32 t with
                  | some b => if h : b.length = 32 then some ⟨b, h⟩ else none
                  | none => none
                | _ => none := by
              rw [List.map_map]
              exact List.map_congr_left fun j _ => by simp [topicOf]
            rw [this, h2, List.map_map]
            rfl
          constructor
          · intro h
            split at h
            · simp at h
            · next hl => exact ⟨l, rfl, hl, by rw [e]; exact (mapM_option _ _ _).1 h⟩
          · rintro ⟨l', h3, h4, h5⟩
            simp only [Option.some.injEq, Json.arr.injEq] at h3
            subst h3
            rw [if_neg h4]
            rw [e] at h5
            exact (mapM_option _ _ _).2 h5
    | _ => exact Or.inr ⟨_, rfl, by simp, fun ws => by simp⟩

theorem blocks_lives (ag : Agent) (q : List (String × Json)) :
    ∃ r, queryBlocks ag (.obj q) = .ok r ∧ (∀ e, r = .error e → Proper e) ∧
      ∀ first last, r = .ok (first, last) ↔ LogRange ag q first last := by
  unfold queryBlocks
  simp only [Json.key, Outcome.bind_ok]
  have other : (∀ t, find "blockhash" q ≠ some (.str t)) →
      ∃ r, (match (find "fromBlock" q).getD .null, (find "toBlock" q).getD .null with
        | .str f, .str t => Outcome.ok (match blockNumber ag f, blockNumber ag t with
            | none, _ => Except.error (badBlock "Invalid fromBlock parameter")
            | _, none => .error (badBlock "Invalid toBlock parameter")
            | some f, some t => .ok (f, t))
        | _, _ => .ok (.error (badBlock "from/toBlock or blockHash parameter missing"))) = .ok r ∧
        (∀ e, r = .error e → Proper e) ∧
        ∀ first last, r = .ok (first, last) ↔ LogRange ag q first last := by
    intro hb
    have hb' (t : Text) : (find "blockhash" q = some (.str t)) = False := by simp [hb t]
    have he {α : Type} (r : Except Json α) (m : String) (h : r = .error (badBlock m)) :
        ∀ e, r = .error e → Proper e := by
      intro e h'; rw [h] at h'; cases h'; exact proper_failure _ _
    split
    · next f t hf ht =>
      have hf : find "fromBlock" q = some (.str f) := by
        cases h : find "fromBlock" q with
        | none => rw [h] at hf; simp at hf
        | some j => rw [h] at hf; simp at hf; rw [hf]
      have ht : find "toBlock" q = some (.str t) := by
        cases h : find "toBlock" q with
        | none => rw [h] at ht; simp at ht
        | some j => rw [h] at ht; simp at ht; rw [ht]
      refine ⟨_, rfl, ?_⟩
      have hL (first last : UInt64) : LogRange ag q first last ↔
          blockNumber ag f = some first ∧ blockNumber ag t = some last := by
        simp [LogRange, hb', hf, ht]
      simp only [hL]
      cases blockNumber ag f with
      | none => exact ⟨he _ _ rfl, by simp⟩
      | some a =>
        cases blockNumber ag t with
        | none => exact ⟨he _ _ rfl, by simp⟩
        | some b => exact ⟨by simp, by simp⟩
    · next hn =>
      refine ⟨_, rfl, he _ _ rfl, fun first last => ?_⟩
      simp only [reduceCtorEq, false_iff]
      rintro (⟨t, w, h, _⟩ | ⟨_, f, t, h1, h2, _⟩)
      · exact hb t h
      · exact hn f t (by rw [h1]; rfl) (by rw [h2]; rfl)
  cases hf : find "blockhash" q with
  | none => exact other (by simp [hf])
  | some j =>
    cases j with
    | str t =>
      have hL (first last : UInt64) : LogRange ag q first last ↔
          ∃ w, uint256beFromHex t = some w ∧ first = toU64 w ∧ last = toU64 w := by
        unfold LogRange
        simp only [hf, Option.some.injEq, Json.str.injEq]
        constructor
        · rintro (⟨t', w, rfl, h⟩ | ⟨h, _⟩)
          · exact ⟨w, h⟩
          · exact (h t rfl).elim
        · rintro ⟨w, h⟩; exact Or.inl ⟨t, w, rfl, h⟩
      simp only [hL]
      refine ⟨_, rfl, ?_⟩
      cases uint256beFromHex t with
      | none =>
        refine ⟨?_, fun first last => by simp only [reduceCtorEq, false_and, exists_false]⟩
        intro e h; cases h; exact proper_failure _ _
      | some w =>
        refine ⟨fun e h => (nomatch h), fun first last => ?_⟩
        constructor
        · intro h; cases h; exact ⟨w, rfl, rfl, rfl⟩
        · rintro ⟨w', h, rfl, rfl⟩; cases h; rfl
    | _ => exact other (by simp [hf])

theorem check_cases (as : List Address) (ws : List Word) (first last : UInt64) (ha : as ≠ [])
    (hw : ws ≠ []) :
    (LogQuery.check ⟨as, ws, first, last⟩ = .undefined ↔
      (signed last - signed first < -2 ^ 63 ∨ 2 ^ 63 ≤ signed last - signed first)) ∧
    (LogQuery.check ⟨as, ws, first, last⟩ = .accepted →
      signed first ≤ signed last ∧
        ((signed last - signed first).toNat * as.length) % 2 ^ 64 ≤ 100) ∧
    (signed first ≤ signed last → signed last - signed first < 2 ^ 63 →
      ((signed last - signed first).toNat * as.length) % 2 ^ 64 ≤ 100 →
      LogQuery.check ⟨as, ws, first, last⟩ = .accepted) := by
  unfold LogQuery.check
  simp only [ha, hw, if_false]
  by_cases h1 : signed last - signed first < -2 ^ 63 ∨ 2 ^ 63 ≤ signed last - signed first
  · rw [if_pos h1]
    refine ⟨⟨fun _ => h1, fun _ => rfl⟩, by simp, ?_⟩
    intro h2 h3 _
    omega
  · rw [if_neg h1]
    by_cases h2 : signed last - signed first < 0
    · rw [if_pos h2]
      refine ⟨⟨fun h => (nomatch h), fun h => (h1 h).elim⟩, by simp, fun h => by omega⟩
    · rw [if_neg h2]
      by_cases h3 : ((signed last - signed first).toNat * as.length) % 2 ^ 64 > 100
      · rw [if_pos h3]
        exact ⟨⟨fun h => (nomatch h), fun h => (h1 h).elim⟩, by simp, fun _ _ h => by omega⟩
      · rw [if_neg h3]
        exact ⟨⟨fun h => (nomatch h), fun h => (h1 h).elim⟩, fun _ => ⟨by omega, by omega⟩, fun _ _ _ => rfl⟩

theorem last_ticket (t : UInt64) : t = 0 - 1 ↔ t.toNat = 2 ^ 64 - 1 := by
  rw [← UInt64.toNat_inj]; rfl

theorem addresses_ne {q : List (String × Json)} {as : List Address} (h : LogAddresses q as) : as ≠ [] := by
  rcases h with ⟨_, _, _, _, rfl⟩ | ⟨l, _, h1, h2⟩
  · simp
  · rintro rfl; simp at h2; exact h1 h2

theorem logs_lives {ag : Agent} {p : Json} (hd : ¬ Deadly ag .logs p) : Lives (getLogs ag p) := by
  unfold getLogs
  split
  · next q hq =>
    obtain ⟨l, rfl⟩ := firstArg_some hq
    obtain ⟨ra, h1, h2⟩ := addresses_lives q
    rw [h1, Outcome.bind_ok]
    cases ra with
    | none => exact answer_fine (proper_failure _ _)
    | some as =>
      have ha := (h2 as).1 rfl
      simp only
      rcases topics_cases q with ⟨_, ts, h3, j, h4, h5⟩ | ⟨rt, h3, _, h4⟩
      · exact (hd (.topic q as ts l j ha h3 h4 h5)).elim
      · rw [h3, Outcome.bind_ok]
        cases rt with
        | none => exact answer_fine (proper_failure _ _)
        | some ws =>
          obtain ⟨ts, h5, h6, h7⟩ := (h4 ws).1 rfl
          have hws : ws ≠ [] := by rintro rfl; simp at h7; exact h6 h7
          obtain ⟨rb, h8, h9, h10⟩ := blocks_lives ag q
          simp only [h8, Outcome.bind_ok]
          cases rb with
          | error e => exact answer_fine (h9 e rfl)
          | ok r =>
            obtain ⟨first, last⟩ := r
            have hr := (h10 first last).1 rfl
            obtain ⟨c1, c2, _⟩ := check_cases as ws first last (addresses_ne ha) hws
            simp only
            have hx := fun h => hd (.range q as ts l ws first last ha h5 h6 h7 hr h)
            split
            · next h =>
              rcases c1.1 h with h | h
              · exact (hx (Or.inl h)).elim
              · exact (hx (Or.inr (Or.inl h))).elim
            · split
              · exact answer_fine (proper_failure _ _)
              · exact answer_fine (proper_failure _ _)
            · next h =>
              have hl : ¬ last = 0 - 1 := fun e =>
                hx (Or.inr (Or.inr ⟨(last_ticket last).1 e, (c2 h).1, (c2 h).2⟩))
              simp only [Agent.getLogs, if_neg hl, Outcome.bind_ok]
              exact execTx_fine _ _ fun _ _ => ⟨_, rfl, proper_result _⟩
  · exact answerFalse_fine (proper_failure _ _)

/-- A request which is not deadly is answered. -/
theorem handle_lives {ag : Agent} {name : Text} {p : Json}
    (hd : ∀ m, methodOf name = some m → ¬ Deadly ag m p) : Lives (handle ag name p) := by
  unfold handle
  split
  · exact answer_fine (proper_failure _ _)
  · next h => exact rawTx_lives (Or.inl rfl) (hd _ h) _ (submit_lives ag)
  · next h => exact send_lives (hd _ h)
  · next h => exact count_lives (hd _ h)
  · next h => exact call_lives (hd _ h)
  · exact answer_fine (proper_result _)
  · next h => exact code_lives (hd _ h)
  · next h => exact balance_lives (hd _ h)
  · exact answer_fine (proper_result _)
  · next h => exact byHash_lives (hd _ h)
  · next h => exact receipt_lives (hd _ h)
  · next h => exact block_lives (hd _ h)
  · exact txcount_lives ag p
  · next h => exact blocktx_lives (hd _ h)
  · exact answer_fine (proper_result _)
  · next h => exact fees_lives (hd _ h)
  · next h => exact logs_lives (hd _ h)
  · exact storage_lives ag p
  · exact answer_fine (proper_result _)
  · exact answer_fine (proper_result _)
  · next h => exact rawTx_lives (Or.inr rfl) (hd _ h) _ fun tx => answer_fine (proper_result _)
  · exact sha3_lives ag p
  · exact answer_fine (proper_result _)
  · exact answer_fine (proper_failure _ _)
  · exact answer_fine (proper_result _)
  · exact answer_fine (proper_result _)

/-! ### Deadly requests -/

/-- What was done did not go well. -/
def Dies (a : Act) : Prop := a = .throws ∨ a = .undefined

theorem Dies.not {a : Act} (h : Dies a) (x : List Json × Bool) : a ≠ .ok x := by
  rcases h with h | h <;> rw [h] <;> simp

theorem raw_dies {ag : Agent} {t : Text} {l : List Json} (k : EvmTx → Act)
    (h : rawTxFromJson ag.limit (.str t) = .throws ∨ rawTxFromJson ag.limit (.str t) = .undefined) :
    Dies (do
      let p ← (Json.arr (.str t :: l)).idx 0
      match rawTxFromJson ag.limit p with
      | .ok tx => k tx
      | .refused => bad
      | .throws => .throws
      | .undefined => .undefined) := by
  show Dies (match rawTxFromJson ag.limit (.str t) with
      | .ok tx => k tx
      | .refused => bad
      | .throws => .throws
      | .undefined => .undefined)
  rcases h with h | h <;> rw [h]
  · exact Or.inl rfl
  · exact Or.inr rfl

theorem idx_throws {p : Json} (h : p ≠ .null) (h' : p.isArray = false) (i : Nat) : p.idx i = .throws := by
  cases p <;> simp [Json.isArray] at h h' <;> rfl

theorem asBool_throws {j : Json} (h : j.isString = true ∨ j.Compound) : j.asBool = .throws := by
  cases j <;> simp [Json.isString, Json.Compound, Json.isArray, Json.isObject] at h <;> rfl

theorem rawTx_short {limit : Nat} {t : Text} (h : t.length < 2) :
    rawTxFromJson limit (.str t) = .throws := by
  simp [rawTxFromJson, argBytes, h]

theorem type_throws {q : List (String × Json)} {j : Json} (hq : find "type" q = some j)
    (h : (∃ i, j = .int i ∧ (i < -2 ^ 31 ∨ 2 ^ 31 ≤ i)) ∨
      (∃ i e, j = .real i e ∧ (i < -2 ^ 31 ∨ 2 ^ 31 ≤ i ∨ (i = 2 ^ 31 - 1 ∧ e = false)))) :
    txFromJson (.obj q) = .throws := by
  have : typeFromJson (.obj q) = .throws := by
    unfold typeFromJson
    simp only [Json.key, Outcome.bind_ok, hq, Option.getD_some]
    rcases h with ⟨i, rfl, h⟩ | ⟨i, e, rfl, h⟩
    · have : ¬ (-2 ^ 31 ≤ i ∧ i < 2 ^ 31) := by omega
      simp only [Json.empty, Json.isNumeric, Bool.not_false, Bool.and_self, if_true, Json.asInt,
        if_neg this, Outcome.bind_throws]
    · have : ¬ ((-2 ^ 31 ≤ i ∧ i < 2 ^ 31 - 1) ∨ (i = 2 ^ 31 - 1 ∧ e = true)) := by
        cases e <;> simp at h ⊢ <;> omega
      simp only [Json.empty, Json.isNumeric, Bool.not_false, Bool.and_self, if_true, Json.asInt,
        if_neg this, Outcome.bind_throws]
  unfold txFromJson
  rw [this]
  rfl

theorem handle_dies {ag : Agent} {name : Text} {m : Method} {p : Json} (hm : methodOf name = some m)
    (hd : Deadly ag m p) : Dies (handle ag name p) := by
  unfold handle
  rw [hm]
  cases hd with
  | noList _ _ h1 h2 h3 =>
    rcases h1 with rfl | rfl | rfl <;> simp only [sendRawTransaction, decodeRawTransaction, getBlock,
      idx_throws h2 h3, Outcome.bind_throws] <;> exact Or.inl rfl
  | short _ t l h1 h2 =>
    simp only [List.mem_cons, List.not_mem_nil, or_false] at h1
    rcases h1 with rfl | rfl | rfl | rfl | rfl | rfl | rfl
    · exact raw_dies _ (Or.inl (rawTx_short h2))
    · exact raw_dies _ (Or.inl (rawTx_short h2))
    · exact Or.inl (by simp [getTransactionCount, firstArg, hexArg_short h2])
    · exact Or.inl (by simp [getBalance, firstArg, hexArg_short h2])
    · exact Or.inl (by simp [getTransactionByHash, firstArg, hexArg_short h2])
    · exact Or.inl (by simp [getTransactionReceipt, firstArg, hexArg_short h2])
    · exact Or.inl (by simp [getCode, firstArg, hexArg_short h2])
  | raw _ t b l h1 h2 h3 h4 =>
    have e : rawTxFromJson ag.limit (.str t) = txDecode ag.limit chainId b := by
      simp only [rawTxFromJson, argBytes, if_neg (show ¬ t.length < 2 by omega), h3]
    rcases h1 with rfl | rfl
    · exact raw_dies _ (e ▸ h4)
    · exact raw_dies _ (e ▸ h4)
  | longAddress t b l h2 hb h =>
    refine Or.inr ?_
    simp only [getCode, firstArg, hexArg_long (show ¬ t.length < 2 by omega), hb, Outcome.bind_ok, codeKey,
      if_pos h, Outcome.bind_undefined]
  | blockFlag a b l h =>
    refine Or.inl ?_
    show (b.asBool >>= _) = _
    rw [asBool_throws h]
    rfl
  | afterLast n i w txs ticket l hn hb hi h =>
    refine Or.inr ?_
    have hlt : ¬ txs.length < (toU64 w).toNat := by omega
    have hno : txs[(toU64 w).toNat]? = none := List.getElem?_eq_none (by omega)
    rcases hn with ⟨rfl, rfl⟩ | ⟨hn, v, hv, rfl⟩
    · simp only [getBlockTx, fetchBlock, List.head?_nil, Option.elim_none, if_true, hb, execTx, hi,
        if_neg hlt, hno, Outcome.bind_undefined]
    · simp only [getBlockTx, fetchBlock, List.head?_nil, Option.elim_none, if_true, if_neg hn, hv, hb, execTx,
        hi, if_neg hlt, hno, Outcome.bind_undefined]
  | fees n e rs l last he h =>
    refine Or.inl ?_
    have hl : (if e = lit "latest" ∨ e = lit "pending" then some ag.highest
        else (uint256beFromJson e).map toU64) = some last := by
      rcases he with ⟨h1, rfl⟩ | ⟨h1, v, hv, rfl⟩
      · rw [if_pos h1]
      · rw [if_neg h1, hv]; rfl
    simp only [feeHistory, hl]
    rcases h with h | ⟨k, hk, h⟩
    · rw [h]; rfl
    · rw [hk]
      simp only [Outcome.bind_ok]
      have : ag.limit < (if k > last then last else k).toNat := by
        split
        · omega
        · omega
      rw [if_pos this]
      rfl
  | topic q as ts l j ha ht hj h =>
    refine Or.inl ?_
    obtain ⟨ra, h1, h2⟩ := addresses_lives q
    have := (h2 as).2 ha
    subst this
    simp only [getLogs, firstArg, h1, Outcome.bind_ok]
    rcases topics_cases q with ⟨h3, _⟩ | ⟨rt, _, h4, _⟩
    · rw [h3]; rfl
    · exact (h4 ts ht ⟨j, hj, h⟩).elim
  | range q as ts l ws first last ha ht hts hw hr h =>
    obtain ⟨ra, h1, h2⟩ := addresses_lives q
    have := (h2 as).2 ha
    subst this
    obtain ⟨rb, h8, _, h10⟩ := blocks_lives ag q
    have := (h10 first last).2 hr
    subst this
    simp only [getLogs, firstArg, h1, Outcome.bind_ok]
    rcases topics_cases q with ⟨h3, _⟩ | ⟨rt, h3, _, h4⟩
    · rw [h3]; exact Or.inl rfl
    · have := (h4 ws).2 ⟨ts, ht, hts, hw⟩
      subst this
      simp only [h3, h8, Outcome.bind_ok]
      have hws : ws ≠ [] := by rintro rfl; simp at hw; exact hts hw
      obtain ⟨c1, _, c3⟩ := check_cases as ws first last (addresses_ne ha) hws
      by_cases hu : signed last - signed first < -2 ^ 63 ∨ 2 ^ 63 ≤ signed last - signed first
      · rw [c1.2 hu]; exact Or.inr rfl
      · have hx : last.toNat = 2 ^ 64 - 1 ∧ signed first ≤ signed last ∧
            ((signed last - signed first).toNat * as.length) % 2 ^ 64 ≤ 100 := by
          rcases h with h | h | h
          · exact (hu (Or.inl h)).elim
          · exact (hu (Or.inr h)).elim
          · exact h
        rw [c3 hx.2.1 (by omega) hx.2.2]
        simp only [Agent.getLogs, if_pos ((last_ticket last).2 hx.1), Outcome.bind_throws]
        exact Or.inl rfl
  | type _ q l j h1 hq h =>
    have := type_throws hq h
    rcases h1 with rfl | rfl
    · exact Or.inl (by simp [sendTransaction, firstArg, this])
    · exact Or.inl (by simp [call, firstArg, dryrunTxFromJson, this])

/-! ### C96 and C97 -/

theorem handleRequest_null (ag : Agent) : handleRequest ag (some .null) = .ok ([], false) := rfl

/-- What becomes of a JSON object. -/
theorem handleRequest_obj (ag : Agent) (l : List (String × Json)) :
    handleRequest ag (some (.obj l)) =
      match find "method" l with
      | some (.str name) => (do
          let r ← handle ag name ((find "params" l).getD .null)
          .ok (r.1.map (respond (((find "id" l).getD .null).uint64?.getD 0)), r.2))
      | _ => .ok ([], false) := by
  simp only [handleRequest, Json.isMember, Json.key, Outcome.bind_ok]
  cases hf : find "method" l with
  | none => rfl
  | some j => cases j <;> rfl

/-- **C96, in part.** The process goes on and the client gets a response, unless the request
is one of those listed in `Deadly`; and each of these does end the process or reach outside
a buffer. -/
theorem C96_exactly_partial (ag : Agent) (cors running : Bool) (r : Request) :
    (∃ x, serve ag cors running r = .ok (some x)) ↔
      ¬ (r.verb = lit "POST" ∧ running = true ∧ ∃ j, r.body = some j ∧ DeadlyBody ag j) := by
  unfold serve responses
  by_cases h1 : r.verb = lit "OPTIONS" ∧ cors = true
  · rw [if_pos h1]
    refine ⟨fun _ h => ?_, fun _ => ⟨_, rfl⟩⟩
    rw [h1.1] at h
    exact absurd h.1 (by decide)
  · rw [if_neg h1]
    by_cases h2 : r.verb ≠ lit "POST"
    · rw [if_pos h2]
      exact ⟨fun _ h => h2 h.1, fun _ => ⟨_, rfl⟩⟩
    · rw [if_neg h2]
      have h2 : r.verb = lit "POST" := Classical.byContradiction h2
      cases running with
      | false => exact ⟨fun _ h => by simp at h, fun _ => ⟨_, rfl⟩⟩
      | true =>
        simp only [Bool.not_true, Bool.false_eq_true, if_false, h2, true_and]
        cases hb : r.body with
        | none => exact ⟨fun _ h => by simp at h, fun _ => ⟨_, rfl⟩⟩
        | some j =>
          have non (hn : j ≠ .null) (ho : j.isObject = false) :
              handleRequest ag (some j) = .throws := by
            cases j <;> simp [Json.isObject] at hn ho <;> rfl
          simp only [Option.some.injEq, exists_eq_left']
          by_cases hn : j = .null
          · subst hn
            refine ⟨fun _ h => ?_, fun _ => ⟨_, rfl⟩⟩
            rcases h with ⟨_, h⟩ | ⟨l, name, m, h, _⟩
            · exact h rfl
            · simp at h
          · by_cases ho : j.isObject = false
            · rw [non hn ho]
              constructor
              · rintro ⟨x, h⟩; simp at h
              · intro h; exact (h (Or.inl ⟨ho, hn⟩)).elim
            · cases j with
              | obj l =>
                rw [handleRequest_obj]
                have hD : DeadlyBody ag (.obj l) ↔ ∃ name m, find "method" l = some (.str name) ∧
                    methodOf name = some m ∧ Deadly ag m ((find "params" l).getD .null) := by
                  unfold DeadlyBody
                  constructor
                  · rintro (⟨h, _⟩ | ⟨l', name, m, h, hr⟩)
                    · exact (ho h).elim
                    · simp only [Json.obj.injEq] at h; subst h; exact ⟨name, m, hr⟩
                  · rintro ⟨name, m, hr⟩; exact Or.inr ⟨l, name, m, rfl, hr⟩
                rw [hD]
                cases hf : find "method" l with
                | none => exact ⟨fun _ h => by simp at h, fun _ => ⟨_, rfl⟩⟩
                | some jm =>
                  cases jm with
                  | str name =>
                    simp only [Option.some.injEq, Json.str.injEq]
                    constructor
                    · rintro ⟨x, h⟩ ⟨name', m, rfl, hm, hd⟩
                      rcases handle_dies hm hd with e | e <;> rw [e] at h <;> simp at h
                    · intro h
                      obtain ⟨y, hy, hf⟩ := handle_lives (ag := ag) (name := name)
                        (p := (find "params" l).getD .null) fun m hm hd => h ⟨name, m, rfl, hm, hd⟩
                      rw [hy]
                      simp only [Outcome.bind_ok]
                      rcases hf with rfl | ⟨j, b, rfl, _⟩
                      · exact ⟨_, rfl⟩
                      · cases b <;> exact ⟨_, rfl⟩
                  | _ => exact ⟨fun _ h => by simp at h, fun _ => ⟨_, rfl⟩⟩
              | _ => simp [Json.isObject] at ho

/-- **C97, in part.** What a client of a running server gets, for a JSON object with a
method: a result or an error of JSON-RPC with the number which came with the request as
`id`, or, if the parameters do not suit the method, the response that the request is
invalid.  When the server calls for a second response, as it does for some invalid
parameters, the client does not get it.  Missing: an `id` which is not a number from 0 to
2^64 - 1 comes back as 0 (`C97_id_violated`). -/
theorem C97_answer_partial (ag : Agent) (cors : Bool) (l : List (String × Json)) (name : Text)
    (x : Option Response) (i : UInt64) (hm : find "method" l = some (.str name))
    (hid : ((find "id" l).getD .null).uint64? = some i)
    (h : serve ag cors true ⟨lit "POST", some (.obj l)⟩ = .ok x) :
    (∃ j, x = some (.json (.obj j)) ∧
        find "id" j = some (.int i.toNat) ∧ find "jsonrpc" j = some (.str (lit "2.0")) ∧
        (((find "result" j).isSome ∧ find "error" j = none) ∨
          (find "result" j = none ∧
            ∃ c m, find "error" j = some (.obj [("code", .int c), ("message", .str m)])))) ∨
      x = some .invalid := by
  have hP : lit "POST" ≠ lit "OPTIONS" := by decide
  have hnd : ∀ m, methodOf name = some m → ¬ Deadly ag m ((find "params" l).getD .null) := by
    intro m hm' hd
    unfold serve responses at h
    rw [if_neg (fun h => hP h.1), if_neg (by simp), if_neg (by simp), handleRequest_obj, hm] at h
    rcases handle_dies hm' hd with e | e <;> simp only [e] at h <;> simp at h
  obtain ⟨y, hy, hf⟩ := handle_lives hnd
  unfold serve responses at h
  rw [if_neg (fun h => hP h.1), if_neg (by simp), if_neg (by simp), handleRequest_obj, hm] at h
  simp only [hy, Outcome.bind_ok, hid, Option.getD_some] at h
  rcases hf with rfl | ⟨j, b, rfl, hp⟩
  · right
    simpa using h.symm
  · left
    have hx : x = some (respond i j) := by
      cases b <;> simpa using h.symm
    rcases hp with ⟨v, rfl⟩ | ⟨c, m, rfl⟩
    · exact ⟨_, hx, by simp [find], by simp [find], Or.inl ⟨by simp [find], by simp [find]⟩⟩
    · exact ⟨_, hx, by simp [find], by simp [find],
        Or.inr ⟨by simp [find], c, m, by simp [find]⟩⟩

/-- **C97.** Whatever the request, the client is not left waiting: when the server comes to
an end with a request it has given a response. -/
theorem C97_response (ag : Agent) (cors running : Bool) (r : Request) :
    serve ag cors running r ≠ .ok none := by
  intro h
  by_cases hd : r.verb = lit "POST" ∧ running = true ∧ ∃ j, r.body = some j ∧ DeadlyBody ag j
  · obtain ⟨h1, h2, j, h3, h4⟩ := hd
    have hno : ∀ y, handleRequest ag (some j) ≠ .ok y := by
      intro y
      rcases h4 with ⟨ho, hn⟩ | ⟨l, name, m, rfl, hf, hm, hd⟩
      · cases j <;> simp [Json.isObject] at ho hn <;> simp [handleRequest, Json.isMember]
      · rw [handleRequest_obj, hf]
        rcases handle_dies hm hd with e | e <;> simp only [e] <;> simp
    unfold serve responses at h
    rw [if_neg (by rintro ⟨h, _⟩; rw [h1] at h; exact absurd h (by decide)), if_neg (by simp [h1]),
      h2, if_neg (by simp), h3] at h
    cases hr : handleRequest ag (some j) with
    | ok y => exact hno y hr
    | _ => rw [hr] at h; simp at h
  · obtain ⟨x, hx⟩ := (C96_exactly_partial ag cors running r).2 hd
    rw [hx] at h
    simp at h

/-- A request for a method with parameters. -/
def ask (method : String) (params : Json) (id : Json) : Request :=
  ⟨lit "POST", some (.obj [("jsonrpc", .str (lit "2.0")), ("method", .str (lit method)),
    ("params", params), ("id", id)])⟩

/-- **C96, violated.** One request ends the process of any agent: a body which is a number
or a list of requests, a question for the balance of the address `""`, one for the newest
block with a text in second place, and one for fees of a number of blocks which is not a number; one
for the code of an address of 21 bytes writes after the end of a buffer. -/
theorem C96_violated (ag : Agent) (cors : Bool) :
    serve ag cors true ⟨lit "POST", some (.int 1)⟩ = .throws ∧
    (∀ l, serve ag cors true ⟨lit "POST", some (.arr l)⟩ = .throws) ∧
    serve ag cors true (ask "eth_getBalance" (.arr [.str []]) (.int 1)) = .throws ∧
    serve ag cors true (ask "eth_getBlockByNumber" (.arr [.str (lit "latest"), .str (lit "true")])
      (.int 1)) = .throws ∧
    serve ag cors true (ask "eth_feeHistory" (.arr [.str (lit "x4"), .str (lit "latest"), .arr []])
      (.int 1)) = .throws ∧
    serve ag cors true (ask "eth_getCode"
      (.arr [.str (lit "0x000000000000000000000000000000000000000000")]) (.int 1)) = .undefined := by
  cases cors <;> exact ⟨rfl, fun _ => rfl, rfl, rfl, rfl, rfl⟩

/-- **C97, violated.** A client which numbers its requests with texts, as JSON-RPC allows,
or with negative numbers gets answers with 0 for the number; and a request with an
unsuitable parameter makes the server give two responses, of which libmicrohttpd refuses
the second. -/
theorem C97_id_violated (ag : Agent) (cors : Bool) :
    (∀ id, id = .str (lit "a") ∨ id = .int (-1) ∨ id = .null →
      serve ag cors true (ask "eth_chainId" (.arr []) id) =
        .ok (some (.json (.obj [("result", .str (lit "0xcbdc")), ("jsonrpc", .str (lit "2.0")),
          ("id", .int 0)])))) ∧
    ∃ a b, responses ag cors true (ask "eth_getCode" (.arr []) (.int 1)) = .ok [a, b] := by
  refine ⟨?_, ?_⟩
  · rintro id (rfl | rfl | rfl) <;> cases cors <;> rfl
  · cases cors <;> exact ⟨_, _, rfl⟩

/-- An agent with no data. -/
def sampleAgent (read : Bytes → Except Int Bytes) : Agent where
  curve := ⟨Unit, fun _ _ => ⟨.zero, .zero, 0⟩, fun _ _ => none, fun _ => [], fun _ => [],
    fun _ => ⟨List.replicate 20 0, rfl⟩⟩
  highest := 7
  limit := 1000
  read := read
  ticketKey := fun _ => []
  receiptOf := fun _ => none
  logs := fun _ => .ok []
  execute := fun _ => none
  dryrun := fun _ _ => .ok none

/-- A request which is answered, and with its number. -/
example : serve (sampleAgent fun _ => .ok []) false true
    (ask "eth_getBalance" (.arr [.str (lit "0x0000000000000000000000000000000000000001")]) (.int 5)) =
    .ok (some (.json (.obj [("result", .str (lit "0x0")), ("jsonrpc", .str (lit "2.0")),
      ("id", .int 5)]))) := rfl

/-- An unsuitable parameter. -/
example : serve (sampleAgent fun _ => .ok []) false true
    (ask "eth_getBalance" (.arr [.bool true]) (.int 5)) = .ok (some .invalid) := rfl

/-- The hypothesis of `handle_lives` holds for some parameters and not for others. -/
example (ag : Agent) : Deadly ag .code (.arr [.str [48]]) ∧ ¬ Deadly ag .balance (.arr []) :=
  ⟨.short _ _ _ (by simp) (by decide), by intro h; cases h; rename_i h _ _; simp at h⟩

end Verif.Http
