import Verif.Http.Receipts
/-!
# What the server tells about blocks and logs (C143)
-/
namespace Verif.Http

open Verif.Serial Verif.Evm Verif.Hex

/-! ### Specification -/

/-- A text which names a block. -/
def Names (ag : Agent) (t : Text) (n : UInt64) : Prop :=
  (t = lit "latest" ∧ n = ag.highest) ∨
  ∃ s, t = zeroX ++ s ∧ IsHex s ∧ s ≠ [] ∧ s.length ≤ 64 ∧ hexNat s = n.toNat

/-- A parameter which is a list of bytes in hex. -/
def Lists {n : Nat} (j : Option Json) (l : List { b : Bytes // b.length = n }) : Prop :=
  ∃ js : List Json, j = some (.arr js) ∧ List.Forall₂ (fun x b => Shows x b.val) js l

/-- A query for the logs of addresses with one of some topics in a range of blocks, of
which there are not too many. -/
structure AsksLogs (ag : Agent) (q : List (String × Json)) (as : List Address) (ws : List Word)
    (first last : UInt64) : Prop where
  addresses : Lists (find "address" q) as
  some_address : as ≠ []
  topics : Lists (find "topics" q) ws
  some_topic : ws ≠ []
  no_hash : find "blockhash" q = none
  first_block : ∃ t, find "fromBlock" q = some (.str t) ∧ Names ag t first
  last_block : ∃ t, find "toBlock" q = some (.str t) ∧ Names ag t last
  order : first.toNat ≤ last.toNat
  small : last.toNat < 2 ^ 63
  few : (last.toNat - first.toNat) * as.length ≤ 100

/-- The logs with one of some topics, each with the entry it is from, in their order. -/
def matching (ws : List Word) (l : List LogIndex) : List (LogIndex × Log) :=
  l.flatMap fun i => (i.logs.filter fun g => decide (∃ t ∈ g.topics, t ∈ ws)).map fun g => (i, g)

/-- The value of decimal digits. -/
def decValue (t : Text) : Nat := t.foldl (fun n c => 10 * n + (c.toNat - 48)) 0

/-- A text of decimal digits. -/
def IsDecimal (t : Text) : Prop := t ≠ [] ∧ ∀ c ∈ t, 48 ≤ c.toNat ∧ c.toNat ≤ 57

/-! ### Lemmas -/

theorem decimal_digits (t : Text) (h : ∀ c ∈ t, 48 ≤ c.toNat ∧ c.toNat ≤ 57) (n : Nat) :
    decimal t n = t.foldl (fun n c => 10 * n + (c.toNat - 48)) n := by
  induction t generalizing n with
  | nil => rfl
  | cons c t ih =>
    rw [decimal, if_pos (h c (by simp)), List.foldl_cons]
    exact ih (fun x hx => h x (by simp [hx])) _

theorem stoull_digit (c : UInt8) (t : Text) (h : 48 ≤ c.toNat ∧ c.toNat ≤ 57)
    (hv : decimal (c :: t) 0 < 2 ^ 64) : stoull (c :: t) = .ok (decimal (c :: t) 0).toUInt64 := by
  have hsp : isSpace c = false := by
    rw [Bool.eq_false_iff]
    intro hs
    simp only [isSpace, decide_eq_true_eq, Bool.or_eq_true, Bool.and_eq_true, beq_iff_eq] at hs
    have h32 : (32 : UInt8).toNat = 32 := rfl
    have h9 : (9 : UInt8).toNat = 9 := rfl
    have h13 : (13 : UInt8).toNat = 13 := rfl
    simp only [UInt8.le_iff_toNat_le, ← UInt8.toNat_inj] at hs
    omega
  have hd : (c :: t).dropWhile isSpace = c :: t := by simp [hsp]
  have h43 : c ≠ 43 := by rintro rfl; simp at h
  have h45 : c ≠ 45 := by rintro rfl; simp at h
  have hn : stoullDigits (c :: t) = .ok (decimal (c :: t) 0) := by
    simp only [stoullDigits, startsDigit, h, and_self, decide_true, Bool.not_true, Bool.false_eq_true, if_false,
      if_pos hv]
  unfold stoull
  rw [hd]
  split
  · next h => simp at h; exact (h43 h.1).elim
  · next h => simp at h; exact (h45 h.1).elim
  · rw [hn]; rfl

theorem feeHistory_latest (ag : Agent) (t : Text) (rs : List Json) (k : UInt64) (hk : stoull t = .ok k)
    (hle : k ≤ ag.highest) (hl : k.toNat ≤ ag.limit) :
    Gets ag "eth_feeHistory" (.arr [.str t, .str (lit "latest"), .arr rs])
      (feeJson ag.highest k rs.length) := by
  refine gets_of (b := true) ?_
  have key : handle ag (lit "eth_feeHistory") (.arr [.str t, .str (lit "latest"), .arr rs]) =
      feeHistory ag (.arr [.str t, .str (lit "latest"), .arr rs]) := rfl
  rw [key]
  simp only [feeHistory, true_or, if_true, hk, Outcome.bind_ok]
  have h1 : ¬ k > ag.highest := by
    rw [gt_iff_lt, UInt64.lt_iff_toNat_lt]
    rw [UInt64.le_iff_toNat_le] at hle
    omega
  rw [if_neg h1, if_neg (by omega)]
  rfl

theorem names_latest {s : Text} : zeroX ++ s ≠ lit "latest" := by
  intro h
  have := congrArg List.head? h
  simp [zeroX, lit] at this

theorem names_hex {s : Text} {n : UInt64} (hs : IsHex s) (h0 : s ≠ []) (hl : s.length ≤ 64)
    (hn : hexNat s = n.toNat) : ∃ w, uint256beFromHex (zeroX ++ s) = some w ∧ toU64 w = n := by
  obtain ⟨w, h1, h2⟩ := C74_number s hs h0 hl
  refine ⟨w, h1, ?_⟩
  rw [← UInt64.toNat_inj, C51_toU64, h2, hn]
  exact Nat.mod_eq_of_lt n.toNat_lt

theorem blockNumber_names {ag : Agent} {t : Text} {n : UInt64} (h : Names ag t n) :
    blockNumber ag t = some n := by
  rcases h with ⟨rfl, rfl⟩ | ⟨s, rfl, hs, h0, hl, hn⟩
  · simp [blockNumber]
  · obtain ⟨w, h1, h2⟩ := names_hex hs h0 hl hn
    simp [blockNumber, names_latest, h1, h2]

theorem fetchBlock_names {ag : Agent} {t : Text} {n : UInt64} (h : Names ag t n) (rest : List Json)
    (hr : rest.head?.elim true (·.isBool) = true) (k : UInt64 → List FullReceipt → Outcome Json) :
    fetchBlock ag (.arr (.str t :: rest)) k = execTx (ag.block n) (k n) := by
  rcases h with ⟨rfl, rfl⟩ | ⟨s, rfl, hs, h0, hl, hn⟩
  · simp [fetchBlock, hr]
  · obtain ⟨w, h1, h2⟩ := names_hex hs h0 hl hn
    simp [fetchBlock, hr, names_latest, h1, h2]

theorem topicOf_shows {j : Json} {w : Word} (h : Shows j w.val) : topicOf j = some w := by
  obtain ⟨_, rfl, s, rfl, hs, hl, hn⟩ := h
  have hw : w.val.length = 32 := w.2
  have := C74_sized 32 s hs (by intro e; rw [e] at hl; simp at hl; omega) (by omega)
  rw [if_pos (by omega)] at this
  obtain ⟨b, h1, h2, h3⟩ := this
  have hb : b = w.val := bytesNat_inj (h2.trans hw.symm) (h3.trans hn)
  subst hb
  simp [topicOf, Json.asString, h1, hw]

theorem map_shows {α : Type} {n : Nat} {f : Json → Option α} {g : { b : Bytes // b.length = n } → α}
    {js : List Json} {l : List { b : Bytes // b.length = n }}
    (h : List.Forall₂ (fun x b => Shows x b.val) js l)
    (hf : ∀ x b, Shows x b.val → f x = some (g b)) : js.map f = l.map fun b => some (g b) := by
  induction h with
  | nil => rfl
  | cons h _ ih => simp [hf _ _ h, ih]

theorem matching_logs (q : LogQuery) (l : List LogIndex) :
    ∃ out, logsJson q l = .arr out ∧ List.Forall₂ (fun x (p : LogIndex × Log) =>
      DescribesLog x p.2 p.1.ticket p.1.txid.val) out (matching q.topics l) := by
  refine ⟨_, rfl, ?_⟩
  have hw (g : Log) : wanted q.topics g = decide (∃ t ∈ g.topics, t ∈ q.topics) := by
    rw [Bool.eq_iff_iff]
    simp only [wanted, List.any_eq_true, decide_eq_true_eq]
    exact ⟨fun ⟨x, hx, y, hy, e⟩ => ⟨x, hx, e ▸ hy⟩, fun ⟨x, hx, hy⟩ => ⟨x, hx, x, hy, rfl⟩⟩
  unfold matching
  induction l with
  | nil => exact .nil
  | cons i l ih =>
    simp only [List.flatMap_cons]
    refine List.rel_append ?_ ih
    rw [show wanted q.topics = fun g => decide (∃ t ∈ g.topics, t ∈ q.topics) from funext hw]
    generalize i.logs.filter _ = gs
    induction gs with
    | nil => exact .nil
    | cons g gs ih => exact .cons (describes_logToJson g _ _) ih

/-! ### Theorems -/

/-- **C143, number of transactions.** `eth_getBlockTransactionCountByNumber` tells how many
transactions the block has, of the newest block too. -/
theorem C143_count (ag : Agent) (n : UInt64) (o : Option FullReceipt) (t : Text)
    (ht : Names ag t n) (ho : HoldsBlock ag n o) :
    ∃ j : Json, Gets ag "eth_getBlockTransactionCountByNumber" (.arr [.str t]) j ∧
      Tells j o.toList.length := by
  have key : handle ag (lit "eth_getBlockTransactionCountByNumber") (.arr [.str t]) =
      fetchBlock ag (.arr [.str t]) fun _ txs =>
        .ok (result (number (.ofU64 txs.length.toUInt64))) := rfl
  rw [fetchBlock_names ht [] rfl, block_holds ho] at key
  refine ⟨_, gets_of key, ?_⟩
  have := tells_u64 o.toList.length.toUInt64
  cases o <;> exact this

/-- **C143, transaction of a block.** `eth_getTransactionByBlockNumberAndIndex` describes the
one transaction of the block. -/
theorem C143_index (ag : Agent) (n : UInt64) (r : FullReceipt) (t : Text)
    (ht : Names ag t n) (ho : HoldsBlock ag n (some r)) (l : List Json) :
    ∃ j : Json, Gets ag "eth_getTransactionByBlockNumberAndIndex"
        (.arr (.str t :: .str (lit "0x0") :: l)) j ∧
      Describes ag.curve j r.tx ∧ Tells (j.get "blockNumber") n.toNat := by
  have h0 : ∃ w, uint256beFromHex (lit "0x0") = some w ∧ toU64 w = 0 := by
    have := names_hex (s := [48]) (n := 0) (by intro c hc; simp at hc; subst hc; exact zero_hex)
      (by simp) (by simp) (by decide +kernel)
    exact this
  obtain ⟨w, h1, h2⟩ := h0
  have key : handle ag (lit "eth_getTransactionByBlockNumberAndIndex")
      (.arr (.str t :: .str (lit "0x0") :: l)) = fetchBlock ag (.arr [.str t]) fun ticket txs =>
      match uint256beFromHex (lit "0x0") with
      | none => .ok (failure (-32018) (lit "Transaction index was invalid - expect hex format"))
      | some w =>
        if txs.length < (toU64 w).toNat then .ok (notFound "Data was not found")
        else match txs[(toU64 w).toNat]? with
          | none => .undefined
          | some r => .ok (result (withBlock (txToJson ag.curve r.tx) ticket)) := rfl
  rw [fetchBlock_names ht [] rfl, block_holds ho] at key
  simp only [h1, h2] at key
  exact ⟨_, gets_of key, describes_withBlock _ _ _⟩

/-- **C143, decoding.** `eth_decodeRawTransaction` describes the transaction which was
encoded. -/
theorem C143_decode (ag : Agent) (tx : EvmTx) (t : Text) (l : List Json)
    (hown : tx.OwnFields) (hchain : tx.ForChain chainId)
    (hl : (txEncode chainId false tx).length ≤ ag.limit)
    (hl' : (txEncode chainId false tx).length ≤ 51200) (h0 : txEncode chainId false tx ≠ [])
    (ht : Writes t (txEncode chainId false tx)) :
    ∃ j, Gets ag "eth_decodeRawTransaction" (.arr (.str t :: l)) j ∧ Describes ag.curve j tx := by
  obtain ⟨h1, h2⟩ := fromHex_writes ht h0 hl'
  have hraw : rawTxFromJson ag.limit (.str t) = .ok tx := by
    simp only [rawTxFromJson, argBytes, if_neg h1, h2]
    exact C53_round_trip ag.limit chainId tx hown hchain hl (by omega)
  have key : handle ag (lit "eth_decodeRawTransaction") (.arr (.str t :: l)) =
      answer (result (txToJson ag.curve tx)) := by
    show (match rawTxFromJson ag.limit (.str t) with
      | .ok tx => answer (result (txToJson ag.curve tx))
      | .refused => bad
      | .throws => .throws
      | .undefined => .undefined) = _
    rw [hraw]
  exact ⟨_, gets_of key, describes_txToJson _ _⟩

/-- **C143, digest.** `web3_sha3` gives the digest of the bytes. -/
theorem C143_sha3 (ag : Agent) (b : Bytes) (t : Text) (l : List Json) (h0 : b ≠ [])
    (hb : b.length ≤ 51200) (ht : Writes t b) :
    ∃ j, Gets ag "web3_sha3" (.arr (.str t :: l)) j ∧ Shows j (ag.curve.keccak b) := by
  have key : handle ag (lit "web3_sha3") (.arr (.str t :: l)) =
      answer (result (hexText (ag.curve.keccak b))) := by
    show (match bufferFromJson t with
      | none => bad
      | some b => answer (result (hexText (ag.curve.keccak b)))) = _
    rw [bufferFromJson_writes ht h0 hb]
  exact ⟨_, gets_of key, shows_hexText _⟩

/-- **C143, fees, in part.** For a number of blocks in decimal digits, `eth_feeHistory` gives
a list of rewards for each of so many blocks, with an entry for each of the percentiles.
Missing: `C143_fee_violated` and `C143_oldest_violated`. -/
theorem C143_fee_partial (ag : Agent) (t : Text) (rs : List Json) (ht : IsDecimal t)
    (hk : decValue t ≤ ag.highest.toNat) (hl : decValue t ≤ ag.limit) :
    ∃ (j : Json) (rewards : List Json),
      Gets ag "eth_feeHistory" (.arr [.str t, .str (lit "latest"), .arr rs]) j ∧
      j.get "reward" = .arr rewards ∧ rewards.length = decValue t ∧
      (∀ x ∈ rewards, ∃ y : List Json, x = .arr y ∧ y.length = rs.length ∧ ∀ z ∈ y, Tells z 0) := by
  obtain ⟨h0, hd⟩ := ht
  cases t with
  | nil => exact (h0 rfl).elim
  | cons c t =>
    have hlt := ag.highest.toNat_lt
    have hv : decimal (c :: t) 0 = decValue (c :: t) := decimal_digits _ hd 0
    have hs := stoull_digit c t (hd c (by simp)) (by omega)
    rw [hv] at hs
    have hkn : (decValue (c :: t)).toUInt64.toNat = decValue (c :: t) :=
      Nat.mod_eq_of_lt (Nat.lt_of_le_of_lt hk hlt)
    refine ⟨_, _, feeHistory_latest ag _ rs _ hs (by rw [UInt64.le_iff_toNat_le]; omega) (by omega), rfl, ?_, ?_⟩
    · rw [List.length_replicate]; exact hkn
    · intro x hx
      rw [List.eq_of_mem_replicate hx]
      refine ⟨_, rfl, List.length_replicate, fun z hz => ?_⟩
      rw [List.eq_of_mem_replicate hz]
      exact tells_zero

/-- **C143, violated.** A number of blocks in hex, as all other numbers are given, is read as
zero: the client gets the fees of no block. -/
theorem C143_fee_violated (ag : Agent) (s : Text) (rs : List Json) :
    ∃ j : Json, Gets ag "eth_feeHistory" (.arr [.str (zeroX ++ s), .str (lit "latest"), .arr rs]) j ∧
      j.get "reward" = .arr [] := by
  have hz : zeroX ++ s = 48 :: 120 :: s := rfl
  have hdec : decimal (48 :: 120 :: s) 0 = 0 := by
    rw [decimal, if_pos (by decide), decimal, if_neg (by decide)]
    rfl
  have hs := stoull_digit 48 (120 :: s) (by decide) (by rw [hdec]; decide)
  rw [hdec] at hs
  exact ⟨_, feeHistory_latest ag _ rs 0 (hz ▸ hs) (by rw [UInt64.le_iff_toNat_le]; exact Nat.zero_le _)
    (Nat.zero_le _), rfl⟩

/-- **C143, violated.** The oldest block is said to be one before the first of the blocks up
to the newest: of one block, the newest, it is the one before. -/
theorem C143_oldest_violated (ag : Agent) (t : Text) (rs : List Json) (ht : IsDecimal t)
    (hk : decValue t ≤ ag.highest.toNat) (hl : decValue t ≤ ag.limit) :
    ∃ (j : Json) (oldest : Nat),
      Gets ag "eth_feeHistory" (.arr [.str t, .str (lit "latest"), .arr rs]) j ∧
      Tells (j.get "oldestBlock") oldest ∧ oldest + decValue t = ag.highest.toNat := by
  obtain ⟨h0, hd⟩ := ht
  cases t with
  | nil => exact (h0 rfl).elim
  | cons c t =>
    have hlt := ag.highest.toNat_lt
    have hv : decimal (c :: t) 0 = decValue (c :: t) := decimal_digits _ hd 0
    have hs := stoull_digit c t (hd c (by simp)) (by omega)
    rw [hv] at hs
    have hkn : (decValue (c :: t)).toUInt64.toNat = decValue (c :: t) :=
      Nat.mod_eq_of_lt (Nat.lt_of_le_of_lt hk hlt)
    have hle : (decValue (c :: t)).toUInt64 ≤ ag.highest := by rw [UInt64.le_iff_toNat_le]; omega
    refine ⟨_, _, feeHistory_latest ag _ rs _ hs hle (by omega), tells_u64 _, ?_⟩
    rw [UInt64.toNat_sub_of_le _ _ hle, hkn]
    omega

/-- **C143, logs.** `eth_getLogs` answers with exactly the logs which have one of the topics
among those the agent finds for the addresses and the blocks, in their order, each described
field by field. -/
theorem C143_logs (ag : Agent) (q : List (String × Json)) (as : List Address) (ws : List Word)
    (first last : UInt64) (hq : AsksLogs ag q as ws first last) (l : List LogIndex)
    (hl : ag.logs ⟨as, ws, first, last⟩ = .ok l) (rest : List Json) :
    ∃ out : List Json, Gets ag "eth_getLogs" (.arr (.obj q :: rest)) (.arr out) ∧
      List.Forall₂ (fun x (p : LogIndex × Log) => DescribesLog x p.2 p.1.ticket p.1.txid.val) out
        (matching ws l) := by
  obtain ⟨⟨ja, ha1, ha2⟩, has, ⟨jt, ht1, ht2⟩, hws, hb, ⟨f, hf1, hf2⟩, ⟨t, htb1, htb2⟩, ho, hsm, hfew⟩ := hq
  have hja : ja ≠ [] := by rintro rfl; cases ha2; exact has rfl
  have hjt : jt ≠ [] := by rintro rfl; cases ht2; exact hws rfl
  have hA : LogAddresses q as := .inr ⟨ja, ha1, hja, map_shows (g := id) ha2 fun x b h => by
    obtain ⟨t, rfl, h⟩ := h
    exact addressFromJson_writes h⟩
  have hT : jt.map topicOf = ws.map some := map_shows (g := id) ht2 fun x b h => topicOf_shows h
  have hR : LogRange ag q first last := .inr ⟨by simp [hb], f, t, hf1, htb1, blockNumber_names hf2,
    blockNumber_names htb2⟩
  obtain ⟨ra, a1, a2⟩ := addresses_lives q
  have := (a2 as).2 hA
  subst this
  obtain ⟨rb, b1, _, b2⟩ := blocks_lives ag q
  have := (b2 first last).2 hR
  subst this
  have hs1 : signed first = first.toNat := if_pos (by omega)
  have hs2 : signed last = last.toNat := if_pos hsm
  have key : handle ag (lit "eth_getLogs") (.arr (.obj q :: rest)) = getLogs ag (.arr (.obj q :: rest)) := rfl
  obtain ⟨out, o1, o2⟩ := matching_logs ⟨as, ws, first, last⟩ l
  refine ⟨out, gets_of (b := true) ?_, o2⟩
  rw [key]
  simp only [getLogs, firstArg, a1, Outcome.bind_ok]
  rcases topics_cases q with ⟨_, ts, h3, j, hj, hc⟩ | ⟨rt, h3, _, h4⟩
  · rw [ht1] at h3
    simp only [Option.some.injEq, Json.arr.injEq] at h3
    subst h3
    exfalso
    have : topicOf j ≠ none := by
      intro hn
      have hm : topicOf j ∈ jt.map topicOf := List.mem_map_of_mem hj
      rw [hT, hn] at hm
      simp at hm
    apply this
    cases j <;> simp_all [Json.Compound, Json.isArray, Json.isObject, topicOf, Json.asString]
  · have := (h4 ws).2 ⟨jt, ht1, hjt, hT⟩
    subst this
    simp only [h3, b1, Outcome.bind_ok]
    obtain ⟨_, _, c3⟩ := check_cases as ws first last has hws
    have hcount : (signed last - signed first).toNat = last.toNat - first.toNat := by omega
    rw [c3 (by omega) (by omega) (by rw [hcount]; exact Nat.le_trans (Nat.mod_le _ _) hfew)]
    have hne : ¬ last = 0 - 1 := fun e => by
      have := (last_ticket last).1 e
      omega
    simp only [Agent.getLogs, if_neg hne, Outcome.bind_ok, hl, execTx, o1]
    rfl

/-! ### Examples -/

/-- A query for the logs of one address with one topic in the newest block. -/
def sampleQuery : List (String × Json) :=
  [("address", .arr [hexText (List.replicate 20 4)]), ("topics", .arr [hexText (Word.ofU64 6).val]),
    ("fromBlock", .str (lit "latest")), ("toBlock", .str (lit "latest"))]

/-- An agent which has found a log with the topic and one without. -/
def queryAgent : Agent :=
  { blockAgent with
    highest := 12
    logs := fun _ => .ok [⟨12, .ofU64 7, [⟨⟨List.replicate 20 4, rfl⟩, [9], [.ofU64 6]⟩,
      ⟨⟨List.replicate 20 4, rfl⟩, [8], [.ofU64 5]⟩]⟩] }

example : AsksLogs queryAgent sampleQuery [⟨List.replicate 20 4, rfl⟩] [.ofU64 6] 12 12 :=
  ⟨⟨_, rfl, .cons (shows_hexText _) .nil⟩, by simp, ⟨_, rfl, .cons (shows_hexText _) .nil⟩, by simp, rfl,
    ⟨_, rfl, .inl ⟨rfl, rfl⟩⟩, ⟨_, rfl, .inl ⟨rfl, rfl⟩⟩, Nat.le_refl _, by decide, by decide⟩

/-- One of the two logs is reported, which is not all and not none. -/
example : ∃ l, queryAgent.logs ⟨[⟨List.replicate 20 4, rfl⟩], [.ofU64 6], 12, 12⟩ = .ok l ∧
    (matching [.ofU64 6] l).map (fun p => p.2.data) = [[9]] := ⟨_, rfl, by decide +kernel⟩

/-- Three blocks, of an agent which has twelve and memory for them. -/
example : IsDecimal (lit "3") ∧ decValue (lit "3") = 3 ∧ decValue (lit "3") ≤ queryAgent.highest.toNat :=
  ⟨⟨by decide, by decide⟩, by decide, by decide⟩

/-- The newest block of the agent, and the block by its number. -/
example : Names queryAgent (lit "latest") 12 ∧ HoldsBlock queryAgent 12 (some sampleReceipt) ∧
    (∃ s, IsHex s ∧ hexNat s = 12 ∧ s = lit "c") :=
  ⟨.inl ⟨rfl, rfl⟩, ⟨List.replicate 32 1, by simp [queryAgent, blockAgent], by simp, [1],
    by simp [queryAgent, blockAgent], by simp, by simp [queryAgent, blockAgent, receiptAgent]⟩,
    _, by intro c hc; simp [lit] at hc; subst hc; rw [hexChars_eq]; decide, by decide +kernel, rfl⟩

end Verif.Http
