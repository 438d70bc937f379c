import Verif.Http.Accounts
import Verif.Evm.TxProps
/-!
# What the server tells about transactions (C99, C100)
-/
namespace Verif.Http

open Verif.Serial Verif.Evm Verif.Hex

/-! ### Specification -/

/-- An answer which gives bytes in hex. -/
def Shows (j : Json) (b : Bytes) : Prop := ∃ t, j = .str t ∧ Writes t b

/-- An answer which gives an address, or nothing. -/
def ShowsAddress (j : Json) : Option Address → Prop
  | some a => Shows j a.val
  | none => j = .null

/-- JSON which says what a transaction is. -/
structure Describes (c : Curve) (j : Json) (tx : EvmTx) : Prop where
  type : Tells (j.get "type") (match tx.type with | .legacy => 0 | .accessList => 1 | .dynamicFee => 2)
  dest : ShowsAddress (j.get "to") tx.to
  sender : ShowsAddress (j.get "from") (checkSignature c chainId tx)
  value : Tells (j.get "value") tx.value.nat
  nonce : Tells (j.get "nonce") tx.nonce.nat
  gasPrice : Tells (j.get "gasPrice") tx.gasPrice.nat
  gas : Tells (j.get "gas") tx.gasLimit.nat
  tip : tx.type = .dynamicFee → Tells (j.get "maxPriorityFeePerGas") tx.gasTipCap.nat
  fee : tx.type = .dynamicFee → Tells (j.get "maxFeePerGas") tx.gasFeeCap.nat
  input : Shows (j.get "input") tx.input
  hash : Shows (j.get "hash") (txId c chainId tx)
  v : Tells (j.get "v") tx.v.nat
  r : Tells (j.get "r") tx.r.nat
  s : Tells (j.get "s") tx.s.nat
  chain : Tells (j.get "chainId") 0xcbdc

/-- JSON which says what a log is. -/
structure DescribesLog (j : Json) (g : Log) (ticket : UInt64) (txid : Bytes) : Prop where
  addr : Shows (j.get "address") g.addr.val
  data : Shows (j.get "data") g.data
  topics : ∃ l : List Json, j.get "topics" = .arr l ∧ List.Forall₂ (fun x (t : Word) => Shows x t.val) l g.topics
  block : Tells (j.get "blockNumber") ticket.toNat
  hash : Shows (j.get "transactionHash") txid

/-- JSON which says what a transaction did. -/
structure DescribesReceipt (c : Curve) (j : Json) (r : FullReceipt) : Prop where
  tx : Describes c (j.get "transaction") r.tx
  sender : ShowsAddress (j.get "from") (checkSignature c chainId r.tx)
  dest : ShowsAddress (j.get "to") r.tx.to
  created : ShowsAddress (j.get "contractAddress") r.created
  gas : Tells (j.get "gasUsed") r.gasUsed.toNat
  status : Tells (j.get "status") (if r.success then 1 else 0)
  logs : ∃ l : List Json, j.get "logs" = .arr l ∧
    List.Forall₂ (fun x g => DescribesLog x g r.ticket (txId c chainId r.tx)) l r.logs
  output : r.output ≠ [] → Shows (j.get "output_data") r.output
  block : Tells (j.get "blockNumber") r.ticket.toNat
  hash : Shows (j.get "transactionHash") (txId c chainId r.tx)

/-- The shards hold a receipt under a key. -/
def HoldsReceipt (ag : Agent) (key : Bytes) (r : FullReceipt) : Prop :=
  ∃ v, ag.read key = .ok v ∧ v ≠ [] ∧ ag.receiptOf v = some r

/-! ### Lemmas -/

theorem shows_hexText (b : Bytes) : Shows (hexText b) b := ⟨_, rfl, writes_toHex b⟩

theorem shows_dataText (b : Bytes) : Shows (dataText b) b := by
  unfold dataText toHexPrefixed
  split
  · next h => subst h; exact ⟨_, rfl, [], rfl, (fun c hc => nomatch hc), rfl, rfl⟩
  · exact ⟨_, rfl, writes_toHex b⟩

theorem tells_u64 (n : UInt64) : Tells (number (.ofU64 n)) n.toNat := by
  have := tells_number (.ofU64 n)
  rwa [nat_ofU64] at this

theorem tells_zero : Tells (.str (lit "0x0")) 0 :=
  ⟨[48], rfl, by intro c hc; simp at hc; subst hc; exact zero_hex, by simp, by decide +kernel⟩

theorem tells_one : Tells (.str (lit "0x1")) 1 :=
  ⟨[49], rfl, by intro c hc; simp at hc; subst hc; rw [hexChars_eq]; decide, by simp, by decide +kernel⟩

section
attribute [local irreducible] number hexText dataText txId checkSignature bloomOf accessListJson lit

set_option maxHeartbeats 4000000 in
theorem describes_txToJson (c : Curve) (tx : EvmTx) : Describes c (txToJson c tx) tx := by
  obtain ⟨type, dest, _⟩ := tx
  unfold txToJson
  cases dest <;> cases type <;> cases hs : checkSignature c chainId _ <;>
    (constructor <;>
      first
        | (rw [hs]; first | exact shows_hexText _ | rfl)
        | exact tells_number _
        | exact tells_u64 _
        | exact shows_hexText _
        | exact shows_dataText _
        | rfl
        | exact fun _ => tells_number _
        | (intro h; cases h; done))

end

theorem find_filter {k k' : String} (h : k' ≠ k) (l : List (String × Json)) :
    find k' (l.filter fun p => p.1 ≠ k) = find k' l := by
  induction l with
  | nil => rfl
  | cons p l ih =>
    obtain ⟨a, b⟩ := p
    by_cases ha : a = k
    · subst ha
      simp [find, h] at ih ⊢
      exact ih
    · simp only [ne_eq, ha, not_false_eq_true, decide_true, List.filter_cons_of_pos, find]
      split
      · rfl
      · simpa using ih

theorem find_append (k : String) (l m : List (String × Json)) :
    find k (l ++ m) = (find k l).or (find k m) := by
  induction l with
  | nil => rfl
  | cons p l ih =>
    obtain ⟨a, b⟩ := p
    simp only [List.cons_append, find]
    split
    · rfl
    · exact ih

theorem get_set (j : Json) (k k' : String) (v : Json) (h : k' ≠ k) : (j.set k v).get k' = j.get k' := by
  cases j <;> simp only [Json.set, Json.get, find, if_neg h, Option.getD_none]
  rw [find_append, find_filter h]
  simp [find, h]

theorem find_filtered (k : String) (l : List (String × Json)) :
    find k (l.filter fun p => p.1 ≠ k) = none := by
  induction l with
  | nil => rfl
  | cons p l ih =>
    obtain ⟨a, b⟩ := p
    by_cases ha : a = k
    · simpa [List.filter_cons, ha] using ih
    · simp only [ne_eq, ha, not_false_eq_true, decide_true, List.filter_cons_of_pos, find,
        if_neg (fun h : k = a => ha h.symm)]
      simpa using ih

theorem get_set_same (j : Json) (k : String) (v : Json) : (j.set k v).get k = v := by
  cases j <;> simp only [Json.set, Json.get, find, if_true, Option.getD_some]
  rw [find_append, find_filtered]
  simp [find]

theorem Describes.of_get {c : Curve} {j j' : Json} {tx : EvmTx} (h : Describes c j tx)
    (he : ∀ k, k ∈ ["type", "to", "from", "value", "nonce", "gasPrice", "gas", "maxPriorityFeePerGas",
      "maxFeePerGas", "input", "hash", "v", "r", "s", "chainId"] → j'.get k = j.get k) :
    Describes c j' tx := by
  obtain ⟨a1, a2, a3, a4, a5, a6, a7, a8, a9, b1, b2, b3, b4, b5, b6⟩ := h
  constructor <;> (try intro hh) <;> rw [he _ (by simp)] <;> first | assumption | exact a8 hh | exact a9 hh

theorem describes_withBlock (c : Curve) (tx : EvmTx) (ticket : UInt64) :
    Describes c (withBlock (txToJson c tx) ticket) tx ∧
    Tells ((withBlock (txToJson c tx) ticket).get "blockNumber") ticket.toNat := by
  constructor
  · refine (describes_txToJson c tx).of_get fun k hk => ?_
    simp only [List.mem_cons, List.not_mem_nil, or_false] at hk
    unfold withBlock
    rw [get_set, get_set, get_set] <;> rcases hk with rfl | rfl | rfl | rfl | rfl | rfl | rfl | rfl | rfl | rfl | rfl |
      rfl | rfl | rfl | rfl <;> decide
  · unfold withBlock
    rw [get_set _ _ _ _ (by decide), get_set_same]
    exact tells_u64 _

section
attribute [local irreducible] number hexText dataText txId checkSignature bloomOf accessListJson lit txToJson

theorem describes_logToJson (g : Log) (ticket : UInt64) (txid : Bytes) :
    DescribesLog (logToJson g ticket txid) g ticket txid := by
  unfold logToJson
  constructor
  · exact shows_hexText _
  · exact shows_dataText _
  · refine ⟨_, rfl, ?_⟩
    induction g.topics with
    | nil => exact .nil
    | cons t l ih => exact .cons (shows_hexText _) ih
  · exact tells_u64 _
  · exact shows_hexText _

theorem describes_receiptToJson (c : Curve) (r : FullReceipt) :
    DescribesReceipt c (receiptToJson c r) r := by
  have hd := describes_txToJson c r.tx
  have hl : List.Forall₂ (fun x g => DescribesLog x g r.ticket (txId c chainId r.tx))
      (r.logs.map fun l => logToJson l r.ticket (txId c chainId r.tx)) r.logs := by
    induction r.logs with
    | nil => exact .nil
    | cons g l ih => exact .cons (describes_logToJson _ _ _) ih
  obtain ⟨⟨tx, created, gasUsed, logs, output, success⟩, ticket, timestamp⟩ := r
  unfold receiptToJson
  cases created <;> cases output <;> cases success <;>
    (constructor <;>
      first
        | exact hd
        | exact hd.sender
        | exact hd.dest
        | exact tells_u64 _
        | exact tells_one
        | exact tells_zero
        | exact shows_hexText _
        | exact shows_dataText _
        | rfl
        | exact ⟨_, rfl, hl⟩
        | exact fun _ => shows_dataText _
        | exact fun h => absurd rfl h)

end

/-! ### C99 -/

/-- **C99.** `eth_getTransactionByHash` says what the transaction is of which the receipt is
stored under the hash, and in which block. -/
theorem C99_transaction (ag : Agent) (key : Bytes) (r : FullReceipt) (t : Text) (l : List Json)
    (hk : key ≠ []) (hkl : key.length ≤ 51200) (ht : Writes t key) (hr : HoldsReceipt ag key r) :
    ∃ j, Gets ag "eth_getTransactionByHash" (.arr (.str t :: l)) j ∧
      Describes ag.curve j r.tx ∧ Tells (j.get "blockNumber") r.ticket.toNat := by
  obtain ⟨v, h1, h2, h3⟩ := hr
  have hh := hexArg_writes ht hk hkl
  have key : handle ag (lit "eth_getTransactionByHash") (.arr (.str t :: l)) =
      getTransactionByHash ag (.arr (.str t :: l)) := rfl
  unfold getTransactionByHash at key
  simp only [firstArg, hh, Outcome.bind_ok, withReceipt, h1, execTx, if_neg h2, h3] at key
  exact ⟨_, gets_of key, describes_withBlock _ _ _⟩

/-- **C99, in part.** `eth_getTransactionReceipt` says what the transaction did.  Missing:
the field "success" (`C99_success_violated`), and the filter for logs (C100). -/
theorem C99_receipt_partial (ag : Agent) (key : Bytes) (r : FullReceipt) (t : Text) (l : List Json)
    (hk : key ≠ []) (hkl : key.length ≤ 51200) (ht : Writes t key) (hr : HoldsReceipt ag key r) :
    ∃ j, Gets ag "eth_getTransactionReceipt" (.arr (.str t :: l)) j ∧ DescribesReceipt ag.curve j r := by
  obtain ⟨v, h1, h2, h3⟩ := hr
  have hh := hexArg_writes ht hk hkl
  have key : handle ag (lit "eth_getTransactionReceipt") (.arr (.str t :: l)) =
      getTransactionReceipt ag (.arr (.str t :: l)) := rfl
  unfold getTransactionReceipt at key
  simp only [firstArg, hh, Outcome.bind_ok, withReceipt, h1, execTx, if_neg h2, h3] at key
  exact ⟨_, gets_of key, describes_receiptToJson _ _⟩

/-- **C99, violated.** The field "success" of a receipt is always 1, also if the transaction
failed and "status" says so. -/
theorem C99_success_violated (ag : Agent) (key : Bytes) (r : FullReceipt) (t : Text) (l : List Json)
    (hk : key ≠ []) (hkl : key.length ≤ 51200) (ht : Writes t key) (hr : HoldsReceipt ag key r)
    (hs : r.success = false) :
    ∃ j, Gets ag "eth_getTransactionReceipt" (.arr (.str t :: l)) j ∧
      j.get "success" = .str (lit "0x1") ∧ j.get "status" = .str (lit "0x0") := by
  obtain ⟨v, h1, h2, h3⟩ := hr
  have hh := hexArg_writes ht hk hkl
  have key : handle ag (lit "eth_getTransactionReceipt") (.arr (.str t :: l)) =
      getTransactionReceipt ag (.arr (.str t :: l)) := rfl
  unfold getTransactionReceipt at key
  simp only [firstArg, hh, Outcome.bind_ok, withReceipt, h1, execTx, if_neg h2, h3] at key
  refine ⟨_, gets_of key, ?_⟩
  obtain ⟨⟨tx, created, gasUsed, logs, output, success⟩, ticket, timestamp⟩ := r
  cases hs
  unfold receiptToJson
  cases created <;> cases output <;> exact ⟨rfl, rfl⟩

/-- **C99.** A transaction which is sent as a client encodes it (C53) is executed as it is,
and the client gets its hash; for an error of the execution the client gets the error. -/
theorem C99_send (ag : Agent) (tx : EvmTx) (t : Text) (l : List Json)
    (hown : tx.OwnFields) (hchain : tx.ForChain chainId)
    (hl : (txEncode chainId false tx).length ≤ ag.limit)
    (hl' : (txEncode chainId false tx).length ≤ 51200) (h0 : txEncode chainId false tx ≠ [])
    (ht : Writes t (txEncode chainId false tx)) :
    (ag.execute tx = none → ∃ x, Gets ag "eth_sendRawTransaction" (.arr (.str t :: l)) (.str x) ∧
      Writes x (txId ag.curve chainId tx)) ∧
    (∀ ec, ag.execute tx = some ec → handle ag (lit "eth_sendRawTransaction") (.arr (.str t :: l)) =
      .ok ([failure (-32088 - ec) (lit "Execution error")], true)) := by
  obtain ⟨h1, h2⟩ := fromHex_writes ht h0 hl'
  have hraw : rawTxFromJson ag.limit (.str t) = .ok tx := by
    simp only [rawTxFromJson, argBytes, if_neg h1, h2]
    exact C53_round_trip ag.limit chainId tx hown hchain hl (by omega)
  have key : handle ag (lit "eth_sendRawTransaction") (.arr (.str t :: l)) = submit ag tx := by
    show (match rawTxFromJson ag.limit (.str t) with
      | .ok tx => submit ag tx
      | .refused => bad
      | .throws => .throws
      | .undefined => .undefined) = _
    rw [hraw]
  constructor
  · intro he
    have : submit ag tx = .ok ([result (hexText (txId ag.curve chainId tx))], true) := by
      unfold submit; rw [he]; rfl
    exact ⟨_, gets_of (key.trans this), writes_toHex _⟩
  · intro ec he
    rw [key]
    unfold submit
    rw [he]
    rfl

/-- **C99.** From end to end: a transaction which was sent and executed, and of which the
shards hold the receipt, is found under the very text which the client got, and it is the
transaction which was sent. -/
theorem C99_sent (ag : Agent) (tx : EvmTx) (t : Text) (l l' : List Json)
    (hown : tx.OwnFields) (hchain : tx.ForChain chainId)
    (hl : (txEncode chainId false tx).length ≤ ag.limit)
    (hl' : (txEncode chainId false tx).length ≤ 51200) (h0 : txEncode chainId false tx ≠ [])
    (ht : Writes t (txEncode chainId false tx)) (he : ag.execute tx = none)
    (hid : (txId ag.curve chainId tx).length = 32) (r : FullReceipt) (hrt : r.tx = tx)
    (hr : HoldsReceipt ag (txId ag.curve chainId tx) r) :
    ∃ x j, Gets ag "eth_sendRawTransaction" (.arr (.str t :: l)) (.str x) ∧
      Gets ag "eth_getTransactionByHash" (.arr (.str x :: l')) j ∧ Describes ag.curve j tx := by
  obtain ⟨x, h1, h2⟩ := (C99_send ag tx t l hown hchain hl hl' h0 ht).1 he
  obtain ⟨j, h3, h4, _⟩ := C99_transaction ag _ r x l' (by intro e; rw [e] at hid; simp at hid) (by omega) h2 hr
  exact ⟨x, j, h1, h3, hrt ▸ h4⟩

/-- The transactions of a block: that of the ticket number, if there is one. -/
def HoldsBlock (ag : Agent) (ticket : UInt64) : Option FullReceipt → Prop
  | some r => ∃ key, ag.read (ag.ticketKey ticket) = .ok key ∧ 32 ≤ key.length ∧ HoldsReceipt ag key r
  | none => ag.read (ag.ticketKey ticket) = .ok []

theorem block_holds {ag : Agent} {ticket : UInt64} {o : Option FullReceipt} (h : HoldsBlock ag ticket o) :
    ag.block ticket = .ok o.toList := by
  unfold Agent.block
  cases o with
  | none => unfold HoldsBlock at h; rw [h]; rfl
  | some r =>
    obtain ⟨key, h1, h2, v, h3, _, h4⟩ := h
    simp only [h1, if_neg (show ¬ key.length < 32 by omega), h3, h4, Option.toList_some]

theorem time_one (r : FullReceipt) : (blockTime [r]).toNat = r.timestamp.toNat := by
  simp only [blockTime, List.foldl_cons, List.foldl_nil]
  split
  · rfl
  · rename_i h
    have h0 : (0 : UInt64).toNat = 0 := rfl
    rw [gt_iff_lt, UInt64.lt_iff_toNat_lt] at h
    omega

/-- **C99, in part.** `eth_getBlockByNumber` gives the number of the block, the number again
as its hash, the number before as the hash of its parent, the time of its one transaction, or
zero, and the transaction, described or only by its hash, as the second parameter says.
Missing: see `C99_empty_violated`. -/
theorem C99_block_partial (ag : Agent) (ticket : UInt64) (o : Option FullReceipt) (s : Text) (full : Bool)
    (hs : IsHex s) (h0 : s ≠ []) (hl : s.length ≤ 64) (hn : hexNat s = ticket.toNat)
    (ho : HoldsBlock ag ticket o) :
    ∃ (j : Json) (txs : List Json),
      Gets ag "eth_getBlockByNumber" (.arr [.str (zeroX ++ s), .bool full]) j ∧
      Tells (j.get "number") ticket.toNat ∧
      Tells (j.get "timestamp") (o.elim 0 fun r => r.timestamp.toNat) ∧
      (∃ w : Word, w.nat = ticket.toNat ∧ Shows (j.get "hash") w.val) ∧
      (∃ w : Word, w.nat = (ticket.toNat + (2 ^ 64 - 1)) % 2 ^ 64 ∧ Shows (j.get "parentHash") w.val) ∧
      j.get "transactions" = .arr txs ∧
      List.Forall₂ (fun x (r : FullReceipt) =>
        if full then Describes ag.curve x r.tx else Shows x (txId ag.curve chainId r.tx)) txs o.toList := by
  have key : handle ag (lit "eth_getBlockByNumber") (.arr [.str (zeroX ++ s), .bool full]) =
      fetchBlock ag (.arr [.str (zeroX ++ s), .bool full]) fun ticket txs =>
        .ok (result (blockJson ag.curve full ticket txs)) := rfl
  have hnl : zeroX ++ s ≠ lit "latest" := by
    intro h
    have := congrArg List.head? h
    simp [zeroX, lit] at this
  obtain ⟨w, h1, h2⟩ := C74_number s hs h0 hl
  have htk : toU64 w = ticket := by
    rw [← UInt64.toNat_inj, C51_toU64, h2, hn]
    exact Nat.mod_eq_of_lt ticket.toNat_lt
  simp only [fetchBlock, List.head?_cons, Option.elim_some, Json.isBool, if_true, if_neg hnl, h1, htk,
    block_holds ho, execTx, Outcome.bind_ok] at key
  refine ⟨_, _, gets_of key, tells_u64 ticket, ?_, ⟨.ofU64 ticket, nat_ofU64 _, shows_hexText _⟩,
    ⟨.ofU64 (ticket - 1), ?_, shows_hexText _⟩, rfl, ?_⟩
  · have ht : (blockTime o.toList).toNat = o.elim 0 fun r => r.timestamp.toNat := by
      cases o with
      | none => rfl
      | some r => exact time_one r
    rw [← ht]
    exact tells_u64 _
  · rw [nat_ofU64, UInt64.toNat_sub]
    have h1 : (1 : UInt64).toNat = 1 := rfl
    omega
  · induction o.toList with
    | nil => exact .nil
    | cons r l ih =>
      refine .cons ?_ ih
      cases full
      · exact shows_hexText _
      · exact (describes_withBlock _ _ _).1

/-- **C99, violated.** If the read of the ticket number has to give way, the block is
reported as one without transactions, whatever it holds. -/
theorem C99_empty_violated (ag : Agent) (ticket : UInt64) (ec : Int) (s : Text) (full : Bool)
    (hs : IsHex s) (h0 : s ≠ []) (hl : s.length ≤ 64) (hn : hexNat s = ticket.toNat)
    (h : ag.read (ag.ticketKey ticket) = .error ec) :
    ∃ j : Json, Gets ag "eth_getBlockByNumber" (.arr [.str (zeroX ++ s), .bool full]) j ∧
      j.get "transactions" = .arr [] := by
  have key : handle ag (lit "eth_getBlockByNumber") (.arr [.str (zeroX ++ s), .bool full]) =
      fetchBlock ag (.arr [.str (zeroX ++ s), .bool full]) fun ticket txs =>
        .ok (result (blockJson ag.curve full ticket txs)) := rfl
  have hnl : zeroX ++ s ≠ lit "latest" := by
    intro h
    have := congrArg List.head? h
    simp [zeroX, lit] at this
  obtain ⟨w, h1, h2⟩ := C74_number s hs h0 hl
  have htk : toU64 w = ticket := by
    rw [← UInt64.toNat_inj, C51_toU64, h2, hn]
    exact Nat.mod_eq_of_lt ticket.toNat_lt
  have hb : ag.block ticket = .ok [] := by unfold Agent.block; rw [h]
  simp only [fetchBlock, List.head?_cons, Option.elim_some, Json.isBool, if_true, if_neg hnl, h1, htk,
    hb, execTx, Outcome.bind_ok] at key
  exact ⟨_, gets_of key, rfl⟩

/-! ### Examples -/

/-- A transaction which failed and sent one log. -/
def sampleReceipt : FullReceipt where
  tx := { type := .legacy, «to» := none, value := .ofU64 5, nonce := .ofU64 1, gasPrice := .zero,
          gasLimit := .ofU64 21000, gasTipCap := .zero, gasFeeCap := .zero, input := [1, 2], accessList := [],
          v := .ofU64 27, r := .ofU64 9, s := .ofU64 8 }
  created := some ⟨List.replicate 20 3, rfl⟩
  gasUsed := 21000
  logs := [⟨⟨List.replicate 20 4, rfl⟩, [9], [.ofU64 6]⟩]
  output := []
  success := false
  ticket := 12
  timestamp := 1000

/-- An agent of shards which hold its receipt. -/
def receiptAgent : Agent :=
  { sampleAgent fun k => if k = List.replicate 32 1 then .ok [1] else .ok [] with
    receiptOf := fun v => if v = [1] then some sampleReceipt else none
    curve := ⟨Unit, fun _ _ => ⟨.zero, .zero, 0⟩, fun _ _ => none, fun _ => [], fun _ => List.replicate 32 1,
      fun _ => ⟨List.replicate 20 0, rfl⟩⟩
    ticketKey := fun _ => List.replicate 32 2 }

/-- The hypotheses about receipts and transactions hold here, and the encoded transaction
is not empty and fits. -/
example : HoldsReceipt receiptAgent (List.replicate 32 1) sampleReceipt ∧ sampleReceipt.success = false ∧
    txId receiptAgent.curve chainId sampleReceipt.tx = List.replicate 32 1 ∧
    sampleReceipt.tx.OwnFields ∧ sampleReceipt.tx.ForChain chainId ∧
    receiptAgent.execute sampleReceipt.tx = none ∧ HoldsBlock receiptAgent 12 none :=
  ⟨⟨[1], by simp [receiptAgent, sampleAgent], by simp, by simp [receiptAgent]⟩, rfl, rfl, ⟨rfl, rfl, rfl⟩,
    fun _ => .inl (by
      have : (Word.ofU64 27).nat = 27 := by rw [nat_ofU64]; rfl
      show (Word.ofU64 27).nat % 2 ^ 64 < 35
      omega), rfl, by simp [HoldsBlock, receiptAgent, sampleAgent]⟩

/-- An agent of shards which hold a block with that transaction. -/
def blockAgent : Agent :=
  { receiptAgent with
    ticketKey := fun _ => List.replicate 32 5
    read := fun k => if k = List.replicate 32 5 then .ok (List.replicate 32 1) else .ok [1] }

/-- A block with a transaction, the time of which is not zero. -/
example : HoldsBlock blockAgent 12 (some sampleReceipt) ∧ sampleReceipt.timestamp.toNat = 1000 :=
  ⟨⟨List.replicate 32 1, by simp [blockAgent], by simp, [1], by simp [blockAgent], by simp,
    by simp [blockAgent, receiptAgent]⟩, rfl⟩

example : txEncode chainId false sampleReceipt.tx ≠ [] ∧ (txEncode chainId false sampleReceipt.tx).length ≤ 20 := by
  decide +kernel

end Verif.Http
