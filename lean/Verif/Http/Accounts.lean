import Verif.Http.Props
import Verif.Evm.HostProps
import Verif.Hex.Props
/-!
# What the server tells about accounts (C98)
-/
namespace Verif.Http

open Verif.Serial Verif.Evm Verif.Hex

/-! ### Specification -/

/-- The shards hold a world: the value of an account is its balance and its nonce, that of a
cell of storage is the word, that of code is the code after its length, as
`get_state_updates` writes them, src/parsec/agent/runners/evm/host.cpp:484-520.  Reads are
answered. -/
structure Holds (ag : Agent) (w : World) : Prop where
  accounts : ∀ a : Address, ag.read a.val = .ok ((w.accounts a).elim [] accountBytes)
  storage : ∀ (a : Address) (k : Word), ag.read (a.val ++ k.val) = .ok ((w.storage a k).elim [] (·.val))
  code : ∀ a : Address, ag.read (a.val ++ [0]) =
    .ok ((w.code a).elim [] fun c => encInt 8 c.length ++ c)

/-- A text which gives bytes in hex, in digits of any case, after "0x". -/
def Writes (t : Text) (b : Bytes) : Prop :=
  ∃ s, t = zeroX ++ s ∧ IsHex s ∧ s.length = 2 * b.length ∧ hexNat s = bytesNat b

/-- An answer which is a number in hex. -/
def Tells (j : Json) (n : Nat) : Prop :=
  ∃ s, j = .str (zeroX ++ s) ∧ IsHex s ∧ s ≠ [] ∧ hexNat s = n

/-- The client gets a result. -/
def Gets (ag : Agent) (method : String) (params result : Json) : Prop :=
  ∀ (cors : Bool) (i : UInt64), serve ag cors true (ask method params (.int i.toNat)) =
    .ok (some (.json (.obj [("result", result), ("jsonrpc", .str (lit "2.0")), ("id", .int i.toNat)])))

/-! ### Lemmas -/

theorem bytesNat_inj : ∀ {l m : Bytes}, l.length = m.length → bytesNat l = bytesNat m → l = m := by
  intro l
  induction l with
  | nil => intro m h _; exact (List.length_eq_zero_iff.1 h.symm).symm
  | cons b l ih =>
    intro m hl h
    cases m with
    | nil => simp at hl
    | cons c m =>
      have hl : l.length = m.length := by simpa using hl
      rw [bytesNat_cons, bytesNat_cons, hl] at h
      have h1 := bytesNat_lt l
      have h2 := bytesNat_lt m
      rw [hl] at h1
      have hbc : b.toNat = c.toNat := by
        rcases Nat.lt_trichotomy b.toNat c.toNat with hlt | heq | hgt
        · have := Nat.mul_le_mul_right (256 ^ m.length) (Nat.succ_le_of_lt hlt)
          rw [Nat.succ_mul] at this
          omega
        · exact heq
        · have := Nat.mul_le_mul_right (256 ^ m.length) (Nat.succ_le_of_lt hgt)
          rw [Nat.succ_mul] at this
          omega
      rw [hbc] at h
      rw [UInt8.toNat_inj.1 hbc, ih hl (by omega)]

theorem tells_number (w : Word) : Tells (number w) w.nat := by
  obtain ⟨s, h1, h2, h3, _, h4⟩ := trimmed w zeroX
  exact ⟨s, by rw [number, h1], h2, h3, h4⟩

theorem fromHex_writes {t : Text} {b : Bytes} (h : Writes t b) (h0 : b ≠ []) (hb : b.length ≤ 51200) :
    ¬ t.length < 2 ∧ fromHex (t.drop 2) = some b := by
  obtain ⟨s, rfl, hs, hl, hn⟩ := h
  have hpos := List.length_pos_iff.2 h0
  obtain ⟨b', h1, h2, h3⟩ := C37_decode s hs (by rintro rfl; simp at hl; omega) (by omega) (by omega)
  refine ⟨by simp [zeroX], ?_⟩
  show fromHex s = some b
  rw [h1]
  exact congrArg some (bytesNat_inj (by omega) (by rw [h3, hn]))

theorem hexArg_writes {t : Text} {b : Bytes} (h : Writes t b) (h0 : b ≠ []) (hb : b.length ≤ 51200) :
    hexArg t = .ok (some b) := by
  obtain ⟨h1, h2⟩ := fromHex_writes h h0 hb
  simp only [hexArg, argBytes, if_neg h1, h2]

theorem bufferFromJson_writes {t : Text} {b : Bytes} (h : Writes t b) (h0 : b ≠ []) (hb : b.length ≤ 51200) :
    bufferFromJson t = some b := by
  have h2 := (fromHex_writes h h0 hb).2
  obtain ⟨s, rfl, hs, hl, hn⟩ := h
  have hpos := List.length_pos_iff.2 h0
  unfold bufferFromJson
  rw [if_pos (by simp [zeroX]; omega), h2]

theorem addressFromJson_writes {t : Text} {a : Address} (h : Writes t a.val) :
    addressFromJson (.str t) = some a := by
  have ha : a.val.length = 20 := a.2
  have hb := bufferFromJson_writes h (by intro e; rw [e] at ha; simp at ha) (by omega)
  simp only [addressFromJson, hb, ha, Nat.le_refl, dif_pos, Option.some.injEq]
  exact Subtype.ext (List.take_of_length_le (by omega))

theorem sized_writes {t : Text} {b : Bytes} (h : Writes t b) (h0 : b ≠ []) (hb : b.length < 51200) :
    fromHexSized b.length t = some b := by
  obtain ⟨s, rfl, hs, hl, hn⟩ := h
  have hpos := List.length_pos_iff.2 h0
  have := C74_sized b.length s hs (by rintro rfl; simp at hl; omega) (by omega)
  rw [if_pos (by omega)] at this
  obtain ⟨b', h1, h2, h3⟩ := this
  rw [h1, bytesNat_inj h2 (by rw [h3, hn])]

theorem uint64_id (i : UInt64) : (Json.int i.toNat).uint64? = some i := by
  have := i.toNat_lt
  simp only [Json.uint64?]
  rw [if_pos (by omega)]
  simp

/-- What a client gets when the handler answers. -/
theorem gets_of {ag : Agent} {method : String} {params j : Json} {b : Bool}
    (h : handle ag (lit method) params = .ok ([result j], b)) : Gets ag method params j := by
  intro cors i
  have hP : lit "POST" ≠ lit "OPTIONS" := by decide
  unfold serve responses ask
  rw [if_neg (fun h => hP h.1), if_neg (by simp), if_neg (by simp), handleRequest_obj]
  simp only [find, String.reduceEq, if_false, if_true, Option.getD_some, h, uint64_id, Outcome.bind_ok]
  cases b <;> rfl

theorem gets_hex {ag : Agent} {method : String} {params : Json} {v : Bytes} {b : Bool} (hv : v ≠ [])
    (h : handle ag (lit method) params =
      .ok ([result (.str (if v = [] then zeroX else zeroX ++ toHex v))], b)) :
    Gets ag method params (.str (zeroX ++ toHex v)) :=
  gets_of (by rw [h, if_neg hv])

theorem accountOf_bytes (s : Stored) : accountOf (accountBytes s) = some s := by
  have h1 : s.balance.val.length = 32 := s.balance.2
  have h2 : s.nonce.val.length = 32 := s.nonce.2
  unfold accountOf accountBytes
  rw [dif_pos (by simp [h1, h2])]
  cases s with
  | mk b n =>
    simp only [Option.some.injEq, Stored.mk.injEq]
    constructor
    · exact Subtype.ext (by simp only at h1 ⊢; rw [List.take_append_of_le_length (by omega), List.take_of_length_le (by omega)])
    · refine Subtype.ext ?_
      simp only at h1 h2 ⊢
      rw [List.drop_append_of_le_length (by omega), List.drop_of_length_le (by omega), List.nil_append,
        List.take_of_length_le (by omega)]

theorem accountBytes_ne (s : Stored) : accountBytes s ≠ [] := by
  intro h
  have h1 : s.balance.val.length = 32 := s.balance.2
  have := congrArg List.length h
  simp [accountBytes, h1] at this

theorem address_ne (a : Address) : a.val ≠ [] := by
  intro h
  have : a.val.length = 20 := a.2
  rw [h] at this
  simp at this

/-! ### C98 -/

/-- **C98.** `eth_getTransactionCount` tells one more than the nonce. -/
theorem C98_count (ag : Agent) (w : World) (hw : Holds ag w) (a : Address) (t : Text) (l : List Json)
    (ht : Writes t a.val) : ∃ j, Gets ag "eth_getTransactionCount" (.arr (.str t :: l)) j ∧
      Tells j ((w.nonce a + 1) % 2 ^ 256) := by
  have ha : a.val.length = 20 := a.2
  have hh := hexArg_writes ht (address_ne a) (by omega)
  have key : handle ag (lit "eth_getTransactionCount") (.arr (.str t :: l)) =
      getTransactionCount ag (.arr (.str t :: l)) := rfl
  unfold getTransactionCount at key
  simp only [firstArg, hh, Outcome.bind_ok, hw.accounts a, execTx] at key
  unfold World.nonce
  cases hs : w.accounts a with
  | none =>
    rw [hs] at key
    refine ⟨_, gets_of key, ?_⟩
    have := tells_number (.ofU64 1)
    rw [nat_ofU64] at this
    simpa using this
  | some s =>
    rw [hs] at key
    simp only [Option.elim_some, if_neg (accountBytes_ne s), accountOf_bytes, Outcome.bind_ok] at key
    refine ⟨_, gets_of key, ?_⟩
    have := tells_number (add s.nonce (.ofU64 1))
    rw [C51_add, nat_ofU64] at this
    simpa using this

/-- **C98.** What `eth_getTransactionCount` tells is the nonce, and the only one, with which
a transaction of this account is executed (C56). -/
theorem C98_next (ag : Agent) (env : Env) (hw : Holds ag env.world) (a : Address) (t : Text)
    (l : List Json) (ht : Writes t a.val) :
    ∃ j n, Gets ag "eth_getTransactionCount" (.arr (.str t :: l)) j ∧ Tells j n ∧
      ∀ (tx : EvmTx) (locks : Bool × Bool) (vm : Vm) (u : Updates),
        runTransaction env a tx locks vm = .updates u → tx.nonce.nat = n := by
  obtain ⟨j, h1, h2⟩ := C98_count ag env.world hw a t l ht
  refine ⟨j, _, h1, h2, fun tx locks vm u h => ?_⟩
  obtain ⟨_, hn, _, _⟩ := runTransaction_exec h (by simp) (by simp)
  rw [← hn, C51_add, nat_ofU64, nonce_orEmpty, ← senderAccount_stored]
  rfl

/-- **C98.** `eth_getBalance` tells the balance. -/
theorem C98_balance (ag : Agent) (w : World) (hw : Holds ag w) (a : Address) (t : Text) (l : List Json)
    (ht : Writes t a.val) : ∃ j, Gets ag "eth_getBalance" (.arr (.str t :: l)) j ∧
      Tells j (w.balance a) := by
  have ha : a.val.length = 20 := a.2
  have hh := hexArg_writes ht (address_ne a) (by omega)
  have key : handle ag (lit "eth_getBalance") (.arr (.str t :: l)) =
      getBalance ag (.arr (.str t :: l)) := rfl
  unfold getBalance at key
  simp only [firstArg, hh, Outcome.bind_ok, hw.accounts a, execTx] at key
  unfold World.balance
  cases hs : w.accounts a with
  | none =>
    rw [hs] at key
    exact ⟨_, gets_of key, [48], rfl, by intro c hc; simp at hc; subst hc; exact zero_hex, by simp,
      by decide +kernel⟩
  | some s =>
    rw [hs] at key
    simp only [Option.elim_some, if_neg (accountBytes_ne s), accountOf_bytes, Outcome.bind_ok] at key
    exact ⟨_, gets_of key, tells_number _⟩

/-- **C98.** `eth_getStorageAt` tells the word in all its 64 digits, or "0x" if none was ever
stored. -/
theorem C98_storage (ag : Agent) (w : World) (hw : Holds ag w) (a : Address) (k : Word) (t t' : Text)
    (l : List Json) (ht : Writes t a.val) (ht' : Writes t' k.val) :
    (∀ v, w.storage a k = some v → ∃ x, Gets ag "eth_getStorageAt" (.arr (.str t :: .str t' :: l)) (.str x) ∧
      Writes x v.val) ∧
    (w.storage a k = none → Gets ag "eth_getStorageAt" (.arr (.str t :: .str t' :: l)) (.str zeroX)) := by
  have hk : k.val.length = 32 := k.2
  have key : handle ag (lit "eth_getStorageAt") (.arr (.str t :: .str t' :: l)) =
      getStorageAt ag (.arr (.str t :: .str t' :: l)) := rfl
  have hs := sized_writes ht' (by intro e; rw [e] at hk; simp at hk) (by omega)
  rw [hk] at hs
  unfold getStorageAt at key
  simp only [addressFromJson_writes ht, hs, storageKey, hw.storage a k, execTx] at key
  constructor
  · intro v hv
    have hvl : v.val.length = 32 := v.2
    rw [hv] at key
    have hne : v.val ≠ [] := by intro e; rw [e] at hvl; simp at hvl
    simp only [Option.elim_some, Outcome.bind_ok] at key
    exact ⟨_, gets_hex hne key, toHex v.val, rfl, toHex_hex _, by rw [toHex_length], bytesNat_toHex _⟩
  · intro hv
    rw [hv] at key
    exact gets_of key

/-- **C98, in part.** `eth_getCode` tells "0x" for an address without code, and else 16
digits followed by the code.  Missing: see `C98_code_violated`. -/
theorem C98_code_partial (ag : Agent) (w : World) (hw : Holds ag w) (a : Address) (t : Text)
    (l : List Json) (ht : Writes t a.val) :
    (∀ c, w.code a = some c → ∃ p, p.length = 8 ∧
      Gets ag "eth_getCode" (.arr (.str t :: l)) (.str (zeroX ++ toHex p ++ toHex c)) ∧
      leNat p = c.length % 2 ^ 64) ∧
    (w.code a = none → Gets ag "eth_getCode" (.arr (.str t :: l)) (.str zeroX)) := by
  have ha : a.val.length = 20 := a.2
  have hh := hexArg_writes ht (address_ne a) (by omega)
  have key : handle ag (lit "eth_getCode") (.arr (.str t :: l)) =
      getCode ag (.arr (.str t :: l)) := rfl
  unfold getCode at key
  simp only [firstArg, hh, Outcome.bind_ok, codeKey, ha, Nat.lt_irrefl, if_false, Nat.sub_self,
    List.replicate_zero, List.append_nil, hw.code a, execTx] at key
  constructor
  · intro c hc
    have hl : (encInt 8 c.length).length = 8 := by simp [encInt]
    rw [hc] at key
    have hne : encInt 8 c.length ++ c ≠ [] := by
      intro e
      have := congrArg List.length e
      rw [List.length_append, hl] at this
      simp at this
    simp only [Option.elim_some] at key
    refine ⟨encInt 8 c.length, hl, ?_, ?_⟩
    · have e : zeroX ++ toHex (encInt 8 c.length) ++ toHex c = zeroX ++ toHex (encInt 8 c.length ++ c) := by
        rw [List.append_assoc, toHex, toHex, toHex, List.flatMap_append]
      rw [e]
      exact gets_hex hne key
    · simp [encInt, leNat]
      omega
  · intro hc
    rw [hc] at key
    exact gets_of key

/-- **C98, violated.** `eth_getCode` never tells the code of an account which has code: what
it tells is longer. -/
theorem C98_code_violated (ag : Agent) (w : World) (hw : Holds ag w) (a : Address) (t : Text)
    (l : List Json) (ht : Writes t a.val) (c : Bytes) (hc : w.code a = some c) (x : Text)
    (hx : Gets ag "eth_getCode" (.arr (.str t :: l)) (.str x)) : ¬ Writes x c := by
  obtain ⟨p, h1, h2, _⟩ := (C98_code_partial ag w hw a t l ht).1 c hc
  have := (h2 false 0).symm.trans (hx false 0)
  simp only [Outcome.ok.injEq, Option.some.injEq, Response.json.injEq, Json.obj.injEq, List.cons.injEq,
    Prod.mk.injEq, Json.str.injEq, true_and, and_true] at this
  subst this
  rintro ⟨s, e, _, hl, _⟩
  rw [List.append_assoc, List.append_cancel_left_eq] at e
  have := congrArg List.length e
  rw [List.length_append, toHex_length, toHex_length, h1] at this
  omega

/-- **C98, violated.** A read which has to give way to another transaction is not repeated;
the client gets an error. -/
theorem C98_wounded_violated (ag : Agent) (a : Address) (t : Text) (l : List Json) (ec : Int)
    (ht : Writes t a.val) (h : ag.read a.val = .error ec) (cors : Bool) (i : UInt64) :
    serve ag cors true (ask "eth_getBalance" (.arr (.str t :: l)) (.int i.toNat)) =
      .ok (some (.json (.obj [("error", .obj [("code", .int (-32088 - ec)),
        ("message", .str (lit "Execution error"))]), ("jsonrpc", .str (lit "2.0")),
        ("id", .int i.toNat)]))) := by
  have ha : a.val.length = 20 := a.2
  have hh := hexArg_writes ht (address_ne a) (by omega)
  have key : handle ag (lit "eth_getBalance") (.arr (.str t :: l)) =
      getBalance ag (.arr (.str t :: l)) := rfl
  unfold getBalance at key
  simp only [firstArg, hh, Outcome.bind_ok, h, execTx] at key
  have hP : lit "POST" ≠ lit "OPTIONS" := by decide
  unfold serve responses ask
  rw [if_neg (fun h => hP h.1), if_neg (by simp), if_neg (by simp), handleRequest_obj]
  simp only [find, String.reduceEq, if_false, if_true, Option.getD_some, key, uint64_id, Outcome.bind_ok]
  rfl

/-! ### Examples -/

/-- An agent of shards which hold a world. -/
def agentOf (w : World) : Agent :=
  sampleAgent fun b =>
    if h : b.length = 20 then .ok ((w.accounts ⟨b, h⟩).elim [] accountBytes)
    else if h : b.length = 52 then
      .ok ((w.storage ⟨b.take 20, by simp [h]⟩ ⟨b.drop 20, by simp [h]⟩).elim [] (·.val))
    else if h : b.length = 21 then
      .ok ((w.code ⟨b.take 20, by simp [h]⟩).elim [] fun c => encInt 8 c.length ++ c)
    else .ok []

/-- For every world there is such an agent. -/
theorem holds_agentOf (w : World) : Holds (agentOf w) w := by
  have la : ∀ a : Address, a.val.length = 20 := fun a => a.2
  have lk : ∀ k : Word, k.val.length = 32 := fun k => k.2
  refine ⟨fun a => ?_, fun a k => ?_, fun a => ?_⟩
  · simp only [agentOf, sampleAgent, la, dif_pos]
  · have h : (a.val ++ k.val).length = 52 := by simp [la, lk]
    simp only [agentOf, sampleAgent]
    rw [dif_neg (by omega), dif_pos h]
    have e1 : (⟨(a.val ++ k.val).take 20, by simp [h]⟩ : Address) = a :=
      Subtype.ext (by simp only; rw [List.take_append_of_le_length (by rw [la a]; omega), List.take_of_length_le (by rw [la a]; omega)])
    have e2 : (⟨(a.val ++ k.val).drop 20, by simp [h]⟩ : Word) = k :=
      Subtype.ext (by simp only; rw [List.drop_append_of_le_length (by rw [la a]; omega), List.drop_of_length_le (by rw [la a]; omega), List.nil_append])
    rw [e1, e2]
  · have h : (a.val ++ [0]).length = 21 := by simp [la]
    simp only [agentOf, sampleAgent]
    rw [dif_neg (by omega), dif_neg (by omega), dif_pos h]
    have e1 : (⟨(a.val ++ [0]).take 20, by simp [h]⟩ : Address) = a :=
      Subtype.ext (by simp only; rw [List.take_append_of_le_length (by rw [la a]; omega), List.take_of_length_le (by rw [la a]; omega)])
    rw [e1]

/-- For all bytes there is a text. -/
theorem writes_toHex (b : Bytes) : Writes (zeroX ++ toHex b) b :=
  ⟨toHex b, rfl, toHex_hex b, toHex_length b, bytesNat_toHex b⟩

set_option maxRecDepth 100000 in
/-- An account with a balance of 300 and the nonce 4, and with code. -/
example : serve (agentOf ⟨fun _ => some ⟨.ofU64 300, .ofU64 4⟩, fun _ _ => none, fun _ => some [7, 8]⟩) false true
      (ask "eth_getBalance" (.arr [.str (lit "0x00000000000000000000000000000000000000Ab")]) (.int 1)) =
      .ok (some (.json (.obj [("result", .str (lit "0x12c")), ("jsonrpc", .str (lit "2.0")), ("id", .int 1)]))) ∧
    serve (agentOf ⟨fun _ => some ⟨.ofU64 300, .ofU64 4⟩, fun _ _ => none, fun _ => some [7, 8]⟩) false true
      (ask "eth_getTransactionCount" (.arr [.str (lit "0x00000000000000000000000000000000000000Ab")]) (.int 1)) =
      .ok (some (.json (.obj [("result", .str (lit "0x5")), ("jsonrpc", .str (lit "2.0")), ("id", .int 1)]))) ∧
    serve (agentOf ⟨fun _ => some ⟨.ofU64 300, .ofU64 4⟩, fun _ _ => none, fun _ => some [7, 8]⟩) false true
      (ask "eth_getCode" (.arr [.str (lit "0x00000000000000000000000000000000000000Ab")]) (.int 1)) =
      .ok (some (.json (.obj [("result", .str (lit "0x02000000000000000708")), ("jsonrpc", .str (lit "2.0")),
        ("id", .int 1)]))) := by
  refine ⟨rfl, rfl, rfl⟩

end Verif.Http
