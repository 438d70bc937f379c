import Verif.Http.Answers
/-!
# The filter for logs (C100)
-/
namespace Verif.Http

open Verif.Serial Verif.Evm Verif.Hex

/-! ### Specification -/

/-- A bit of a filter, counted from the most significant bit of the first byte. -/
def hasBit (bloom : Bytes) (n : Nat) : Bool := (bloom[n / 8]?.getD 0).toNat.testBit (7 - n % 8)

/-- The bits which stand for an entry according to Ethereum: three times two bytes of the
hash, the more significant byte first, taken modulo 2048, counted from the last bit. -/
def ethereumBits (hash : Bytes) : List Nat :=
  [0, 2, 4].map fun i => 2047 - (256 * (hash[i]?.getD 0).toNat + (hash[i + 1]?.getD 0).toNat) % 2048

/-- The same with the less significant byte first. -/
def swappedBits (hash : Bytes) : List Nat :=
  [0, 2, 4].map fun i => 2047 - ((hash[i]?.getD 0).toNat + 256 * (hash[i + 1]?.getD 0).toNat) % 2048

/-- A client who looks for an entry in a filter. -/
def finds (bits : Bytes → List Nat) (c : Curve) (bloom entry : Bytes) : Bool :=
  (bits (c.keccak entry)).all (hasBit bloom)

/-! ### Lemmas -/

theorem setBit_length (bloom : Bytes) (b : Nat) : (setBit bloom b).length = bloom.length := by
  simp [setBit]

theorem hasBit_setBit (bloom : Bytes) (hl : bloom.length = 256) (b n : Nat) (hb : b < 2048) :
    hasBit (setBit bloom b) n = (hasBit bloom n || decide (n = b)) := by
  unfold hasBit setBit
  by_cases h : n / 8 = b / 8
  · rw [h, List.getElem?_set_self (by omega)]
    have hlt : 1 <<< (7 - b % 8) < 256 := by
      rw [Nat.one_shiftLeft]
      calc 2 ^ (7 - b % 8) ≤ 2 ^ 7 := Nat.pow_le_pow_right (by decide) (by omega)
        _ < 256 := by decide
    have e : ((1 <<< (7 - b % 8) : Nat).toUInt8).toNat = 2 ^ (7 - b % 8) := by
      rw [Nat.toUInt8, UInt8.toNat_ofNat', Nat.mod_eq_of_lt (by simpa using hlt), Nat.one_shiftLeft]
    rw [Option.getD_some, UInt8.toNat_or, Nat.testBit_or, e, Nat.testBit_two_pow]
    congr 1
    have : (7 - b % 8 = 7 - n % 8) ↔ n = b := by omega
    simp only [this]
  · rw [List.getElem?_set_ne (by omega)]
    have : ¬ n = b := by rintro rfl; exact h rfl
    simp [this]

theorem hasBit_foldl (bits : List Nat) : ∀ (bloom : Bytes), bloom.length = 256 → (∀ b ∈ bits, b < 2048) →
    (bits.foldl setBit bloom).length = 256 ∧
    ∀ n, hasBit (bits.foldl setBit bloom) n = (hasBit bloom n || decide (n ∈ bits)) := by
  induction bits with
  | nil => intro bloom hl _; exact ⟨hl, fun n => by simp⟩
  | cons b bits ih =>
    intro bloom hl hb
    obtain ⟨h1, h2⟩ := ih (setBit bloom b) (by rw [setBit_length, hl]) fun x hx => hb x (by simp [hx])
    refine ⟨h1, fun n => ?_⟩
    rw [List.foldl_cons, h2, hasBit_setBit _ hl _ _ (hb b (by simp)), Bool.or_assoc]
    congr 1
    simp [List.mem_cons, Bool.decide_or]

theorem bloomBits_eq (hash : Bytes) : bloomBits hash = swappedBits hash := rfl

theorem swappedBits_lt (hash : Bytes) : ∀ b ∈ swappedBits hash, b < 2048 := by
  intro b hb
  unfold swappedBits at hb
  simp only [List.map_cons, List.map_nil, List.mem_cons, List.not_mem_nil, or_false] at hb
  omega

theorem hasBit_entries (c : Curve) (es : List Bytes) : ∀ (bloom : Bytes), bloom.length = 256 →
    (es.foldl (addToBloom c) bloom).length = 256 ∧
    ∀ n, hasBit (es.foldl (addToBloom c) bloom) n = true ↔
      hasBit bloom n = true ∨ ∃ e ∈ es, n ∈ swappedBits (c.keccak e) := by
  induction es with
  | nil => intro bloom hl; exact ⟨hl, fun n => by simp⟩
  | cons e es ih =>
    intro bloom hl
    obtain ⟨h1, h2⟩ := hasBit_foldl (bloomBits (c.keccak e)) bloom hl (swappedBits_lt _)
    obtain ⟨h3, h4⟩ := ih (addToBloom c bloom e) h1
    refine ⟨h3, fun n => ?_⟩
    rw [List.foldl_cons, h4, addToBloom, h2]
    rw [bloomBits_eq, Bool.or_eq_true, decide_eq_true_iff]
    simp only [List.mem_cons, exists_eq_or_imp, or_assoc]

/-! ### C100 -/

/-- **C100, in part.** The filter of a receipt or a block has 256 bytes, and exactly those
bits are set which stand for the address or a topic of one of the logs, the bytes of a pair
taken in the other order than Ethereum takes them.  Missing: see `C100_violated`. -/
theorem C100_bits_partial (c : Curve) (logs : List Log) :
    (bloomOf c logs).length = 256 ∧
    ∀ n, hasBit (bloomOf c logs) n = true ↔
      ∃ g ∈ logs, ∃ e, (e = g.addr.val ∨ ∃ t ∈ g.topics, e = t.val) ∧ n ∈ swappedBits (c.keccak e) := by
  obtain ⟨h1, h2⟩ := hasBit_entries c (logs.flatMap bloomEntries) (List.replicate 256 0) List.length_replicate
  refine ⟨h1, fun n => ?_⟩
  rw [bloomOf, h2]
  have h0 : hasBit (List.replicate 256 0) n = false := by
    unfold hasBit
    by_cases h : n / 8 < 256
    · rw [List.getElem?_eq_getElem (by rw [List.length_replicate]; exact h), List.getElem_replicate]; simp
    · rw [List.getElem?_eq_none (by rw [List.length_replicate]; omega)]; simp
  simp only [h0, Bool.false_eq_true, false_or, List.mem_flatMap, bloomEntries, List.mem_cons, List.mem_map]
  constructor
  · rintro ⟨e, ⟨g, hg, he⟩, hn⟩
    refine ⟨g, hg, e, ?_, hn⟩
    rcases he with rfl | ⟨t, ht, rfl⟩
    · exact .inl rfl
    · exact .inr ⟨t, ht, rfl⟩
  · rintro ⟨g, hg, e, he, hn⟩
    refine ⟨e, ⟨g, hg, ?_⟩, hn⟩
    rcases he with rfl | ⟨t, ht, rfl⟩
    · exact .inl rfl
    · exact .inr ⟨t, ht, rfl⟩

/-- **C100, in part.** A client who takes the bytes in the other order never misses a log:
its address and its topics are found. -/
theorem C100_found_partial (c : Curve) (logs : List Log) (g : Log) (hg : g ∈ logs) :
    finds swappedBits c (bloomOf c logs) g.addr.val = true ∧
    ∀ t ∈ g.topics, finds swappedBits c (bloomOf c logs) t.val = true := by
  constructor
  · exact List.all_eq_true.2 fun n hn => ((C100_bits_partial c logs).2 n).2 ⟨g, hg, _, .inl rfl, hn⟩
  · exact fun t ht => List.all_eq_true.2 fun n hn =>
      ((C100_bits_partial c logs).2 n).2 ⟨g, hg, _, .inr ⟨t, ht, rfl⟩, hn⟩

/-- **C100, violated.** A client who follows Ethereum misses logs: there is a log which its
filter says is not there.  It is so for every log without topics of which the hash of the
address has, in the first two bytes, 0 and a number from 1 to 7, and then zeros. -/
theorem C100_violated (c : Curve) (g : Log) (x : UInt8) (hx : 0 < x.toNat) (hx' : x.toNat < 8)
    (ht : g.topics = []) (hk : c.keccak g.addr.val = [0, x] ++ List.replicate 30 0) :
    finds ethereumBits c (bloomOf c [g]) g.addr.val = false := by
  rw [finds, List.all_eq_false]
  refine ⟨2047 - x.toNat, ?_, ?_⟩
  · rw [hk]
    have : x.toNat % 2048 = x.toNat := Nat.mod_eq_of_lt (by omega)
    simp [ethereumBits, this]
  · intro h
    obtain ⟨g', hg', e, he, hn⟩ := ((C100_bits_partial c [g]).2 _).1 h
    simp only [List.mem_singleton] at hg'
    subst hg'
    rcases he with rfl | ⟨t, ht', _⟩
    · rw [hk] at hn
      simp only [swappedBits, List.map_cons, List.map_nil, List.mem_cons, List.not_mem_nil, or_false] at hn
      simp at hn
      omega
    · rw [ht] at ht'
      cases ht'

/-- Such a hash and such a log. -/
example : ∃ (c : Curve) (g : Log) (x : UInt8), 0 < x.toNat ∧ x.toNat < 8 ∧ g.topics = [] ∧
    c.keccak g.addr.val = [0, x] ++ List.replicate 30 0 ∧ finds swappedBits c (bloomOf c [g]) g.addr.val = true :=
  ⟨⟨Unit, fun _ _ => ⟨.zero, .zero, 0⟩, fun _ _ => none, fun _ => [], fun _ => [0, 1] ++ List.replicate 30 0,
      fun _ => ⟨List.replicate 20 0, rfl⟩⟩, ⟨⟨List.replicate 20 5, rfl⟩, [1], []⟩, 1, by decide, by decide, rfl, rfl,
    (C100_found_partial _ _ _ (by simp)).1⟩

end Verif.Http
