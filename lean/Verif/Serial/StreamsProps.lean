import Verif.Serial.StreamsLemmas
import Verif.Serial.Catalogue

/-! Property C118: the serializers agree. What an overload of `operator<<` writes is the list of byte
strings it passes to `write`; the object's bytes are these strings one behind the other. -/
namespace Verif.Serial.Streams

/-- **C118.** `serialized_size` is the number of bytes of the object. -/
theorem C118_size (chunks : List Bytes) (h : chunks.flatten.length < 2 ^ 64) :
    serializedSize chunks = chunks.flatten.length :=
  serializedSize_eq h

/-- C118: a buffer made for an object holds its bytes and nothing else, and nothing is written outside
of it. Partial: with a standard library that checks indexes, the last write must not be empty
(`C118_subscript_violated`). -/
theorem C118_buffer_partial (checked : Bool) (chunks : List Bytes)
    (h : chunks.flatten.length ≤ maxBuf)
    (hc : checked = true → ∃ init d, chunks = init ++ [d] ∧ d ≠ []) :
    makeBuffer checked chunks = some chunks.flatten := by
  have h64 : chunks.flatten.length < 2 ^ 64 := by simp only [maxBuf] at h; omega
  rw [makeBuffer, serializedSize_eq h64]
  have := buf_writes_inside chunks (pre := []) (v := true) (checked := checked)
    (post := List.replicate chunks.flatten.length 0) (by rw [List.length_replicate]; omega)
    (by rw [List.length_replicate]; simpa using h64) (by
      intro he as bs hab hbs
      rw [List.length_replicate]
      obtain ⟨init, d, hd, hne⟩ := hc he
      have hlast : ∃ cs, bs = cs ++ [d] := by
        refine ⟨bs.dropLast, ?_⟩
        have h1 : bs.getLast hbs = d := by
          have := congrArg List.getLast? (hab.symm.trans hd)
          rw [List.getLast?_append, List.getLast?_eq_some_getLast hbs] at this
          simpa using this
        rw [← h1, List.dropLast_concat_getLast]
      obtain ⟨cs, rfl⟩ := hlast
      have := List.length_pos_iff.mpr hne
      rw [hab]
      simp only [List.flatten_append, List.flatten_cons, List.flatten_nil, List.append_nil,
        List.length_append]
      omega)
  simp only [List.nil_append, List.length_nil] at this
  rw [this]
  simp

/-- C118: a buffer made for NuRaft holds exactly the bytes of the object, whatever its memory held
before; no write is refused, and the cursor is at the end, as the coordinator asserts. -/
theorem C118_nuraft (fresh : Nat → Bytes) (hf : ∀ n, (fresh n).length = n) (chunks : List Bytes)
    (h : chunks.flatten.length < 2 ^ 31) :
    ∃ s, makeNuraft fresh chunks = some s ∧ s.buf = chunks.flatten ∧ s.valid = true ∧
      s.atEnd = true := by
  have h64 : chunks.flatten.length < 2 ^ 64 := by omega
  have := nur_writes_inside chunks (pre := []) (v := true)
    (post := fresh chunks.flatten.length) (by rw [hf]; omega)
    (by rw [hf]; simpa using h64)
  simp only [List.nil_append, List.length_nil] at this
  have hd : (fresh chunks.flatten.length).drop chunks.flatten.length = [] :=
    List.drop_eq_nil_of_le (by rw [hf]; omega)
  rw [hd, List.append_nil] at this
  refine ⟨⟨chunks.flatten, chunks.flatten.length, true⟩, ?_, rfl, rfl, ?_⟩
  · rw [makeNuraft, serializedSize_eq h64, if_neg (by omega)]
    exact this
  · simp [Nur.atEnd]

/-- C118: a file gets the same bytes; when it does not take all of them it has those that fit, and
the stream says so. -/
theorem C118_file (room : Nat) (chunks : List Bytes) :
    (writeFile room chunks).content = chunks.flatten.take room ∧
    ((writeFile room chunks).good = true ↔ chunks.flatten.length ≤ room) := by
  rw [writeFile, out_writes chunks [] room (by simp)]
  simp

/-- An overload accepts: it ends with `a`, the serializer is valid and `rest` is not read yet. -/
def Accepts {σ α : Type} (r : Reader σ) (left : σ → Bytes) (p : Prog α) (s : σ) (a : α)
    (rest : Bytes) : Prop :=
  ∃ s', run r p s = .value a s' ∧ r.good s' = true ∧ left s' = rest

/-- C118: whatever an overload does, it accepts the same bytes with the same result from a buffer, from
the log and from a file. -/
theorem C118_readers {α : Type} (p : Prog α) (hp : p.Fits) (b : Bytes) (hb : b.length ≤ maxBuf) (a : α)
    (rest : Bytes) :
    (Accepts nurReader (fun s => s.buf.drop s.pos) p (Nur.of b) a rest ↔
      Accepts (bufReader false) (fun s => s.pkt.drop s.cursor) p (Buf.of b) a rest) ∧
    (Accepts inReader In.left p (In.of b) a rest ↔
      Accepts (bufReader false) (fun s => s.pkt.drop s.cursor) p (Buf.of b) a rest) := by
  refine ⟨?_, ?_, ?_⟩
  · have hn := nur_run p hp (Buf.of b) (Nat.zero_le _) hb
    rw [show (⟨(Buf.of b).pkt, (Buf.of b).cursor, (Buf.of b).valid⟩ : Nur) = Nur.of b from rfl] at hn
    constructor
    · rintro ⟨s', h, hg, hl⟩
      rw [hn] at h
      cases hr : run (bufReader false) p (Buf.of b) with
      | value x t =>
        rw [hr] at h
        injection h with h1 h2
        subst h1 h2
        exact ⟨t, hr, hg, hl⟩
      | threw => rw [hr] at h; exact nomatch h
      | outside => rw [hr] at h; exact nomatch h
    · rintro ⟨s', h, hg, hl⟩
      rw [h] at hn
      exact ⟨_, hn, hg, hl⟩
  · rintro ⟨s', h, hg, hl⟩
    obtain ⟨u, hu, hv, hr⟩ := buf_of_in p hp (Buf.of b) s' a (Nat.zero_le _) hb rfl h hg
    exact ⟨u, hu, hv, hr.trans hl⟩
  · rintro ⟨s', h, hg, hl⟩
    exact ⟨_, in_of_buf p hp (Buf.of b) s' a (Nat.zero_le _) hb rfl h hg, rfl, hl⟩

/-- C118: nothing is read outside a buffer, and the log ends in the same way as a buffer, also when the
bytes are refused or an exception is thrown. Partial: without checked indexes. -/
theorem C118_inside_partial {α : Type} (p : Prog α) (hp : p.Fits) (b : Bytes) (hb : b.length ≤ maxBuf) :
    run (bufReader false) p (Buf.of b) ≠ .outside ∧
    (run nurReader p (Nur.of b) = .threw ↔ run (bufReader false) p (Buf.of b) = .threw) := by
  refine ⟨buf_run_inside p hp _ (Nat.zero_le _) hb, ?_⟩
  have hn := nur_run p hp (Buf.of b) (Nat.zero_le _) hb
  rw [show (⟨(Buf.of b).pkt, (Buf.of b).cursor, (Buf.of b).valid⟩ : Nur) = Nur.of b from rfl] at hn
  rw [hn]
  have := buf_run_inside p hp (Buf.of b) (Nat.zero_le _) hb
  cases hr : run (bufReader false) p (Buf.of b) with
  | value x t => simp
  | threw => simp
  | outside => exact absurd hr this

/-- Reading a buffer as `operator>>` does, `src/util/serialization/format.cpp:30-36`. -/
def readBuf : Prog Bytes := .read 8 fun
  | none => .read 0 fun _ => .ret []
  | some n => if maxBuf < leNat n then .throws else .read (leNat n) fun
    | none => .ret []
    | some v => .ret v

/-- C118 is violated: writing and reading a message that ends with an empty buffer take the address of
the element behind the last one of a vector with `operator[]`, which is undefined and stops a
program whose standard library checks it. An example is the answer of a shard for a key that has no
value. -/
theorem C118_subscript_violated :
    [Codec.tag 0, encInt 8 0, []].flatten = Cat.tryLockResult.write (.value []) ∧
    makeBuffer true [Codec.tag 0, encInt 8 0, []] = none ∧
    run (bufReader true) readBuf (Buf.of (encInt 8 0)) = .outside := by
  refine ⟨by decide, by decide +kernel, ?_⟩
  rfl

/-- C118 is violated for what is refused: a buffer that was found too short goes on giving what it
still has, a file does not; one can end with an exception where the other reports the failure. -/
theorem C118_same_end_violated :
    ∃ (p : Prog Unit) (b : Bytes), p.Fits ∧
      run (bufReader false) p (Buf.of b) = .threw ∧
      run inReader p (In.of b) = .value () ⟨[], false⟩ := by
  refine ⟨.read 8 fun _ => .read 1 fun
    | some [0] => .ret ()
    | some _ => .throws
    | none => .ret (), [7], ?_, rfl, rfl⟩
  refine ⟨by decide, fun _ => ⟨by decide, fun b => ?_⟩⟩
  dsimp only
  split <;> trivial

section Example

/-- The hypotheses of the theorems hold for the request of an agent, whose last write is the flag. -/
def exChunks : List Bytes := [encInt 8 2, [1, 2], encInt 8 0, [], [1]]

example : exChunks.flatten = Cat.execRequest.write ⟨[1, 2], [], true⟩ := by decide
example : makeBuffer true exChunks = some exChunks.flatten :=
  C118_buffer_partial true exChunks (by decide) fun _ => ⟨[encInt 8 2, [1, 2], encInt 8 0, []], [1],
    rfl, by decide⟩
example : (writeFile 10 exChunks).good = false := by decide
/-- A wrong computed size would be seen: a larger one leaves zero bytes behind the object. -/
example : (Buf.writes false ⟨List.replicate 3 0, 0, true⟩ [[5]]).map Buf.pkt = some [5, 0, 0] := by
  decide

example : readBuf.Fits := by
  refine ⟨by decide, fun b => ?_⟩
  cases b with
  | none => exact ⟨by decide, fun _ => trivial⟩
  | some n =>
    dsimp only
    split
    · trivial
    · refine ⟨by omega, fun b => ?_⟩
      cases b <;> trivial

example : Accepts (bufReader false) (fun s => s.pkt.drop s.cursor) readBuf
    (Buf.of (encInt 8 2 ++ [4, 5, 6])) [4, 5] [6] := ⟨⟨_, 10, true⟩, rfl, rfl, rfl⟩

/-- Why the destination matters: a length near 2^64 passes the check of `read`. -/
example : run (bufReader false) (.read 1 fun _ => .read (2 ^ 64 - 1) fun _ => .ret ()) (Buf.of [1, 2]) =
    .outside := rfl

end Example

end Verif.Serial.Streams
