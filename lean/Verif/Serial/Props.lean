import Verif.Serial.Lemmas2
import Verif.Serial.Messages

/-! Properties C01, C02, C04, C57, C58: the wire format. -/
namespace Verif.Serial

/-- **C01.** Deserializing what was serialized returns the value and leaves
exactly the bytes that followed it, for every composed type. -/
theorem C01_roundtrip (t : Ty) (v : t.val) (h : WF t v) (rest : Bytes) :
    dec t (enc t v ++ rest) = .ok v rest :=
  roundtrip t v h rest

/-- C01 at the level of `make_buffer`/`from_buffer`. -/
theorem C01_roundtrip_buffer (t : Ty) (v : t.val) (h : WF t v) (rest : Bytes) :
    fromBuffer t (makeBuffer t v ++ rest) = some (some v) := by
  simp [fromBuffer, makeBuffer, roundtrip t v h rest]

/-- Consequence: different values have different serializations, even when one
is followed by other bytes. -/
theorem C01_injective (t : Ty) (v w : t.val) (hv : WF t v) (hw : WF t w) (r s : Bytes)
    (h : enc t v ++ r = enc t w ++ s) : v = w ∧ r = s := by
  have h1 := roundtrip t v hv r
  rw [h, roundtrip t w hw s] at h1
  injection h1 with h1 h2
  exact ⟨h1.symm, h2.symm⟩

example : WF tExecRequest ([1, 2], [3], true) := wf_of_decide _ _ (by decide)
example : dec tExecRequest (enc tExecRequest ([1, 2], [3], true) ++ [9]) =
    .ok ([1, 2], [3], true) [9] := by decide
example : WF tTicket ((2 : Nat), (7 : Nat), [(([1] : Bytes), ([2] : Bytes)), ([3], [])]) :=
  wf_of_decide _ _ (by decide)
example : WF tShardRequest (List.replicate 32 3, ⟨1, [true, false]⟩) :=
  wf_of_decide _ _ (by decide)

/-- **C02 (partial).** No strict prefix of a serialized message ever decodes to a
value. Missing from the full property: the *reported failure*; see
`C02_truncation_throws_violated`. -/
theorem C02_truncated_rejected_partial (t : Ty) (v : t.val) (h : WF t v) (p s : Bytes)
    (hp : enc t v = p ++ s) (hs : s ≠ []) (w : t.val) (r : Bytes) : dec t p ≠ .ok w r :=
  truncated t v h p s hp hs w r

/-- C02 in full for plain messages (no `bool`, optional, variant or
`cbdc::buffer` inside): `from_buffer` returns `nullopt`. -/
theorem C02_truncated_fails_plain (t : Ty) (ht : Plain t) (v : t.val) (h : WF t v)
    (p s : Bytes) (hp : enc t v = p ++ s) (hs : s ≠ []) : fromBuffer t p = some none := by
  unfold fromBuffer
  cases hd : dec t p with
  | ok w r => exact absurd hd (truncated t v h p s hp hs w r)
  | fail _ => rfl
  | bad => exact absurd hd (dec_plain t ht p)

example : Plain tFullTx ∧ Plain tCompactTx ∧ Plain tBlock ∧ Plain tTxNotify ∧
    Plain tAggTxNotify := by
  simp [Plain, Sized, tFullTx, tCompactTx, tBlock, tTxNotify, tAggTxNotify, tInput, tOutput,
    tOutPoint, tHash, tU64, tWitness, tAttestations]
example : enc tOutPoint (List.replicate 32 7, (1 : Nat)) =
    (List.replicate 32 7 ++ [1, 0]) ++ [0, 0, 0, 0, 0, 0] := by decide

/-- C02 fails for messages with buffers: an execution request to a parsec agent
cut short inside its first field makes `operator>>` throw
`std::length_error`, because the second field is read from the same position
and its size prefix is taken from the middle of the first one. -/
theorem C02_truncation_throws_violated :
    ∃ (v : tExecRequest.val) (p s : Bytes), WF tExecRequest v ∧ enc tExecRequest v = p ++ s ∧
      s ≠ [] ∧ dec tExecRequest p = .bad := by
  refine ⟨(List.replicate 16 255, [], false),
    encInt 8 16 ++ List.replicate 8 255, List.replicate 8 255 ++ encInt 8 0 ++ [0], ?_, ?_, ?_, ?_⟩
  · exact wf_of_decide _ _ (by decide)
  · decide
  · decide
  · decide

/-- **C04 (violated).** The decoder of an unordered set does not consume exactly the
announced number of elements: with two announced and `5` repeated it swallows
the byte `6` that belongs to the next field. -/
theorem C04_set_overread_violated :
    ¬ ∀ (b : Bytes) (n : Nat) (r r' : Bytes) (vs : List Nat), decInt 8 b = .ok n r →
      dec (.uset (.int 1)) b = .ok vs r' → b.length = 8 + n + r'.length := by
  intro h
  have := h (encInt 8 2 ++ [5, 5, 6]) 2 [5, 5, 6] [] [5, 6] (by decide) (by decide)
  simp [encInt] at this

/-- **C04 (partial), sets.** When decoding an unordered set succeeds, the result has
no repeated element, exactly the announced number of elements, and consists
exactly of the elements read from the message. Missing: that their number is
the announced one. -/
theorem C04_set_decode_partial (t : Ty) (b r : Bytes) (vs : List t.val)
    (h : dec (.uset t) b = .ok vs r) :
    ∃ n rest ws, decInt 8 b = .ok n rest ∧ decN (dec t) ws.length rest = .ok ws r ∧
      vs.Nodup ∧ vs.length = n ∧ n ≤ ws.length ∧ ∀ x, x ∈ vs ↔ x ∈ ws := by
  obtain ⟨n, rest, h1, h2⟩ := Res.bind_ok h
  obtain ⟨ws, j1, j2, j3, j4, j5⟩ := decUset_ok List.nodup_nil (by simp) h2
  exact ⟨n, rest, ws, h1, j1, j2, j3, by simpa using j4, by simpa using j5⟩

/-- C04 for messages without repetitions: the decoder agrees with the decoder
of a vector, so it consumes exactly the announced elements. -/
theorem C04_set_decode_no_repetition (t : Ty) (b r : Bytes) (ws : List t.val)
    (h : dec (.vec t) b = .ok ws r) (hn : ws.Nodup) : dec (.uset t) b = .ok ws r := by
  obtain ⟨n, rest, h1, h2⟩ := Res.bind_ok h
  have hl : ws.length = n := decN_length h2
  subst hl
  simp only [dec, h1, Res.bind]
  have := decUset_eq_decN (acc := []) (fuel := rest.length + ws.length + 1) hn (by omega) h2
  rw [List.length_nil, Nat.zero_add] at this
  exact this

example : dec (.vec (.int 1)) (encInt 8 2 ++ [5, 6, 7]) = .ok [(5 : Nat), (6 : Nat)] [7] := by
  decide

/-- **C04 (partial), maps.** As `C04_set_decode_partial`; every binding of the
result was read from the message. -/
theorem C04_map_decode_partial (k v : Ty) (b r : Bytes) (vs : List (k.val × v.val))
    (h : dec (.umap k v) b = .ok vs r) :
    ∃ (n : Nat) (rest : Bytes) (ws : List (k.val × v.val)), decInt 8 b = .ok n rest ∧
      decN (α := k.val × v.val) (dec (.pair k v)) ws.length rest = .ok ws r ∧
      (vs.map Prod.fst).Nodup ∧ vs.length = n ∧ n ≤ ws.length ∧ (∀ x ∈ vs, x ∈ ws) ∧
      ∀ x, x ∈ vs.map Prod.fst ↔ x ∈ ws.map Prod.fst := by
  obtain ⟨n, rest, h1, h2⟩ := Res.bind_ok h
  obtain ⟨ws, j1, j2, j3, j4, j5, j6⟩ := decUmap_ok (by simp) (by simp) h2
  exact ⟨n, rest, ws, h1, j1, j2, j3, by simpa using j4, by simpa using j5, by simpa using j6⟩

/-- C04 for maps without repeated keys on the wire. -/
theorem C04_map_decode_no_repetition (k v : Ty) (b r : Bytes) (ws : List (k.val × v.val))
    (h : dec (.vec (.pair k v)) b = .ok ws r) (hn : (ws.map Prod.fst).Nodup) :
    dec (.umap k v) b = .ok ws r := by
  obtain ⟨n, rest, h1, h2⟩ := Res.bind_ok h
  have hl : ws.length = n := decN_length h2
  subst hl
  simp only [dec, h1, Res.bind]
  have := decUmap_eq_decN (dk := dec k) (dv := dec v) (acc := [])
    (fuel := rest.length + ws.length + 1) hn (by omega) h2
  rw [List.length_nil, Nat.zero_add] at this
  exact this

/-- **C57 (violated).** Decoding arbitrary bytes is not well defined: a byte 2 where a
shard request carries a `bool` is undefined behaviour, and an unknown variant
index throws. Both are single requests to a locking shard. -/
theorem C57_hostile_bytes_violated :
    (∃ b, dec tShardRequest b = .bad ∧ b = List.replicate 32 0 ++ [1] ++ encInt 8 1 ++ [2]) ∧
    ∃ b, dec tShardRequest b = .bad ∧ b = List.replicate 32 0 ++ [3] := by
  exact ⟨⟨_, by decide, rfl⟩, ⟨_, by decide, rfl⟩⟩

/-- **C57 (partial).** For messages made of integers, byte arrays, vectors, sets, maps
and structures, every byte string is either decoded or rejected. Missing: types
with `bool`, optionals, variants and `cbdc::buffer`. -/
theorem C57_plain_decode_total_partial (t : Ty) (ht : Plain t) (b : Bytes) :
    (∃ v r, dec t b = .ok v r ∧ r.length ≤ b.length) ∨ ∃ r, dec t b = .fail r := by
  cases hd : dec t b with
  | ok v r => exact .inl ⟨v, r, rfl, (dec_shrinks t b v r hd).1⟩
  | fail r => exact .inr ⟨r, rfl⟩
  | bad => exact absurd hd (dec_plain t ht b)

/-- **C58.** The decoder accepts only canonical encodings: whatever bytes are accepted
as a message without sets and maps are exactly its serialization. -/
theorem C58_canonical (t : Ty) (ht : Ordered t) (b r : Bytes) (v : t.val)
    (h : dec t b = .ok v r) : b = enc t v ++ r ∧ WF t v :=
  ⟨(dec_ordered t ht b v r h).2, (dec_ordered t ht b v r h).1⟩

example : Ordered tFullTx ∧ Ordered tExecRequest := by
  simp [Ordered, tFullTx, tExecRequest, tInput, tOutput, tOutPoint, tHash, tU64, tWitness]

/-- C58 is false for messages with maps: two attestation maps with the same content
written in either order are both accepted. -/
theorem C58_maps_not_canonical :
    ∃ b b' : Bytes, b ≠ b' ∧ ∃ v w : List (Nat × Nat), dec (.umap (.int 1) (.int 1)) b = .ok v [] ∧
      dec (.umap (.int 1) (.int 1)) b' = .ok w [] ∧ v.Perm w := by
  refine ⟨encInt 8 2 ++ [1, 2, 3, 4], encInt 8 2 ++ [3, 4, 1, 2], by decide,
    [(1, 2), (3, 4)], [(3, 4), (1, 2)], by decide, by decide, List.Perm.swap _ _ _⟩

end Verif.Serial
