import Verif.Serial.Streams

/-! Lemmas for C118. -/
namespace Verif.Serial.Streams

/-- Every read has a destination: `buffer::extend` and the sizes of C++ objects allow nothing longer. -/
def Prog.Fits {α : Type} : Prog α → Prop
  | .ret _ => True
  | .throws => True
  | .read n k => n ≤ maxBuf ∧ ∀ b, (k b).Fits
  | .valid k => ∀ b, (k b).Fits

theorem wrap_of_lt {n : Nat} (h : n < 2 ^ 64) : wrap n = n := Nat.mod_eq_of_lt h

theorem serializedSize_from (chunks : List Bytes) (c : Nat) (h : c + chunks.flatten.length < 2 ^ 64) :
    chunks.foldl sizeWrite c = c + chunks.flatten.length := by
  induction chunks generalizing c with
  | nil => rfl
  | cons d ds ih =>
    simp only [List.flatten_cons, List.length_append] at h ⊢
    rw [List.foldl_cons, sizeWrite, wrap_of_lt (by omega), ih _ (by omega)]
    omega

theorem serializedSize_eq {chunks : List Bytes} (h : chunks.flatten.length < 2 ^ 64) :
    serializedSize chunks = chunks.flatten.length := by
  rw [serializedSize, serializedSize_from chunks 0 (by omega)]
  omega

/-- Writing over bytes that are there. -/
theorem over {pre d post : Bytes} {n : Nat} (h : post.length = n) :
    ((pre ++ post).take pre.length ++ d ++ (pre ++ post).drop (pre.length + d.length)) =
      pre ++ d ++ post.drop d.length := by
  rw [List.take_left, List.drop_append]
  congr 1
  rw [List.drop_eq_nil_of_le (by omega), List.nil_append]
  congr 1
  omega

theorem buf_write_inside {pre post d : Bytes} {v : Bool} {checked : Bool}
    (h : d.length ≤ post.length) (hl : pre.length + post.length < 2 ^ 64)
    (hc : checked = true → post ≠ []) :
    Buf.write checked ⟨pre ++ post, pre.length, v⟩ d =
      some ⟨(pre ++ d) ++ post.drop d.length, (pre ++ d).length, v⟩ := by
  unfold Buf.write
  dsimp only
  rw [wrap_of_lt (by omega),
    if_neg (show ¬ (pre ++ post).length < pre.length + d.length by rw [List.length_append]; omega),
    if_pos]
  · rw [over rfl, List.length_append]
  · rw [List.length_append]
    refine ⟨by omega, fun he => ?_⟩
    have := List.length_pos_iff.mpr (hc he)
    omega

theorem buf_writes_inside (chunks : List Bytes) {pre post : Bytes} {v : Bool} {checked : Bool}
    (h : chunks.flatten.length ≤ post.length) (hl : pre.length + post.length < 2 ^ 64)
    (hc : checked = true → ∀ as bs, chunks = as ++ bs → bs ≠ [] →
      as.flatten.length < post.length) :
    Buf.writes checked ⟨pre ++ post, pre.length, v⟩ chunks =
      some ⟨(pre ++ chunks.flatten) ++ post.drop chunks.flatten.length,
        (pre ++ chunks.flatten).length, v⟩ := by
  induction chunks generalizing pre post with
  | nil => simp [Buf.writes]
  | cons d ds ih =>
    simp only [List.flatten_cons, List.length_append] at h
    rw [Buf.writes, buf_write_inside (by omega) hl, Option.bind_some, ih]
    · simp [List.append_assoc, List.drop_drop]
    · rw [List.length_drop]
      omega
    · rw [List.length_append, List.length_drop]
      omega
    · intro he as bs hab hbs
      have := hc he (d :: as) bs (by rw [hab]; rfl) hbs
      simp only [List.flatten_cons, List.length_append] at this
      rw [List.length_drop]
      omega
    · intro he hp
      have := hc he [] (d :: ds) rfl (by simp)
      rw [hp] at this
      simp at this

theorem nur_write_inside {pre post d : Bytes} {v : Bool}
    (h : d.length ≤ post.length) (hl : pre.length + post.length < 2 ^ 64) :
    Nur.write ⟨pre ++ post, pre.length, v⟩ d =
      some ⟨(pre ++ d) ++ post.drop d.length, (pre ++ d).length, v⟩ := by
  unfold Nur.write
  dsimp only
  rw [wrap_of_lt (by omega),
    if_neg (show ¬ (pre ++ post).length < pre.length + d.length by rw [List.length_append]; omega),
    if_pos]
  · rw [over rfl, List.length_append]
  · rw [List.length_append]
    omega

theorem nur_writes_inside (chunks : List Bytes) {pre post : Bytes} {v : Bool}
    (h : chunks.flatten.length ≤ post.length) (hl : pre.length + post.length < 2 ^ 64) :
    Nur.writes ⟨pre ++ post, pre.length, v⟩ chunks =
      some ⟨(pre ++ chunks.flatten) ++ post.drop chunks.flatten.length,
        (pre ++ chunks.flatten).length, v⟩ := by
  induction chunks generalizing pre post with
  | nil => simp [Nur.writes]
  | cons d ds ih =>
    simp only [List.flatten_cons, List.length_append] at h
    rw [Nur.writes, nur_write_inside (by omega) hl, Option.bind_some, ih]
    · simp [List.append_assoc, List.drop_drop]
    · rw [List.length_drop]
      omega
    · rw [List.length_append, List.length_drop]
      omega

theorem out_stuck (chunks : List Bytes) (s : Out) (h : s.good = false) :
    chunks.foldl Out.write s = s := by
  induction chunks with
  | nil => rfl
  | cons d ds ih =>
    have : s.write d = s := by simp [Out.write, h]
    rw [List.foldl_cons, this, ih]

theorem out_writes (chunks : List Bytes) (c : Bytes) (room : Nat) (h : c.length ≤ room) :
    chunks.foldl Out.write ⟨c, room, true⟩ =
      ⟨(c ++ chunks.flatten).take room, room,
        decide ((c ++ chunks.flatten).length ≤ room)⟩ := by
  induction chunks generalizing c with
  | nil => simp [List.take_of_length_le h, h]
  | cons d ds ih =>
    rw [List.foldl_cons]
    by_cases hd : c.length + d.length ≤ room
    · have : Out.write ⟨c, room, true⟩ d = ⟨c ++ d, room, true⟩ := by
        simp [Out.write, hd, List.take_of_length_le (show d.length ≤ room - c.length by omega)]
      rw [this, ih _ (by rw [List.length_append]; omega)]
      simp [List.append_assoc]
    · have : Out.write ⟨c, room, true⟩ d = ⟨c ++ d.take (room - c.length), room, false⟩ := by
        simp [Out.write, hd]
      rw [this, out_stuck _ _ rfl]
      have h1 : (c ++ (d :: ds).flatten).take room = c ++ d.take (room - c.length) := by
        rw [List.flatten_cons, List.take_append, List.take_of_length_le h, List.take_append,
          show room - c.length - d.length = 0 by omega]
        simp
      rw [h1]
      congr 1
      simp only [List.flatten_cons, List.length_append]
      symm
      simp only [decide_eq_false_iff_not]
      omega

/-! ### Reading -/

/-- Once invalid, a serializer stays so. -/
def Reader.Sticky {σ : Type} (r : Reader σ) : Prop :=
  ∀ s n b s', r.read s n = .value b s' → r.good s = false → r.good s' = false

theorem run_sticky {σ α : Type} {r : Reader σ} (hr : r.Sticky) (p : Prog α) {s s' : σ} {a : α}
    (h : run r p s = .value a s') (hs : r.good s = false) : r.good s' = false := by
  induction p generalizing s with
  | ret a =>
    injection h with _ h
    exact h ▸ hs
  | throws => exact nomatch h
  | read n k ih =>
    rw [run] at h
    cases hb : r.read s n with
    | value b t =>
      rw [hb] at h
      exact ih b h (hr s n b t hb hs)
    | threw => rw [hb] at h; exact nomatch h
    | outside => rw [hb] at h; exact nomatch h
  | valid k ih => exact ih _ h hs

theorem buf_sticky (checked : Bool) : (bufReader checked).Sticky := by
  intro s n b s' h hs
  simp only [bufReader] at h hs ⊢
  split at h
  · injection h with _ h
    rw [← h]
  · split at h
    · injection h with _ h
      rw [← h]
      exact hs
    · exact nomatch h

theorem nur_sticky : nurReader.Sticky := by
  intro s n b s' h hs
  simp only [nurReader] at h hs ⊢
  split at h
  · injection h with _ h
    rw [← h]
  · split at h
    · injection h with _ h
      rw [← h]
      exact hs
    · exact nomatch h

theorem in_sticky : inReader.Sticky := by
  intro s n b s' h hs
  dsimp only [inReader] at h hs ⊢
  split at h
  · exact nomatch h
  · injection h with _ h
    rw [← h]
    exact hs

theorem buf_run_inside {α : Type} (p : Prog α) (hp : p.Fits) (s : Buf)
    (hc : s.cursor ≤ s.pkt.length) (hl : s.pkt.length ≤ maxBuf) :
    run (bufReader false) p s ≠ .outside := by
  induction p generalizing s with
  | ret a => exact fun h => nomatch h
  | throws => exact fun h => nomatch h
  | read n k ih =>
    have hn := hp.1
    simp only [maxBuf] at hn hl
    rw [run]
    simp only [bufReader]
    rw [wrap_of_lt (by omega)]
    by_cases h : s.pkt.length < s.cursor + n
    · rw [if_pos h]
      exact ih none (hp.2 _) _ hc hl
    · rw [if_neg h, if_pos ⟨by omega, by simp⟩]
      exact ih _ (hp.2 _) _ (by dsimp only; omega) hl
  | valid k ih => exact ih _ (hp _) s hc hl

theorem nur_run {α : Type} (p : Prog α) (hp : p.Fits) (s : Buf)
    (hc : s.cursor ≤ s.pkt.length) (hl : s.pkt.length ≤ maxBuf) :
    run nurReader p ⟨s.pkt, s.cursor, s.valid⟩ =
      match run (bufReader false) p s with
      | .value a t => .value a ⟨t.pkt, t.cursor, t.valid⟩
      | .threw => .threw
      | .outside => .outside := by
  induction p generalizing s with
  | ret a => rfl
  | throws => rfl
  | read n k ih =>
    have hn := hp.1
    have hl' := hl
    simp only [maxBuf] at hn hl'
    rw [run, run]
    simp only [bufReader, nurReader]
    rw [wrap_of_lt (by omega)]
    by_cases h : s.pkt.length < s.cursor + n
    · rw [if_pos h, if_pos h]
      exact ih none (hp.2 _) ⟨s.pkt, s.cursor, false⟩ hc hl
    · rw [if_neg h, if_neg h, if_pos (show s.cursor + n ≤ s.pkt.length ∧ _ from ⟨by omega, by simp⟩),
        if_pos (by omega)]
      exact ih _ (hp.2 _) ⟨s.pkt, s.cursor + n, s.valid⟩ (by dsimp only; omega) hl
  | valid k ih => exact ih _ (hp _) s hc hl

/-- A run that ends valid on a buffer is the same run on a stream. -/
theorem in_of_buf {α : Type} (p : Prog α) (hp : p.Fits) (s : Buf) (t : Buf) (a : α)
    (hc : s.cursor ≤ s.pkt.length) (hl : s.pkt.length ≤ maxBuf) (hv : s.valid = true)
    (h : run (bufReader false) p s = .value a t) (ht : t.valid = true) :
    run inReader p ⟨s.pkt.drop s.cursor, true⟩ = .value a ⟨t.pkt.drop t.cursor, true⟩ := by
  induction p generalizing s with
  | ret a =>
    injection h with h1 h2
    subst h1 h2
    rfl
  | throws => exact nomatch h
  | read n k ih =>
    have hn := hp.1
    have hl' := hl
    simp only [maxBuf] at hn hl'
    rw [run] at h ⊢
    simp only [bufReader] at h
    rw [wrap_of_lt (by omega)] at h
    by_cases hlt : s.pkt.length < s.cursor + n
    · rw [if_pos hlt] at h
      have := run_sticky (buf_sticky false) _ h rfl
      rw [show (bufReader false).good t = t.valid from rfl, ht] at this
      exact nomatch this
    · rw [if_neg hlt, if_pos ⟨by omega, by simp⟩] at h
      simp only [inReader]
      rw [if_neg (by have := hp.1; omega), if_neg (by simp),
        if_pos (by rw [List.length_drop]; omega), List.drop_drop]
      exact ih _ (hp.2 _) ⟨s.pkt, s.cursor + n, s.valid⟩ (by dsimp only; omega) hl hv h
  | valid k ih =>
    rw [run] at h ⊢
    have hg : (bufReader false).good s = true := hv
    rw [hg] at h
    exact ih _ (hp _) s hc hl hv h

/-- And the other way round. -/
theorem buf_of_in {α : Type} (p : Prog α) (hp : p.Fits) (s : Buf) (t : In) (a : α)
    (hc : s.cursor ≤ s.pkt.length) (hl : s.pkt.length ≤ maxBuf) (hv : s.valid = true)
    (h : run inReader p ⟨s.pkt.drop s.cursor, true⟩ = .value a t) (ht : t.good = true) :
    ∃ u : Buf, run (bufReader false) p s = .value a u ∧ u.valid = true ∧
      u.pkt.drop u.cursor = t.left := by
  induction p generalizing s with
  | ret a =>
    injection h with h1 h2
    subst h1 h2
    exact ⟨s, rfl, hv, rfl⟩
  | throws => exact nomatch h
  | read n k ih =>
    have hn := hp.1
    have hl' := hl
    simp only [maxBuf] at hn hl'
    rw [run] at h ⊢
    simp only [inReader] at h
    rw [if_neg (by have := hp.1; omega), if_neg (by simp)] at h
    simp only [bufReader]
    rw [wrap_of_lt (by omega)]
    by_cases hle : n ≤ (s.pkt.drop s.cursor).length
    · rw [if_pos hle, List.drop_drop] at h
      rw [List.length_drop] at hle
      rw [if_neg (by omega), if_pos ⟨by omega, by simp⟩]
      exact ih _ (hp.2 _) ⟨s.pkt, s.cursor + n, s.valid⟩ (by dsimp only; omega) hl hv h
    · rw [if_neg hle] at h
      have := run_sticky in_sticky _ h rfl
      rw [show inReader.good t = t.good from rfl, ht] at this
      exact nomatch this
  | valid k ih =>
    rw [run] at h ⊢
    have hg : (bufReader false).good s = true := hv
    rw [hg]
    exact ih _ (hp _) s hc hl hv h

end Verif.Serial.Streams
