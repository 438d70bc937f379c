import Verif.Net.Model
import Verif.Serial.Lemmas

/-! Lemmas about connections. -/
namespace Verif.Net

open Verif.Serial

/-- A packet as it is on the wire. -/
def frame (m : Bytes) : Bytes := encInt 8 m.length ++ m

/-- Packets on the wire. -/
def frames (ms : List Bytes) : Bytes := ms.flatMap frame

theorem frames_append (a b : List Bytes) : frames (a ++ b) = frames a ++ frames b := by
  simp [frames]

theorem frames_one (m : Bytes) : frames [m] = frame m := by simp [frames]

theorem frames_cons (m : Bytes) (ms : List Bytes) : frames (m :: ms) = frame m ++ frames ms := by
  simp [frames]

theorem frame_length (m : Bytes) : (frame m).length = 8 + m.length := by
  simp [frame, encInt_length]

/-- A wire begins with one packet only. -/
theorem frame_inj {m m' x y : Bytes} (hm : m.length < 2 ^ 64) (hm' : m'.length < 2 ^ 64)
    (h : frame m ++ x = frame m' ++ y) : m = m' ∧ x = y := by
  unfold frame at h
  rw [List.append_assoc, List.append_assoc] at h
  have h1 := List.append_inj h (by rw [encInt_length, encInt_length])
  have hl : m.length = m'.length := by
    have := congrArg leNat h1.1
    rwa [leNat_encInt _ _ (by rw [pow256_8]; exact hm), leNat_encInt _ _ (by rw [pow256_8]; exact hm')]
      at this
  exact List.append_inj h1.2 hl

/-- The bytes of an unfinished packet that have been read. -/
def Receiving.partial : Receiving → Bytes
  | .size sofar => sofar
  | .body sz pkt => encInt 8 sz ++ pkt
  | .crashed => []

/-- Where `receive` can be. -/
def Receiving.Ok : Receiving → Prop
  | .size sofar => sofar.length < 8
  | .body sz pkt => pkt.length < sz ∧ sz < 2 ^ 64
  | .crashed => True

theorem read_keeps (alloc : Nat → Bool) (r : Receiving) (bs : Bytes) (hr : r.Ok)
    (hb : bs.length ≤ r.wanted) :
    (r.read alloc bs).1.Ok ∧ ((r.read alloc bs).1 ≠ .crashed →
      r.partial ++ bs = frames (r.read alloc bs).2.toList ++ (r.read alloc bs).1.partial) ∧
      ∀ m ∈ (r.read alloc bs).2, m.length < 2 ^ 64 := by
  cases r with
  | size sofar =>
    simp only [Receiving.Ok] at hr
    simp only [Receiving.wanted] at hb
    unfold Receiving.read
    dsimp only
    split
    · next h => exact ⟨h, fun _ => rfl, by simp⟩
    · next h =>
      have hlen : (sofar ++ bs).length = 8 := by
        have : (sofar ++ bs).length = sofar.length + bs.length := List.length_append
        omega
      have hlt := leNat_lt (sofar ++ bs)
      rw [hlen, pow256_8] at hlt
      have henc := encInt_leNat (sofar ++ bs)
      rw [hlen] at henc
      split
      · exact ⟨trivial, fun h => absurd rfl h, by simp⟩
      · split
        · next h0 =>
          refine ⟨by simp [Receiving.start, Receiving.Ok], fun _ => ?_, ?_⟩
          · rw [h0] at henc
            simp only [Receiving.partial, Receiving.start, Option.toList, frames_one, frame,
              List.length_nil, List.append_nil]
            exact henc.symm
          · intro m hm; cases hm; simp
        · next h0 =>
          refine ⟨⟨Nat.pos_of_ne_zero h0, hlt⟩, fun _ => ?_, by simp⟩
          simp only [Receiving.partial, Option.toList, frames, List.flatMap_nil, List.nil_append,
            List.append_nil]
          exact henc.symm
  | body sz pkt =>
    simp only [Receiving.Ok] at hr
    simp only [Receiving.wanted] at hb
    unfold Receiving.read
    dsimp only
    split
    · next h =>
      refine ⟨⟨h, hr.2⟩, fun _ => ?_, by simp⟩
      simp [Receiving.partial, frames]
    · next h =>
      have hlen : (pkt ++ bs).length = sz := by
        have : (pkt ++ bs).length = pkt.length + bs.length := List.length_append
        omega
      refine ⟨by simp [Receiving.start, Receiving.Ok], fun _ => ?_, ?_⟩
      · simp only [Receiving.partial, Receiving.start, Option.toList, frames_one, frame,
          List.append_nil, hlen]
        rw [List.append_assoc]
      · intro m hm; cases hm; rw [hlen]; exact hr.2
  | crashed => exact ⟨trivial, fun h => absurd rfl h, by simp [Receiving.read]⟩

/-- Packets read from the beginning of a wire are the first packets on it. -/
theorem frames_prefix {sent got : List Bytes} {p part rest m x : Bytes}
    (hs : ∀ a ∈ sent, a.length < 2 ^ 64) (hg : ∀ a ∈ got, a.length < 2 ^ 64)
    (hm : m.length < 2 ^ 64) (hpart : part ++ rest = frame m) (hrest : rest ≠ [])
    (h : frames got ++ p ++ x = frames sent ++ part) : got <+: sent := by
  induction got generalizing sent with
  | nil => exact List.nil_prefix
  | cons a got ih =>
    cases sent with
    | nil =>
      exfalso
      rw [frames_cons] at h
      have h' : frame a ++ (frames got ++ p ++ x ++ rest) = frame m ++ [] := by
        have := congrArg (· ++ rest) h
        simp only [frames, List.flatMap_nil, List.nil_append] at this
        rw [hpart] at this
        simpa [frames] using this
      have := (frame_inj (hg a (by simp)) hm h').2
      simp only [List.append_eq_nil_iff] at this
      exact hrest this.2
    | cons b sent =>
      rw [frames_cons, frames_cons] at h
      simp only [List.append_assoc] at h
      obtain ⟨rfl, h2⟩ := frame_inj (hg a (by simp)) (hs b (by simp)) h
      have := ih (sent := sent) (fun y hy => hs y (by simp [hy])) (fun y hy => hg y (by simp [hy]))
        (by rw [List.append_assoc]; exact h2)
      exact (List.prefix_cons_inj a).mpr this

/-- When the whole wire has been read, all packets on it have come. -/
theorem frames_all {sent got : List Bytes} {r : Receiving} (hr : r.Ok) (hc : r ≠ .crashed)
    {part rest m : Bytes} (hs : ∀ a ∈ sent, a.length < 2 ^ 64) (hg : ∀ a ∈ got, a.length < 2 ^ 64)
    (hm : m.length < 2 ^ 64) (hpart : part ++ rest = frame m) (hrest : rest ≠ [])
    (h : frames got ++ r.partial = frames sent ++ part) : got = sent := by
  obtain ⟨more, rfl⟩ := frames_prefix (x := []) hs hg hm hpart hrest (by simpa using h)
  cases more with
  | nil => simp
  | cons b more =>
    exfalso
    rw [frames_append, List.append_assoc] at h
    have h1 := List.append_cancel_left h
    have hb : b.length < 2 ^ 64 := hs b (by simp)
    rw [frames_cons, frame] at h1
    have hlen := congrArg List.length h1
    cases r with
    | size sofar =>
      simp only [Receiving.Ok] at hr
      simp only [Receiving.partial, List.length_append, encInt_length] at hlen
      omega
    | body sz pkt =>
      simp only [Receiving.Ok] at hr
      simp only [Receiving.partial, List.append_assoc] at h1
      have h2 := List.append_inj h1 (by rw [encInt_length, encInt_length])
      have : sz = b.length := by
        have := congrArg leNat h2.1
        rwa [leNat_encInt _ _ (by rw [pow256_8]; exact hr.2),
          leNat_encInt _ _ (by rw [pow256_8]; exact hb)] at this
      have := congrArg List.length h2.2
      simp only [List.length_append] at this
      omega
    | crashed => exact hc rfl

end Verif.Net
