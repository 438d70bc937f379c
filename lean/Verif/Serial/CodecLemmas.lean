import Verif.Serial.Codec
import Verif.Serial.Lemmas

namespace Verif.Serial.Codec

theorem unit_law : unit.Law := fun _ _ _ => rfl

theorem int_law (w : Nat) : (int w).Law := fun n rest h => decInt_append w n rest h

theorem u8_law : u8.Law := int_law 1
theorem u32_law : u32.Law := int_law 4
theorem u64_law : u64.Law := int_law 8

theorem flag_law : flag.Law := by
  intro f rest _
  exact roundtrip .bool f trivial rest

theorem bytes_law (n : Nat) : (bytes n).Law := fun _ rest h => read_append' rest h

theorem hash_law : hash.Law := bytes_law 32

theorem buf_law : buf.Law := by
  intro v rest h
  have h' : v.length ≤ maxBuf := h
  have h8 : v.length < 256 ^ 8 := by
    rw [pow256_8]
    unfold maxBuf at h'
    omega
  simp only [buf, decBuf, List.append_assoc, decInt_append 8 _ _ h8, Res.bind]
  rw [if_neg (by omega)]
  exact read_append v rest

theorem opt_law {α : Type} {c : Codec α} (h : c.Law) : (opt c).Law := by
  intro o rest hv
  cases o with
  | none => rfl
  | some v =>
    have h1 : decBool (1 :: (c.write v ++ rest)) = .ok true (c.write v ++ rest) := rfl
    simp only [opt, List.cons_append, h1, Res.bind, if_true, h v rest (hv v rfl)]

theorem pair_law {α β : Type} {a : Codec α} {b : Codec β} (ha : a.Law) (hb : b.Law) :
    (pair a b).Law := by
  rintro ⟨x, y⟩ rest ⟨h1, h2⟩
  simp only [pair, List.append_assoc, ha x _ h1, hb y _ h2, Res.bind]

theorem vec_law {α : Type} {c : Codec α} (h : c.Law) : (vec c).Law := by
  rintro vs rest ⟨h1, h2⟩
  simp only [vec, List.append_assoc, decInt_append 8 _ _ (pow256_8 ▸ h1), Res.bind]
  exact decN_append c.read c.write vs rest fun w hw r => h w r (h2 w hw)

theorem umap_law {α β : Type} [DecidableEq α] {k : Codec α} {c : Codec β} (hk : k.Law)
    (hc : c.Law) : (umap k c).Law := by
  rintro vs rest ⟨h1, hn, h2⟩
  simp only [umap, List.append_assoc, decInt_append 8 _ _ (pow256_8 ▸ h1), Res.bind]
  have := decUmap_append k.read c.read k.write c.write vs []
    ((vs.flatMap (fun p => k.write p.1 ++ c.write p.2) ++ rest).length + vs.length + 1) rest
    (fun x hx r => hk x.1 r (h2 x hx).1) (fun x hx r => hc x.2 r (h2 x hx).2) hn (by omega)
  rw [List.length_nil, Nat.zero_add] at this
  exact this

theorem uset_law {α : Type} [DecidableEq α] {c : Codec α} (h : c.Law) : (uset c).Law := by
  rintro vs rest ⟨h1, hn, h2⟩
  simp only [uset, List.append_assoc, decInt_append 8 _ _ (pow256_8 ▸ h1), Res.bind]
  have := decUset_append c.read c.write vs []
    ((vs.flatMap c.write ++ rest).length + vs.length + 1) rest
    (fun x hx r => h x r (h2 x hx)) hn (by omega)
  rw [List.length_nil, Nat.zero_add] at this
  exact this

theorem alternatives_tag {α : Type} (alts : List (Bytes → Res α)) (i : Nat) (f : Bytes → Res α)
    (hf : alts[i]? = some f) (hi : i < 256) (r : Bytes) : alternatives alts (tag i ++ r) = f r := by
  unfold alternatives tag
  rw [decInt_append 1 i r (by simpa using hi)]
  dsimp only
  rw [hf]

theorem alt_law {α β : Type} {c : Codec α} (h : c.Law) (wrap : α → β) (v : α) (hv : c.valid v)
    (rest : Bytes) : alt c wrap (c.write v ++ rest) = .ok (wrap v) rest := by
  simp only [alt, h v rest hv, Res.bind]

end Verif.Serial.Codec
