import Verif.Serial.Model

/-! Helper lemmas about the wire format model. -/
namespace Verif.Serial

theorem encInt_length (w n : Nat) : (encInt w n).length = w := by
  induction w generalizing n with
  | zero => rfl
  | succ w ih => simp [encInt, ih]

theorem leNat_encInt (w n : Nat) (h : n < 256 ^ w) : leNat (encInt w n) = n := by
  induction w generalizing n with
  | zero => simp at h; simp [encInt, leNat, h]
  | succ w ih =>
    have : n / 256 < 256 ^ w := by
      rw [Nat.pow_succ] at h
      exact Nat.div_lt_of_lt_mul (by omega)
    simp only [encInt, leNat, ih _ this]
    have : (UInt8.ofNat (n % 256)).toNat = n % 256 := by
      simp [UInt8.toNat_ofNat']
    omega

theorem encInt_leNat (bs : Bytes) : encInt bs.length (leNat bs) = bs := by
  induction bs with
  | nil => rfl
  | cons b bs ih =>
    have hb : b.toNat < 256 := b.toNat_lt
    have h1 : (b.toNat + 256 * leNat bs) % 256 = b.toNat := by omega
    have h2 : (b.toNat + 256 * leNat bs) / 256 = leNat bs := by omega
    simp only [List.length_cons, encInt, leNat, h1, h2, ih]
    simp

theorem leNat_lt (bs : Bytes) : leNat bs < 256 ^ bs.length := by
  induction bs with
  | nil => simp [leNat]
  | cons b bs ih =>
    have hb : b.toNat < 256 := b.toNat_lt
    simp only [leNat, List.length_cons, Nat.pow_succ]
    omega

theorem read_append (a r : Bytes) : read a.length (a ++ r) = .ok a r := by
  simp [read]

theorem read_append' {n : Nat} {a : Bytes} (r : Bytes) (h : a.length = n) :
    read n (a ++ r) = .ok a r := by subst h; exact read_append a r

theorem read_short {n : Nat} {b : Bytes} (h : b.length < n) : read n b = .fail b := by
  simp [read, Nat.not_le.mpr h]

theorem read_ok {n : Nat} {b a r : Bytes} (h : read n b = .ok a r) :
    a.length = n ∧ b = a ++ r := by
  unfold read at h
  split at h
  · injection h with h1 h2
    subst h1 h2
    constructor
    · simp; omega
    · exact (List.take_append_drop n b).symm
  · cases h

theorem decInt_append (w n : Nat) (r : Bytes) (h : n < 256 ^ w) :
    decInt w (encInt w n ++ r) = .ok n r := by
  simp [decInt, read_append' r (encInt_length w n), Res.bind, leNat_encInt w n h]

theorem decInt_short {w : Nat} {b : Bytes} (h : b.length < w) : decInt w b = .fail b := by
  simp [decInt, read_short h, Res.bind]

theorem decInt_ok {w : Nat} {b r : Bytes} {n : Nat} (h : decInt w b = .ok n r) :
    n < 256 ^ w ∧ b = encInt w n ++ r := by
  unfold decInt at h
  cases hr : read w b with
  | ok a rest =>
    rw [hr] at h
    simp only [Res.bind] at h
    injection h with h1 h2
    obtain ⟨hl, hb⟩ := read_ok hr
    subst h1 h2
    refine ⟨hl ▸ leNat_lt a, ?_⟩
    rw [← hl, encInt_leNat, hb]
  | fail _ => rw [hr] at h; cases h
  | bad => rw [hr] at h; cases h

theorem decInt_ne_bad (w : Nat) (b : Bytes) : decInt w b ≠ .bad := by
  unfold decInt read
  split <;> simp [Res.bind]

theorem Res.bind_ok {α β : Type} {x : Res α} {f : α → Bytes → Res β} {b : β} {r : Bytes}
    (h : x.bind f = .ok b r) : ∃ a r', x = .ok a r' ∧ f a r' = .ok b r := by
  cases x with
  | ok a r' => exact ⟨a, r', rfl, h⟩
  | fail _ => cases h
  | bad => cases h

theorem Res.seq_ok {α β : Type} {x : Res α} {d : Bytes → Res β} {p : α × β} {r : Bytes}
    (h : x.seq d = .ok p r) : ∃ r', x = .ok p.1 r' ∧ d r' = .ok p.2 r := by
  cases x with
  | ok a r' =>
    obtain ⟨b, r2, h1, h2⟩ := Res.bind_ok h
    injection h2 with h2 h3
    subst h2 h3
    exact ⟨r', rfl, h1⟩
  | fail r' =>
    simp only [Res.seq] at h
    cases hd : d r' <;> rw [hd] at h <;> cases h
  | bad => cases h

theorem Res.spoil_ne_ok {α β : Type} (x : Res α) (b : β) (r : Bytes) :
    (x.spoil : Res β) ≠ .ok b r := by
  cases x <;> simp [Res.spoil]

theorem decN_append {α : Type} (d : Bytes → Res α) (e : α → Bytes) (vs : List α) (r : Bytes)
    (h : ∀ v ∈ vs, ∀ r, d (e v ++ r) = .ok v r) :
    decN d vs.length (vs.flatMap e ++ r) = .ok vs r := by
  induction vs with
  | nil => rfl
  | cons v vs ih =>
    have h1 := h v (by simp) (vs.flatMap e ++ r)
    have h2 := ih (fun w hw => h w (by simp [hw]))
    simp [decN, List.flatMap_cons, List.append_assoc, h1, h2, Res.bind]

theorem decUset_append {α : Type} [DecidableEq α] (d : Bytes → Res α) (e : α → Bytes)
    (vs acc : List α) (fuel : Nat) (r : Bytes)
    (h : ∀ v ∈ vs, ∀ r, d (e v ++ r) = .ok v r) (hn : (acc ++ vs).Nodup)
    (hf : vs.length < fuel) :
    decUset d (acc.length + vs.length) fuel acc (vs.flatMap e ++ r) = .ok (acc ++ vs) r := by
  induction vs generalizing acc fuel with
  | nil =>
    cases fuel with
    | zero => simp at hf
    | succ f => simp [decUset]
  | cons v vs ih =>
    cases fuel with
    | zero => simp at hf
    | succ f =>
      have h1 := h v (by simp) (vs.flatMap e ++ r)
      have hv : v ∉ acc := by
        intro hv
        have := (List.nodup_append.mp hn).2.2 v hv v (by simp)
        exact this rfl
      have h2 := ih (acc ++ [v]) f (fun w hw => h w (by simp [hw])) (by simpa using hn)
        (by simp at hf; omega)
      simp only [List.length_append, List.length_cons, List.length_nil, Nat.zero_add] at h2
      simp only [decUset, List.length_cons, List.flatMap_cons, List.append_assoc, h1, Res.bind,
        hv, if_false]
      rw [if_pos (by omega)]
      rw [show acc.length + (vs.length + 1) = acc.length + 1 + vs.length by omega, h2]
      simp

theorem decUmap_append {κ ν : Type} [DecidableEq κ] (dk : Bytes → Res κ) (dv : Bytes → Res ν)
    (ek : κ → Bytes) (ev : ν → Bytes) (vs acc : List (κ × ν)) (fuel : Nat) (r : Bytes)
    (hk : ∀ v ∈ vs, ∀ r, dk (ek v.1 ++ r) = .ok v.1 r)
    (hv : ∀ v ∈ vs, ∀ r, dv (ev v.2 ++ r) = .ok v.2 r)
    (hn : ((acc ++ vs).map Prod.fst).Nodup) (hf : vs.length < fuel) :
    decUmap dk dv (acc.length + vs.length) fuel acc
      ((vs.flatMap fun p => ek p.1 ++ ev p.2) ++ r) = .ok (acc ++ vs) r := by
  induction vs generalizing acc fuel with
  | nil =>
    cases fuel with
    | zero => simp at hf
    | succ f => simp [decUmap]
  | cons v vs ih =>
    cases fuel with
    | zero => simp at hf
    | succ f =>
      have h1 := hk v (by simp) (ev v.2 ++ ((vs.flatMap fun p => ek p.1 ++ ev p.2) ++ r))
      have h1' := hv v (by simp) ((vs.flatMap fun p => ek p.1 ++ ev p.2) ++ r)
      have hv' : v.1 ∉ acc.map Prod.fst := by
        intro hv'
        rw [List.map_append] at hn
        exact (List.nodup_append.mp hn).2.2 v.1 hv' v.1 (by simp) rfl
      have h2 := ih (acc ++ [v]) f (fun w hw => hk w (by simp [hw]))
        (fun w hw => hv w (by simp [hw])) (by simpa using hn) (by simp at hf; omega)
      simp only [List.length_append, List.length_cons, List.length_nil, Nat.zero_add] at h2
      simp only [decUmap, List.length_cons, List.flatMap_cons, List.append_assoc, h1, h1',
        Res.bind, hv', if_false]
      rw [if_pos (by omega)]
      rw [show acc.length + (vs.length + 1) = acc.length + 1 + vs.length by omega, h2]
      simp

theorem decOset_append {α : Type} [DecidableEq α] (d : Bytes → Res α) (e : α → Bytes)
    (vs acc : List α) (r : Bytes)
    (h : ∀ v ∈ vs, ∀ r, d (e v ++ r) = .ok v r) (hn : (acc ++ vs).Nodup) :
    decOset d vs.length acc (vs.flatMap e ++ r) = .ok (acc ++ vs) r := by
  induction vs generalizing acc with
  | nil => simp [decOset]
  | cons v vs ih =>
    have h1 := h v (by simp) (vs.flatMap e ++ r)
    have hv : v ∉ acc := by
      intro hv
      exact (List.nodup_append.mp hn).2.2 v hv v (by simp) rfl
    have h2 := ih (acc ++ [v]) (fun w hw => h w (by simp [hw])) (by simpa using hn)
    simp [decOset, List.flatMap_cons, List.append_assoc, h1, Res.bind, hv, h2]

theorem pow256_8 : (256 : Nat) ^ 8 = 2 ^ 64 := by decide

theorem roundtrip (t : Ty) : ∀ (v : t.val), WF t v → ∀ r, dec t (enc t v ++ r) = .ok v r := by
  induction t with
  | unit => intro v _ r; rfl
  | int w => intro v h r; exact decInt_append w v r h
  | bool =>
    intro v _ r
    change Bool at v
    cases v <;> simp [enc, dec, decBool, read, Res.bind] <;> rfl
  | arr n =>
    intro v h r
    exact read_append' (n := n) (a := v) r h
  | buf =>
    intro v h r
    change Bytes at v
    change v.length ≤ maxBuf at h
    have hm : v.length < 256 ^ 8 := by
      rw [pow256_8]; unfold maxBuf at h; omega
    simp only [dec, enc, decBuf, List.append_assoc, decInt_append 8 _ _ hm, Res.bind]
    rw [if_neg (by omega)]
    exact read_append v r
  | opt t ih =>
    intro v h r
    change Option t.val at v
    cases v with
    | none => simp [enc, dec, decBool, read, Res.bind]
    | some v => simp [enc, dec, decBool, read, Res.bind, ih v (h v rfl) r]
  | pair a b iha ihb =>
    intro v h r
    obtain ⟨x, y⟩ := v
    simp [enc, dec, List.append_assoc, iha x h.1, ihb y h.2, Res.bind]
  | fields a b iha ihb =>
    intro v h r
    obtain ⟨x, y⟩ := v
    simp [enc, dec, List.append_assoc, iha x h.1, ihb y h.2, Res.bind, Res.seq]
    rfl
  | vec t ih =>
    intro v h r
    obtain ⟨h1, h2⟩ := h
    simp only [dec, enc, List.append_assoc, decInt_append 8 _ _ (pow256_8 ▸ h1), Res.bind]
    exact decN_append (dec t) (enc t) v r fun w hw => ih w (h2 w hw)
  | uset t ih =>
    intro v h r
    obtain ⟨h1, hn, h2⟩ := h
    simp only [dec, enc, List.append_assoc, decInt_append 8 _ _ (pow256_8 ▸ h1), Res.bind]
    have := decUset_append (dec t) (enc t) v [] ((List.flatMap (enc t) v ++ r).length +
      List.length v + 1) r (fun w hw => ih w (h2 w hw)) hn (by omega)
    rw [List.length_nil, Nat.zero_add] at this
    exact this
  | umap k w ihk ihv =>
    intro v h r
    obtain ⟨h1, hn, h2⟩ := h
    simp only [dec, enc, List.append_assoc, decInt_append 8 _ _ (pow256_8 ▸ h1), Res.bind]
    have := decUmap_append (dec k) (dec w) (enc k) (enc w) v []
      ((List.flatMap (fun p => enc k p.1 ++ enc w p.2) v ++ r).length +
      List.length v + 1) r (fun x hx => ihk x.1 (h2 x hx).1) (fun x hx => ihv x.2 (h2 x hx).2)
      hn (by omega)
    rw [List.length_nil, Nat.zero_add] at this
    exact this
  | oset t ih =>
    intro v h r
    obtain ⟨h1, hn, h2⟩ := h
    simp only [dec, enc, List.append_assoc, decInt_append 8 _ _ (pow256_8 ▸ h1), Res.bind]
    exact decOset_append (dec t) (enc t) v [] r (fun w hw => ih w (h2 w hw)) hn
  | variant n alt ih =>
    intro v h r
    obtain ⟨⟨i, hi⟩, x⟩ := v
    obtain ⟨h1, h2⟩ := h
    have hlt : i < 256 ^ 1 := by omega
    simp only [dec, enc, List.append_assoc, decInt_append 1 i _ hlt, hi, dif_pos]
    have := ih ⟨i, hi⟩ x h2 r
    simp [this, Res.bind]

/-- A decoder outcome that produces no value. -/
def Rejects {α : Type} (x : Res α) : Prop := ∀ a r, x ≠ .ok a r

theorem Rejects.bind {α β : Type} {x : Res α} (f : α → Bytes → Res β) (h : Rejects x) :
    Rejects (x.bind f) := by
  intro b r hb
  obtain ⟨a, r', hx, _⟩ := Res.bind_ok hb
  exact h a r' hx

theorem Rejects.bind_ok {α β : Type} {x : Res α} {f : α → Bytes → Res β} {a : α} {r : Bytes}
    (hx : x = .ok a r) (h : Rejects (f a r)) : Rejects (x.bind f) := by
  subst hx; exact h

theorem rejects_read {n : Nat} {b : Bytes} (h : b.length < n) : Rejects (read n b) := by
  intro a r; rw [read_short h]; simp

theorem rejects_decInt {w : Nat} {b : Bytes} (h : b.length < w) : Rejects (decInt w b) := by
  intro a r; rw [decInt_short h]; simp

/-- A strict prefix of `x ++ y` is a strict prefix of `x`, or `x` followed by a
strict prefix of `y`. -/
theorem strict_prefix_append {x y p s : Bytes} (h : x ++ y = p ++ s) (hs : s ≠ []) :
    (∃ s', x = p ++ s' ∧ s' ≠ []) ∨ ∃ p', p = x ++ p' ∧ y = p' ++ s := by
  rcases List.append_eq_append_iff.mp h with ⟨a', h1, h2⟩ | ⟨c', h1, h2⟩
  · exact .inr ⟨a', h1, h2⟩
  · by_cases hc : c' = []
    · subst hc
      simp at h1 h2
      exact .inr ⟨[], by simp [h1], by simp [h2]⟩
    · exact .inl ⟨c', h1, hc⟩

theorem length_lt_of_strict {x p s : Bytes} (h : x = p ++ s) (hs : s ≠ []) :
    p.length < x.length := by
  subst h
  have := List.length_pos_iff.mpr hs
  simp; omega

theorem decN_trunc {α : Type} (d : Bytes → Res α) (e : α → Bytes) (vs : List α) (p s : Bytes)
    (h : ∀ v ∈ vs, ∀ r, d (e v ++ r) = .ok v r)
    (ht : ∀ v ∈ vs, ∀ p s, e v = p ++ s → s ≠ [] → Rejects (d p))
    (hp : vs.flatMap e = p ++ s) (hs : s ≠ []) : Rejects (decN d vs.length p) := by
  induction vs generalizing p with
  | nil => simp at hp; exact absurd hp.2 hs
  | cons v vs ih =>
    rw [List.flatMap_cons] at hp
    simp only [List.length_cons, decN]
    rcases strict_prefix_append hp hs with ⟨s', h1, h2⟩ | ⟨p', h1, h2⟩
    · exact (ht v (by simp) p s' h1 h2).bind _
    · subst h1
      refine Rejects.bind_ok (h v (by simp) p') ?_
      exact (ih p' (fun w hw => h w (by simp [hw])) (fun w hw => ht w (by simp [hw])) h2).bind _

theorem decOset_trunc {α : Type} [DecidableEq α] (d : Bytes → Res α) (e : α → Bytes)
    (vs acc : List α) (p s : Bytes)
    (h : ∀ v ∈ vs, ∀ r, d (e v ++ r) = .ok v r)
    (ht : ∀ v ∈ vs, ∀ p s, e v = p ++ s → s ≠ [] → Rejects (d p))
    (hp : vs.flatMap e = p ++ s) (hs : s ≠ []) : Rejects (decOset d vs.length acc p) := by
  induction vs generalizing p acc with
  | nil => simp at hp; exact absurd hp.2 hs
  | cons v vs ih =>
    rw [List.flatMap_cons] at hp
    simp only [List.length_cons, decOset]
    rcases strict_prefix_append hp hs with ⟨s', h1, h2⟩ | ⟨p', h1, h2⟩
    · exact (ht v (by simp) p s' h1 h2).bind _
    · subst h1
      refine Rejects.bind_ok (h v (by simp) p') ?_
      have := fun acc => ih acc p' (fun w hw => h w (by simp [hw]))
        (fun w hw => ht w (by simp [hw])) h2
      split <;> exact this _

theorem decUset_trunc {α : Type} [DecidableEq α] (d : Bytes → Res α) (e : α → Bytes)
    (vs acc : List α) (fuel len : Nat) (p s : Bytes)
    (h : ∀ v ∈ vs, ∀ r, d (e v ++ r) = .ok v r)
    (ht : ∀ v ∈ vs, ∀ p s, e v = p ++ s → s ≠ [] → Rejects (d p))
    (hl : acc.length + vs.length ≤ len)
    (hp : vs.flatMap e = p ++ s) (hs : s ≠ []) : Rejects (decUset d len fuel acc p) := by
  induction vs generalizing p acc fuel with
  | nil => simp at hp; exact absurd hp.2 hs
  | cons v vs ih =>
    cases fuel with
    | zero => intro a r; simp [decUset]
    | succ f =>
      rw [List.flatMap_cons] at hp
      simp only [List.length_cons] at hl
      simp only [decUset]
      rw [if_pos (by omega)]
      rcases strict_prefix_append hp hs with ⟨s', h1, h2⟩ | ⟨p', h1, h2⟩
      · exact (ht v (by simp) p s' h1 h2).bind _
      · subst h1
        refine Rejects.bind_ok (h v (by simp) p') ?_
        have := fun acc hl => ih acc f p' (fun w hw => h w (by simp [hw]))
          (fun w hw => ht w (by simp [hw])) hl h2
        split
        · exact this _ (by omega)
        · exact this _ (by simp; omega)

theorem decUmap_trunc {κ ν : Type} [DecidableEq κ] (dk : Bytes → Res κ) (dv : Bytes → Res ν)
    (ek : κ → Bytes) (ev : ν → Bytes) (vs acc : List (κ × ν)) (fuel len : Nat) (p s : Bytes)
    (hk : ∀ v ∈ vs, ∀ r, dk (ek v.1 ++ r) = .ok v.1 r)
    (hv : ∀ v ∈ vs, ∀ r, dv (ev v.2 ++ r) = .ok v.2 r)
    (htk : ∀ v ∈ vs, ∀ p s, ek v.1 = p ++ s → s ≠ [] → Rejects (dk p))
    (htv : ∀ v ∈ vs, ∀ p s, ev v.2 = p ++ s → s ≠ [] → Rejects (dv p))
    (hl : acc.length + vs.length ≤ len)
    (hp : (vs.flatMap fun x => ek x.1 ++ ev x.2) = p ++ s) (hs : s ≠ []) :
    Rejects (decUmap dk dv len fuel acc p) := by
  induction vs generalizing p acc fuel with
  | nil => simp at hp; exact absurd hp.2 hs
  | cons v vs ih =>
    cases fuel with
    | zero => intro a r; simp [decUmap]
    | succ f =>
      rw [List.flatMap_cons, List.append_assoc] at hp
      simp only [List.length_cons] at hl
      simp only [decUmap]
      rw [if_pos (by omega)]
      rcases strict_prefix_append hp hs with ⟨s', h1, h2⟩ | ⟨p', h1, h2⟩
      · exact (htk v (by simp) p s' h1 h2).bind _
      · subst h1
        refine Rejects.bind_ok (hk v (by simp) p') ?_
        rcases strict_prefix_append h2 hs with ⟨s', h3, h4⟩ | ⟨p'', h3, h4⟩
        · exact (htv v (by simp) p' s' h3 h4).bind _
        · subst h3
          refine Rejects.bind_ok (hv v (by simp) p'') ?_
          have := fun acc hl => ih acc f p'' (fun w hw => hk w (by simp [hw]))
            (fun w hw => hv w (by simp [hw]))
            (fun w hw => htk w (by simp [hw])) (fun w hw => htv w (by simp [hw])) hl h4
          split
          · exact this _ (by omega)
          · exact this _ (by simp; omega)

/-- Prefix of a length-prefixed encoding: either the prefix itself is cut, or it
is complete and the body is cut. -/
theorem prefix_cases {β : Type} {n : Nat} {body p s : Bytes} {f : Nat → Bytes → Res β}
    (hn : n < 2 ^ 64) (hp : encInt 8 n ++ body = p ++ s) (hs : s ≠ [])
    (hf : ∀ p', body = p' ++ s → Rejects (f n p')) : Rejects ((decInt 8 p).bind f) := by
  rcases strict_prefix_append hp hs with ⟨s', h1, h2⟩ | ⟨p', h1, h2⟩
  · have := length_lt_of_strict h1 h2
    rw [encInt_length] at this
    exact (rejects_decInt this).bind _
  · subst h1
    exact Rejects.bind_ok (decInt_append 8 n p' (pow256_8 ▸ hn)) (hf p' h2)

theorem truncated (t : Ty) : ∀ (v : t.val), WF t v → ∀ p s, enc t v = p ++ s → s ≠ [] →
    Rejects (dec t p) := by
  induction t with
  | unit => intro v _ p s hp hs; simp [enc] at hp; exact absurd hp.2 hs
  | int w =>
    intro v h p s hp hs
    have := length_lt_of_strict hp hs
    exact rejects_decInt (Nat.lt_of_lt_of_eq this (encInt_length w v))
  | bool =>
    intro v _ p s hp hs
    change Bool at v
    have := length_lt_of_strict hp hs
    have hl : p.length < 1 := by cases v <;> simpa [enc] using this
    exact (rejects_read hl).bind _
  | arr n =>
    intro v h p s hp hs
    change Bytes at v
    change v.length = n at h
    have := length_lt_of_strict hp hs
    simp only [enc, h] at this
    exact rejects_read this
  | buf =>
    intro v h p s hp hs
    change Bytes at v
    change v.length ≤ maxBuf at h
    have hm : v.length < 2 ^ 64 := by unfold maxBuf at h; omega
    refine prefix_cases hm hp hs fun p' hp' => ?_
    rw [if_neg (by omega)]
    exact rejects_read (length_lt_of_strict hp' hs)
  | opt t ih =>
    intro v h p s hp hs
    change Option t.val at v
    cases v with
    | none =>
      have := length_lt_of_strict hp hs
      have hl : p.length < 1 := by simpa [enc] using this
      exact (Rejects.bind _ (rejects_read hl)).bind _
    | some v =>
      cases p with
      | nil => exact (Rejects.bind _ (rejects_read (by simp))).bind _
      | cons b p =>
        simp only [enc, List.cons_append] at hp
        injection hp with hb hp
        subst hb
        have := ih v (h v rfl) p s hp hs
        refine Rejects.bind_ok (a := true) (r := p) (by simp [decBool, read, Res.bind]) ?_
        exact this.bind _
  | pair a b iha ihb =>
    intro v h p s hp hs
    obtain ⟨x, y⟩ := v
    rcases strict_prefix_append hp hs with ⟨s', h1, h2⟩ | ⟨p', h1, h2⟩
    · exact (iha x h.1 p s' h1 h2).bind _
    · subst h1
      exact Rejects.bind_ok (roundtrip a x h.1 p') ((ihb y h.2 p' s h2 hs).bind _)
  | fields a b iha ihb =>
    intro v h p s hp hs
    obtain ⟨x, y⟩ := v
    intro z r hz
    obtain ⟨r', hz1, hz2⟩ := Res.seq_ok hz
    rcases strict_prefix_append hp hs with ⟨s', h1, h2⟩ | ⟨p', h1, h2⟩
    · exact iha x h.1 p s' h1 h2 _ _ hz1
    · subst h1
      have := roundtrip a x h.1 p'
      rw [this] at hz1
      injection hz1 with _ h4
      subst h4
      exact ihb y h.2 p' s h2 hs _ _ hz2
  | vec t ih =>
    intro v h p s hp hs
    obtain ⟨h1, h2⟩ := h
    refine prefix_cases h1 hp hs fun p' hp' => ?_
    exact decN_trunc (dec t) (enc t) v p' s (fun w hw => roundtrip t w (h2 w hw))
      (fun w hw => ih w (h2 w hw)) hp' hs
  | uset t ih =>
    intro v h p s hp hs
    obtain ⟨h1, hn, h2⟩ := h
    refine prefix_cases h1 hp hs fun p' hp' => ?_
    exact decUset_trunc (dec t) (enc t) v [] _ _ p' s (fun w hw => roundtrip t w (h2 w hw))
      (fun w hw => ih w (h2 w hw)) (by simp) hp' hs
  | umap k w ihk ihv =>
    intro v h p s hp hs
    obtain ⟨h1, hn, h2⟩ := h
    refine prefix_cases h1 hp hs fun p' hp' => ?_
    exact decUmap_trunc (dec k) (dec w) (enc k) (enc w) v [] _ _ p' s
      (fun x hx => roundtrip k x.1 (h2 x hx).1) (fun x hx => roundtrip w x.2 (h2 x hx).2)
      (fun x hx => ihk x.1 (h2 x hx).1) (fun x hx => ihv x.2 (h2 x hx).2) (by simp) hp' hs
  | oset t ih =>
    intro v h p s hp hs
    obtain ⟨h1, hn, h2⟩ := h
    refine prefix_cases h1 hp hs fun p' hp' => ?_
    exact decOset_trunc (dec t) (enc t) v [] p' s (fun w hw => roundtrip t w (h2 w hw))
      (fun w hw => ih w (h2 w hw)) hp' hs
  | variant n alt ih =>
    intro v h p s hp hs
    obtain ⟨⟨i, hi⟩, x⟩ := v
    obtain ⟨h1, h2⟩ := h
    have hlt : i < 256 ^ 1 := by omega
    intro z r hz
    simp only [dec] at hz
    rcases strict_prefix_append hp hs with ⟨s', h3, h4⟩ | ⟨p', h3, h4⟩
    · have := length_lt_of_strict h3 h4
      rw [encInt_length] at this
      rw [decInt_short this] at hz
      split at hz
      · cases ‹Res.fail p = _›
      · cases ‹Res.fail p = _›
        split at hz
        · exact Res.spoil_ne_ok _ _ _ hz
        · cases hz
      · cases hz
    · subst h3
      rw [decInt_append 1 i p' hlt] at hz
      simp only [hi, dif_pos] at hz
      exact (ih ⟨i, hi⟩ x h2 p' s h4 hs).bind _ _ _ hz

end Verif.Serial
