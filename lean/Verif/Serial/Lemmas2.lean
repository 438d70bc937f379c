import Verif.Serial.Lemmas
import Verif.Serial.Spec

/-! Helper lemmas about arbitrary byte strings offered to the decoders. -/
namespace Verif.Serial

theorem decN_ok {α : Type} {d : Bytes → Res α} {e : α → Bytes} {P : α → Prop} {n : Nat}
    {b r : Bytes} {vs : List α}
    (hd : ∀ b v r, d b = .ok v r → P v ∧ b = e v ++ r)
    (h : decN d n b = .ok vs r) :
    vs.length = n ∧ (∀ v ∈ vs, P v) ∧ b = vs.flatMap e ++ r := by
  induction n generalizing b vs with
  | zero => simp only [decN] at h; injection h with h1 h2; subst h1 h2; simp
  | succ n ih =>
    simp only [decN] at h
    obtain ⟨a, r1, h1, h2⟩ := Res.bind_ok h
    obtain ⟨as, r2, h3, h4⟩ := Res.bind_ok h2
    injection h4 with h4 h5
    subst h4 h5
    obtain ⟨i1, i2, i3⟩ := ih h3
    obtain ⟨j1, j2⟩ := hd _ _ _ h1
    refine ⟨by simp [i1], ?_, ?_⟩
    · intro v hv
      rcases List.mem_cons.mp hv with rfl | hv
      · exact j1
      · exact i2 v hv
    · rw [j2, i3]; simp

theorem decN_length {α : Type} {d : Bytes → Res α} {n : Nat} {b r : Bytes} {vs : List α}
    (h : decN d n b = .ok vs r) : vs.length = n := by
  induction n generalizing b vs with
  | zero => simp only [decN] at h; injection h with h1 h2; subst h1; rfl
  | succ n ih =>
    simp only [decN] at h
    obtain ⟨a, r1, h1, h2⟩ := Res.bind_ok h
    obtain ⟨as, r2, h3, h4⟩ := Res.bind_ok h2
    injection h4 with h4 h5
    subst h4 h5
    simp [ih h3]

/-- Well-formedness of a concrete value can be computed (used in examples). -/
instance decWF : (t : Ty) → (v : t.val) → Decidable (WF t v)
  | .unit, _ => .isTrue trivial
  | .int w, v => Nat.decLt v (256 ^ w)
  | .bool, _ => .isTrue trivial
  | .arr n, v => Nat.decEq (List.length v) n
  | .buf, v => Nat.decLe (List.length v) maxBuf
  | .opt _, none => .isTrue (fun _ h => nomatch h)
  | .opt t, some v =>
    match decWF t v with
    | .isTrue h => .isTrue (fun w hw => by injection hw with hw; exact hw ▸ h)
    | .isFalse h => .isFalse (fun hw => h (hw v rfl))
  | .pair a b, (x, y) =>
    have := decWF a x; have := decWF b y; inferInstanceAs (Decidable (WF a x ∧ WF b y))
  | .fields a b, (x, y) =>
    have := decWF a x; have := decWF b y; inferInstanceAs (Decidable (WF a x ∧ WF b y))
  | .vec t, vs =>
    have := fun v => decWF t v
    inferInstanceAs (Decidable (List.length vs < 2 ^ 64 ∧ ∀ v ∈ (show List t.val from vs), WF t v))
  | .uset t, vs =>
    have := fun v => decWF t v
    inferInstanceAs (Decidable (List.length vs < 2 ^ 64 ∧ (show List t.val from vs).Nodup ∧
      ∀ v ∈ (show List t.val from vs), WF t v))
  | .umap k w, vs =>
    have := fun v => decWF k v; have := fun v => decWF w v
    inferInstanceAs (Decidable (List.length vs < 2 ^ 64 ∧
      ((show List (k.val × w.val) from vs).map Prod.fst).Nodup ∧
      ∀ p ∈ (show List (k.val × w.val) from vs), WF k p.1 ∧ WF w p.2))
  | .oset t, vs =>
    have := fun v => decWF t v
    inferInstanceAs (Decidable (List.length vs < 2 ^ 64 ∧ (show List t.val from vs).Nodup ∧
      ∀ v ∈ (show List t.val from vs), WF t v))
  | .variant n alt, ⟨i, v⟩ =>
    have := decWF (alt i) v; inferInstanceAs (Decidable (n < 255 ∧ WF (alt i) v))

theorem wf_of_decide (t : Ty) (v : t.val) (h : @decide (WF t v) (decWF t v) = true) : WF t v :=
  of_decide_eq_true h

theorem decBool_ok {b r : Bytes} {v : Bool} (h : decBool b = .ok v r) :
    b = (if v then 1 else 0) :: r := by
  unfold decBool at h
  obtain ⟨a, r1, h1, h2⟩ := Res.bind_ok h
  obtain ⟨hl, hb⟩ := read_ok h1
  split at h2
  · injection h2 with h2 h3; subst h2 h3; simpa using hb
  · injection h2 with h2 h3; subst h2 h3; simpa using hb
  · cases h2

theorem decBuf_ok {b r v : Bytes} (h : decBuf b = .ok v r) :
    v.length ≤ maxBuf ∧ b = encInt 8 v.length ++ v ++ r := by
  unfold decBuf at h
  obtain ⟨n, r1, h1, h2⟩ := Res.bind_ok h
  split at h2
  · cases h2
  · obtain ⟨hn, hb⟩ := decInt_ok h1
    obtain ⟨hl, hb2⟩ := read_ok h2
    subst hl
    refine ⟨by omega, ?_⟩
    rw [hb, hb2, List.append_assoc]

theorem read_shrinks {n : Nat} {b v r : Bytes} (h : read n b = .ok v r) :
    b.length = n + r.length := by
  obtain ⟨h1, h2⟩ := read_ok h
  rw [h2, List.length_append, h1]

theorem decBuf_shrinks {b r v : Bytes} (h : decBuf b = .ok v r) :
    b.length = 8 + v.length + r.length := by
  rw [(decBuf_ok h).2]
  simp [encInt_length]
  omega

theorem decVariant_ok {n : Nat} {alt : Fin n → Ty} {b r : Bytes}
    {v : (i : Fin n) × (alt i).val} (h : dec (.variant n alt) b = .ok v r) :
    ∃ r', b = encInt 1 v.1.val ++ r' ∧ dec (alt v.1) r' = .ok v.2 r := by
  simp only [dec] at h
  split at h
  · rename_i i r1 hi
    split at h
    · rename_i hlt
      obtain ⟨x, r2, h1, h2⟩ := Res.bind_ok h
      injection h2 with h2 h3
      subst h2 h3
      exact ⟨r1, (decInt_ok hi).2, h1⟩
    · cases h
  · split at h
    · exact absurd h (Res.spoil_ne_ok _ _ _)
    · cases h
  · cases h

theorem dec_ordered (t : Ty) (ho : Ordered t) : ∀ b (v : t.val) r, dec t b = .ok v r →
    WF t v ∧ b = enc t v ++ r := by
  induction t with
  | unit =>
    intro b v r h
    simp only [dec] at h
    injection h with h1 h2
    exact ⟨trivial, by simp [enc, h2]⟩
  | int w => intro b v r h; exact decInt_ok h
  | bool =>
    intro b v r h
    change Bool at v
    refine ⟨trivial, ?_⟩
    have := decBool_ok h
    cases v <;> simpa [enc] using this
  | arr n =>
    intro b v r h
    exact read_ok (show read n b = .ok v r from h)
  | buf => intro b v r h; exact decBuf_ok h
  | opt t ih =>
    intro b v r h
    change Option t.val at v
    obtain ⟨hv, r1, h1, h2⟩ := Res.bind_ok h
    have hb := decBool_ok h1
    split at h2
    · rename_i hv'
      obtain ⟨x, r2, h3, h4⟩ := Res.bind_ok h2
      injection h4 with h4 h5
      subst h5
      obtain ⟨i1, i2⟩ := ih ho _ _ _ h3
      cases h4
      refine ⟨show ∀ w, some x = some w → WF t w from fun w hw => ?_, ?_⟩
      · injection hw with hw; exact hw ▸ i1
      · rw [hb, hv']; simp [enc, i2]
    · rename_i hv'
      injection h2 with h2 h3
      cases h2
      subst h3
      refine ⟨show ∀ w, none = some w → WF t w from nofun, ?_⟩
      rw [hb]; simp [enc, hv']
  | pair a b iha ihb =>
    intro bs v r h
    obtain ⟨x, r1, h1, h2⟩ := Res.bind_ok h
    obtain ⟨y, r2, h3, h4⟩ := Res.bind_ok h2
    injection h4 with h4 h5
    cases h4
    subst h5
    obtain ⟨i1, i2⟩ := iha ho.1 _ _ _ h1
    obtain ⟨j1, j2⟩ := ihb ho.2 _ _ _ h3
    exact ⟨⟨i1, j1⟩, by rw [i2, j2]; simp [enc]⟩
  | fields a b iha ihb =>
    intro bs v r h
    obtain ⟨r1, h1, h2⟩ := Res.seq_ok h
    obtain ⟨i1, i2⟩ := iha ho.1 _ _ _ h1
    obtain ⟨j1, j2⟩ := ihb ho.2 _ _ _ h2
    exact ⟨⟨i1, j1⟩, by rw [i2, j2]; simp [enc]⟩
  | vec t ih =>
    intro b v r h
    obtain ⟨n, r1, h1, h2⟩ := Res.bind_ok h
    obtain ⟨hn, hb⟩ := decInt_ok h1
    obtain ⟨i1, i2, i3⟩ := decN_ok (ih ho) h2
    subst i1
    exact ⟨⟨by rw [← pow256_8]; exact hn, i2⟩, by rw [hb, i3]; simp [enc]⟩
  | uset t ih => exact ho.elim
  | umap k v ihk ihv => exact ho.elim
  | oset t ih => exact ho.elim
  | variant n alt ih =>
    intro b v r h
    obtain ⟨r', hb, hv⟩ := decVariant_ok h
    obtain ⟨i1, i2⟩ := ih v.1 (ho.2 v.1) _ _ _ hv
    exact ⟨⟨ho.1, i1⟩, by rw [hb, i2]; simp [enc]⟩

/-- What the `unordered_set` loop has read when it succeeds. -/
theorem decUset_ok {α : Type} [DecidableEq α] {d : Bytes → Res α} {len fuel : Nat}
    {acc vs : List α} {b r : Bytes} (hacc : acc.Nodup) (hlen : acc.length ≤ len)
    (h : decUset d len fuel acc b = .ok vs r) :
    ∃ ws, decN d ws.length b = .ok ws r ∧ vs.Nodup ∧ vs.length = len ∧
      len ≤ acc.length + ws.length ∧ ∀ x, x ∈ vs ↔ x ∈ acc ∨ x ∈ ws := by
  induction fuel generalizing acc b with
  | zero => cases h
  | succ f ih =>
    simp only [decUset] at h
    split at h
    · rename_i hlt
      obtain ⟨a, r1, h1, h2⟩ := Res.bind_ok h
      split at h2
      · rename_i ha
        obtain ⟨ws, j1, j2, j3, j4, j5⟩ := ih hacc hlen h2
        refine ⟨a :: ws, by simp [decN, h1, j1, Res.bind], j2, j3, by simp; omega, fun x => ?_⟩
        rw [j5]
        simp only [List.mem_cons]
        constructor
        · rintro (h | h)
          · exact .inl h
          · exact .inr (.inr h)
        · rintro (h | rfl | h)
          · exact .inl h
          · exact .inl ha
          · exact .inr h
      · rename_i ha
        have hn : (acc ++ [a]).Nodup := by
          rw [List.nodup_append]
          refine ⟨hacc, by simp, ?_⟩
          intro x hx y hy
          simp at hy
          subst hy
          rintro rfl
          exact ha hx
        obtain ⟨ws, j1, j2, j3, j4, j5⟩ := ih hn (by simp; omega) h2
        refine ⟨a :: ws, by simp [decN, h1, j1, Res.bind], j2, j3, by simp at j4 ⊢; omega,
          fun x => ?_⟩
        rw [j5]
        simp [or_assoc]
    · injection h with h1 h2
      subst h1 h2
      exact ⟨[], by simp [decN], hacc, by omega, by simp; omega, by simp⟩

theorem decUset_eq_decN {α : Type} [DecidableEq α] {d : Bytes → Res α} {fuel : Nat}
    {acc ws : List α} {b r : Bytes} (hn : (acc ++ ws).Nodup) (hf : ws.length < fuel)
    (h : decN d ws.length b = .ok ws r) :
    decUset d (acc.length + ws.length) fuel acc b = .ok (acc ++ ws) r := by
  induction ws generalizing acc b fuel with
  | nil =>
    cases fuel with
    | zero => simp at hf
    | succ f => simp only [decN, List.length_nil] at h; injection h with _ h; simp [decUset, h]
  | cons w ws ih =>
    cases fuel with
    | zero => simp at hf
    | succ f =>
      simp only [List.length_cons, decN] at h
      obtain ⟨a, r1, h1, h2⟩ := Res.bind_ok h
      obtain ⟨as, r2, h3, h4⟩ := Res.bind_ok h2
      injection h4 with h4 h5
      injection h4 with h4 h6
      subst h4 h5 h6
      have ha : a ∉ acc := fun ha => (List.nodup_append.mp hn).2.2 a ha a (by simp) rfl
      have := ih (acc := acc ++ [a]) (fuel := f) (by simpa using hn)
        (by simp at hf; omega) h3
      simp only [List.length_append, List.length_cons, List.length_nil, Nat.zero_add] at this
      simp only [decUset, List.length_cons, h1, Res.bind, ha, if_false]
      rw [if_pos (by omega),
        show acc.length + (as.length + 1) = acc.length + 1 + as.length by omega, this]
      simp

/-- One key followed by one value. -/
def decKV {κ ν : Type} (dk : Bytes → Res κ) (dv : Bytes → Res ν) (b : Bytes) : Res (κ × ν) :=
  (dk b).bind fun k r => (dv r).bind fun v r' => .ok (k, v) r'

theorem decKV_eq {κ ν : Type} {dk : Bytes → Res κ} {dv : Bytes → Res ν} {b r r' : Bytes}
    {k : κ} {v : ν} (h1 : dk b = .ok k r) (h2 : dv r = .ok v r') :
    decKV dk dv b = .ok (k, v) r' := by simp [decKV, h1, h2, Res.bind]

/-- What the `unordered_map` loop has read when it succeeds. -/
theorem decUmap_ok {κ ν : Type} [DecidableEq κ] {dk : Bytes → Res κ} {dv : Bytes → Res ν}
    {len fuel : Nat} {acc vs : List (κ × ν)} {b r : Bytes}
    (hacc : (acc.map Prod.fst).Nodup) (hlen : acc.length ≤ len)
    (h : decUmap dk dv len fuel acc b = .ok vs r) :
    ∃ ws, decN (decKV dk dv) ws.length b = .ok ws r ∧ (vs.map Prod.fst).Nodup ∧ vs.length = len ∧
      len ≤ acc.length + ws.length ∧ (∀ x ∈ vs, x ∈ acc ∨ x ∈ ws) ∧
      ∀ k, k ∈ vs.map Prod.fst ↔ k ∈ acc.map Prod.fst ∨ k ∈ ws.map Prod.fst := by
  induction fuel generalizing acc b with
  | zero => cases h
  | succ f ih =>
    simp only [decUmap] at h
    split at h
    · rename_i hlt
      obtain ⟨k, r1, h1, h2⟩ := Res.bind_ok h
      obtain ⟨v, r2, h3, h4⟩ := Res.bind_ok h2
      split at h4
      · rename_i ha
        obtain ⟨ws, j1, j2, j3, j4, j5, j6⟩ := ih hacc hlen h4
        refine ⟨(k, v) :: ws, by simp [decN, decKV_eq h1 h3, j1, Res.bind], j2, j3, by simp; omega,
          fun x hx => ?_, fun x => ?_⟩
        · rcases j5 x hx with h | h
          · exact .inl h
          · exact .inr (List.mem_cons_of_mem _ h)
        · rw [j6]
          simp only [List.map_cons, List.mem_cons]
          constructor
          · rintro (h | h)
            · exact .inl h
            · exact .inr (.inr h)
          · rintro (h | rfl | h)
            · exact .inl h
            · exact .inl ha
            · exact .inr h
      · rename_i ha
        have hn : ((acc ++ [(k, v)]).map Prod.fst).Nodup := by
          rw [List.map_append, List.nodup_append]
          refine ⟨hacc, by simp, ?_⟩
          intro x hx y hy
          simp at hy
          subst hy
          rintro rfl
          exact ha hx
        obtain ⟨ws, j1, j2, j3, j4, j5, j6⟩ := ih hn (by simp; omega) h4
        refine ⟨(k, v) :: ws, by simp [decN, decKV_eq h1 h3, j1, Res.bind], j2, j3,
          by simp at j4 ⊢; omega, fun x hx => ?_, fun x => ?_⟩
        · rcases j5 x hx with h | h
          · rcases List.mem_append.mp h with h | h
            · exact .inl h
            · exact .inr (List.mem_cons.mpr (.inl (by simpa using h)))
          · exact .inr (List.mem_cons_of_mem _ h)
        · rw [j6]
          simp [or_assoc]
    · injection h with h1 h2
      subst h1 h2
      exact ⟨[], by simp [decN], hacc, by omega, by simp; omega, by simp, by simp⟩

theorem decUmap_eq_decN {κ ν : Type} [DecidableEq κ] {dk : Bytes → Res κ} {dv : Bytes → Res ν}
    {fuel : Nat} {acc ws : List (κ × ν)} {b r : Bytes}
    (hn : ((acc ++ ws).map Prod.fst).Nodup) (hf : ws.length < fuel)
    (h : decN (decKV dk dv) ws.length b = .ok ws r) :
    decUmap dk dv (acc.length + ws.length) fuel acc b = .ok (acc ++ ws) r := by
  induction ws generalizing acc b fuel with
  | nil =>
    cases fuel with
    | zero => simp at hf
    | succ f => simp only [decN, List.length_nil] at h; injection h with _ h; simp [decUmap, h]
  | cons w ws ih =>
    cases fuel with
    | zero => simp at hf
    | succ f =>
      simp only [List.length_cons, decN] at h
      obtain ⟨a, r1, h1, h2⟩ := Res.bind_ok h
      obtain ⟨k, r0, h7, h8⟩ := Res.bind_ok h1
      obtain ⟨v, r0', h9, h10⟩ := Res.bind_ok h8
      obtain ⟨as, r2, h3, h4⟩ := Res.bind_ok h2
      injection h10 with h10 h11
      injection h4 with h4 h5
      injection h4 with h4 h6
      subst h10 h4 h5 h6 h11
      have ha : k ∉ acc.map Prod.fst := fun ha => by
        rw [List.map_append] at hn
        exact (List.nodup_append.mp hn).2.2 k ha k (by simp) rfl
      have := ih (acc := acc ++ [(k, v)]) (fuel := f) (by simpa using hn)
        (by simp at hf; omega) h3
      simp only [List.length_append, List.length_cons, List.length_nil, Nat.zero_add] at this
      simp only [decUmap, List.length_cons, h7, h9, Res.bind, ha, if_false]
      rw [if_pos (by omega),
        show acc.length + (as.length + 1) = acc.length + 1 + as.length by omega, this]
      simp

/-- A decoder never puts bytes back. -/
theorem decN_shrinks {α : Type} {d : Bytes → Res α}
    (hd : ∀ b v r, d b = .ok v r → r.length ≤ b.length) (n : Nat) :
    ∀ b v r, decN d n b = .ok v r → r.length ≤ b.length := by
  induction n with
  | zero => intro b v r h; simp only [decN] at h; injection h with _ h; simp [h]
  | succ n ih =>
    intro b v r h
    simp only [decN] at h
    obtain ⟨a, r1, h1, h2⟩ := Res.bind_ok h
    obtain ⟨as, r2, h3, h4⟩ := Res.bind_ok h2
    injection h4 with _ h4
    subst h4
    exact Nat.le_trans (ih _ _ _ h3) (hd _ _ _ h1)

theorem decOset_shrinks {α : Type} [DecidableEq α] {d : Bytes → Res α}
    (hd : ∀ b v r, d b = .ok v r → r.length ≤ b.length) (n : Nat) :
    ∀ acc b v r, decOset d n acc b = .ok v r → r.length ≤ b.length := by
  induction n with
  | zero => intro acc b v r h; simp only [decOset] at h; injection h with _ h; simp [h]
  | succ n ih =>
    intro acc b v r h
    simp only [decOset] at h
    obtain ⟨a, r1, h1, h2⟩ := Res.bind_ok h
    have : r.length ≤ r1.length := by split at h2 <;> exact ih _ _ _ _ h2
    exact Nat.le_trans this (hd _ _ _ h1)

theorem decInt_shrinks {w : Nat} {b r : Bytes} {n : Nat} (h : decInt w b = .ok n r) :
    b.length = w + r.length := by
  have := (decInt_ok h).2
  rw [this]; simp [encInt_length]

theorem dec_shrinks (t : Ty) : ∀ b (v : t.val) r, dec t b = .ok v r →
    r.length ≤ b.length ∧ (Sized t → r.length < b.length) := by
  induction t with
  | unit =>
    intro b v r h
    simp only [dec] at h
    injection h with h1 h2
    subst h2
    exact ⟨Nat.le_refl _, fun h => h.elim⟩
  | int w =>
    intro b v r h
    have := decInt_shrinks (show decInt w b = .ok v r from h)
    exact ⟨by omega, fun h => by simp only [Sized] at h; omega⟩
  | bool =>
    intro b v r h
    have := decBool_ok (show decBool b = .ok v r from h)
    subst this
    simp
  | arr n =>
    intro b v r h
    have := read_shrinks (show read n b = .ok v r from h)
    exact ⟨by omega, fun h => by simp only [Sized] at h; omega⟩
  | buf =>
    intro b v r h
    have := decBuf_shrinks (show decBuf b = .ok v r from h)
    exact ⟨by omega, fun _ => by omega⟩
  | opt t ih =>
    intro b v r h
    obtain ⟨hv, r1, h1, h2⟩ := Res.bind_ok h
    have hb := decBool_ok h1
    have : r.length ≤ r1.length := by
      split at h2
      · obtain ⟨x, r2, h3, h4⟩ := Res.bind_ok h2
        injection h4 with _ h4
        subst h4
        exact (ih _ _ _ h3).1
      · injection h2 with _ h2
        simp [h2]
    subst hb
    simp
    omega
  | pair a b iha ihb =>
    intro bs v r h
    obtain ⟨x, r1, h1, h2⟩ := Res.bind_ok h
    obtain ⟨y, r2, h3, h4⟩ := Res.bind_ok h2
    injection h4 with _ h4
    subst h4
    obtain ⟨i1, i2⟩ := iha _ _ _ h1
    obtain ⟨j1, j2⟩ := ihb _ _ _ h3
    refine ⟨by omega, ?_⟩
    rintro (h | h)
    · have := i2 h; omega
    · have := j2 h; omega
  | fields a b iha ihb =>
    intro bs v r h
    obtain ⟨r1, h1, h2⟩ := Res.seq_ok h
    obtain ⟨i1, i2⟩ := iha _ _ _ h1
    obtain ⟨j1, j2⟩ := ihb _ _ _ h2
    refine ⟨by omega, ?_⟩
    rintro (h | h)
    · have := i2 h; omega
    · have := j2 h; omega
  | vec t ih =>
    intro b v r h
    obtain ⟨n, r1, h1, h2⟩ := Res.bind_ok h
    have := decInt_shrinks h1
    have := decN_shrinks (fun b v r h => (ih b v r h).1) n _ _ _ h2
    exact ⟨by omega, fun _ => by omega⟩
  | uset t ih =>
    intro b v r h
    obtain ⟨n, r1, h1, h2⟩ := Res.bind_ok h
    have := decInt_shrinks h1
    obtain ⟨ws, hw, _⟩ := decUset_ok List.nodup_nil (by simp) h2
    have := decN_shrinks (fun b v r h => (ih b v r h).1) _ _ _ _ hw
    exact ⟨by omega, fun _ => by omega⟩
  | umap k w ihk ihv =>
    intro b v r h
    obtain ⟨n, r1, h1, h2⟩ := Res.bind_ok h
    have := decInt_shrinks h1
    obtain ⟨ws, hw, _⟩ := decUmap_ok (by simp) (by simp) h2
    have := decN_shrinks (fun b v r h => by
      obtain ⟨x, r1, h1, h2⟩ := Res.bind_ok h
      obtain ⟨y, r2, h3, h4⟩ := Res.bind_ok h2
      injection h4 with _ h4
      subst h4
      exact Nat.le_trans (ihv _ _ _ h3).1 (ihk _ _ _ h1).1) _ _ _ _ hw
    exact ⟨by omega, fun _ => by omega⟩
  | oset t ih =>
    intro b v r h
    obtain ⟨n, r1, h1, h2⟩ := Res.bind_ok h
    have := decInt_shrinks h1
    have := decOset_shrinks (fun b v r h => (ih b v r h).1) n _ _ _ _ h2
    exact ⟨by omega, fun _ => by omega⟩
  | variant n alt ih =>
    intro b v r h
    obtain ⟨r', hb, hv⟩ := decVariant_ok h
    have := (ih v.1 _ _ _ hv).1
    have hl : b.length = 1 + r'.length := by rw [hb]; simp [encInt_length]
    exact ⟨by omega, fun _ => by omega⟩

theorem Res.bind_ne_bad {α β : Type} {x : Res α} {f : α → Bytes → Res β} (hx : x ≠ .bad)
    (hf : ∀ a r, x = .ok a r → f a r ≠ .bad) : x.bind f ≠ .bad := by
  cases x with
  | ok a r => exact hf a r rfl
  | fail _ => simp [Res.bind]
  | bad => exact absurd rfl hx

theorem Res.seq_ne_bad {α β : Type} {x : Res α} {d : Bytes → Res β} (hx : x ≠ .bad)
    (hd : ∀ b, d b ≠ .bad) : x.seq d ≠ .bad := by
  cases x with
  | ok a r => exact Res.bind_ne_bad (hd r) (by simp)
  | fail r =>
    have := hd r
    simp only [Res.seq]
    cases h : d r <;> simp_all [Res.spoil]
  | bad => exact absurd rfl hx

theorem decN_ne_bad {α : Type} {d : Bytes → Res α} (hd : ∀ b, d b ≠ .bad) (n : Nat) :
    ∀ b, decN d n b ≠ .bad := by
  induction n with
  | zero => intro b; simp [decN]
  | succ n ih =>
    intro b
    exact Res.bind_ne_bad (hd b) fun a r _ => Res.bind_ne_bad (ih r) (by simp)

theorem decOset_ne_bad {α : Type} [DecidableEq α] {d : Bytes → Res α} (hd : ∀ b, d b ≠ .bad)
    (n : Nat) : ∀ acc b, decOset d n acc b ≠ .bad := by
  induction n with
  | zero => intro acc b; simp [decOset]
  | succ n ih =>
    intro acc b
    exact Res.bind_ne_bad (hd b) fun a r _ => by split <;> exact ih _ _

theorem decUset_ne_bad {α : Type} [DecidableEq α] {d : Bytes → Res α} (hd : ∀ b, d b ≠ .bad)
    (hs : ∀ b v r, d b = .ok v r → r.length < b.length) (len fuel : Nat) :
    ∀ acc b, b.length < fuel → decUset d len fuel acc b ≠ .bad := by
  induction fuel with
  | zero => intro acc b h; omega
  | succ f ih =>
    intro acc b h
    simp only [decUset]
    split
    · refine Res.bind_ne_bad (hd b) fun a r hr => ?_
      have := hs _ _ _ hr
      split <;> exact ih _ _ (by omega)
    · simp

theorem decUmap_ne_bad {κ ν : Type} [DecidableEq κ] {dk : Bytes → Res κ} {dv : Bytes → Res ν}
    (hk : ∀ b, dk b ≠ .bad) (hv : ∀ b, dv b ≠ .bad)
    (hs : ∀ b k r v r', dk b = .ok k r → dv r = .ok v r' → r'.length < b.length)
    (len fuel : Nat) :
    ∀ acc b, b.length < fuel → decUmap dk dv len fuel acc b ≠ .bad := by
  induction fuel with
  | zero => intro acc b h; omega
  | succ f ih =>
    intro acc b h
    simp only [decUmap]
    split
    · refine Res.bind_ne_bad (hk b) fun a r hr => Res.bind_ne_bad (hv r) fun v r' hr' => ?_
      have := hs _ _ _ _ _ hr hr'
      split <;> exact ih _ _ (by omega)
    · simp

theorem dec_plain (t : Ty) (hp : Plain t) : ∀ b, dec t b ≠ .bad := by
  induction t with
  | unit => intro b; simp [dec]
  | int w => intro b; exact decInt_ne_bad w b
  | bool => exact hp.elim
  | arr n =>
    intro b h
    change read n b = .bad at h
    unfold read at h
    split at h <;> cases h
  | buf => exact hp.elim
  | opt t ih => exact hp.elim
  | pair a b iha ihb =>
    intro bs
    exact Res.bind_ne_bad (iha hp.1 bs) fun x r _ => Res.bind_ne_bad (ihb hp.2 r) (by simp)
  | fields a b iha ihb => intro bs; exact Res.seq_ne_bad (iha hp.1 bs) (ihb hp.2)
  | vec t ih =>
    intro b
    exact Res.bind_ne_bad (decInt_ne_bad 8 b) fun n r _ => decN_ne_bad (ih hp) n r
  | uset t ih =>
    intro b
    exact Res.bind_ne_bad (decInt_ne_bad 8 b) fun n r _ =>
      decUset_ne_bad (ih hp.1) (fun b v r h => (dec_shrinks t b v r h).2 hp.2) _ _ _ _
        (by omega)
  | umap k v ihk ihv =>
    intro b
    refine Res.bind_ne_bad (decInt_ne_bad 8 b) fun n r _ =>
      decUmap_ne_bad (ihk hp.1) (ihv hp.2.1) (fun b x r y r' h1 h2 => ?_) _ _ _ _ (by omega)
    obtain ⟨i1, i2⟩ := dec_shrinks k _ _ _ h1
    obtain ⟨j1, j2⟩ := dec_shrinks v _ _ _ h2
    rcases hp.2.2 with h | h
    · have := i2 h; omega
    · have := j2 h; omega
  | oset t ih =>
    intro b
    exact Res.bind_ne_bad (decInt_ne_bad 8 b) fun n r _ => decOset_ne_bad (ih hp) n _ r
  | variant n alt ih => exact hp.elim

end Verif.Serial
