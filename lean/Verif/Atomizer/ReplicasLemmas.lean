import Verif.Atomizer.ReplicasSpec
import Verif.Config.FileLemmas
import Verif.Config.FileAll

/-! Helper lemmas for C122. -/
namespace Verif.Atomizer.Replicas

open Verif.Serial hiding dec
open Verif.Evm (Outcome)
open Verif.Hex (Text)
open Verif.Http (lit stoull)
open Verif.Config (dec dec_inj dec_digits stoull_dec)
open Verif.LockingShard.Cluster (single single_snoc single_length single_none Machine.commit)

/-! ### The single atomizer -/

theorem alone_uniq (depth : Nat) (L : List (Option Req)) : ∀ (s : SM), Uniq s → ∀ x rs,
    single (machine depth) s L = some (x, rs) → Uniq x := by
  induction L with
  | nil => intro s hs x rs h; cases h; exact hs
  | cons e L ih =>
    intro s hs x rs h
    cases e with
    | none =>
      simp only [single, Option.map_eq_some_iff] at h
      obtain ⟨t, ht, he⟩ := h
      cases he
      exact ih s hs _ _ ht
    | some q =>
      simp only [single] at h
      split at h
      · cases h
      · rename_i s' r hst
        simp only [Option.map_eq_some_iff] at h
        obtain ⟨t, ht, he⟩ := h
        cases he
        exact ih s' (uniq_commit hs hst) _ _ ht

theorem commit_same (depth : Nat) {s t : SM} (h : Same s t) (e : Option Req) :
    (∀ x, (machine depth).commit t e = some x → ∃ s', (machine depth).commit s e = some (s', x.2) ∧ Same s' x.1) ∧
    ((machine depth).commit t e = none → (machine depth).commit s e = none) := by
  have hs : s = { t with count := s.count } := by
    obtain ⟨a, b, n⟩ := s
    obtain ⟨a', b', n'⟩ := t
    obtain ⟨h1, h2⟩ := h
    simp only at h1 h2
    subst h1 h2
    rfl
  cases e with
  | none =>
    refine ⟨?_, fun h => nomatch h⟩
    intro x hx
    cases hx
    exact ⟨s, rfl, h⟩
  | some q =>
    obtain ⟨c', hc'⟩ := commit_count t s.count q
    rw [← hs] at hc'
    have hm : ∀ u, (machine depth).commit u (some q) = (u.commit q).map fun r => (r.1, some r.2) := fun _ => rfl
    rw [hm, hm, hc']
    constructor
    · intro x hx
      cases htc : t.commit q with
      | none => rw [htc] at hx; cases hx
      | some y =>
        rw [htc] at hx
        cases hx
        exact ⟨_, rfl, rfl, rfl⟩
    · intro hn
      cases htc : t.commit q with
      | none => rfl
      | some y => rw [htc] at hn; cases hn

theorem file_same {s t : SM} (h : Same s t) (r : Bytes) : s.snapshotFile r = t.snapshotFile r := by
  unfold SM.snapshotFile SM.fileWire
  rw [h.1, h.2]

/-! ### Files -/

theorem dec_ne_tmp (k : Nat) : dec k ≠ tmpName := by
  intro h
  have hd := dec_digits k (lit "tmp").head! (by rw [h]; decide +kernel)
  revert hd
  unfold Verif.Config.IsDigit
  decide +kernel

/-- What a file must hold whose name is `k`. -/
def Holds (c : Codec) (depth : Nat) (L : List (Option Req)) (k : Nat) (b : Bytes) : Prop :=
  ∃ x rs, alone depth (L.take k) = some (x, rs) ∧ b = x.snapshotFile (c.write k)

theorem holds_index {c : Codec} {depth : Nat} {L : List (Option Req)} (hL : Small depth L) {k : Nat} {b : Bytes}
    (h : Holds c depth L k b) (hk : k < 2 ^ 64) : fileIndex c b = some k := by
  obtain ⟨x, rs, hx, rfl⟩ := h
  have hu := alone_uniq depth _ _ (uniq_new depth) x rs hx
  have hf := hL.fits k x rs hx
  have hrt := roundtrip tSnapshot (x.fileWire (c.write k)) ⟨c.short k, atm_wf hu hf, blocks_wf hu hf⟩ []
  rw [List.append_nil] at hrt
  unfold fileIndex fileIndex.dec' SM.snapshotFile
  rw [hrt]
  exact c.back k hk

theorem holds_restore {c : Codec} {depth : Nat} {L : List (Option Req)} (hL : Small depth L) {k : Nat} {b : Bytes}
    (h : Holds c depth L k b) (t : SM) :
    ∃ s x rs, t.restore b = some s ∧ alone depth (L.take k) = some (x, rs) ∧ Same s x := by
  obtain ⟨x, rs, hx, rfl⟩ := h
  have hu := alone_uniq depth _ _ (uniq_new depth) x rs hx
  have hr := restore_file hu (hL.fits k x rs hx) (c.write k) (c.short k) [] t
  rw [List.append_nil] at hr
  exact ⟨_, x, rs, hr, hx, rfl, rfl⟩

theorem content_mem {d : Dir} {n : Text} {b : Bytes} (h : d.content n = some b) : (n, b) ∈ d := by
  unfold Dir.content at h
  simp only [Option.map_eq_some_iff] at h
  obtain ⟨f, hf, rfl⟩ := h
  have h1 := List.mem_of_find?_eq_some hf
  have h2 := List.find?_some hf
  simp only [decide_eq_true_eq] at h2
  obtain ⟨a, b⟩ := f
  simp only at h2 ⊢
  rw [← h2]
  exact h1

theorem mem_content {d : Dir} {n : Text} {b : Bytes} (h : (n, b) ∈ d) : ∃ b', d.content n = some b' := by
  unfold Dir.content
  cases hf : List.find? (fun f => decide (f.1 = n)) d with
  | some f => exact ⟨_, rfl⟩
  | none =>
    rw [List.find?_eq_none] at hf
    exact absurd (hf _ h) (by simp)

theorem content_append_self {d : Dir} {n : Text} {b : Bytes} (h : ∀ f ∈ d, f.1 ≠ n) :
    Dir.content (d ++ [(n, b)]) n = some b := by
  unfold Dir.content
  rw [List.find?_append]
  have : List.find? (fun f => decide (f.1 = n)) d = none := by
    rw [List.find?_eq_none]
    intro f hf
    simp [h f hf]
  rw [this]
  simp

theorem write_content (d : Dir) (n : Text) (b : Bytes) : (d.write n b).content n = some b := by
  unfold Dir.write
  apply content_append_self
  intro f hf
  have := (List.mem_filter.mp hf).2
  simpa using this

/-- The files after a file was written as `tmp` and renamed. -/
theorem mem_saved {d : Dir} {n : Text} {b : Bytes} {f : Text × Bytes} (hn : n ≠ tmpName) :
    f ∈ (d.write tmpName b).rename tmpName n ↔ (f ∈ d ∧ f.1 ≠ tmpName ∧ f.1 ≠ n) ∨ f = (n, b) := by
  unfold Dir.rename
  rw [write_content]
  simp only [List.mem_append, List.mem_filter, List.mem_singleton, Dir.write, decide_eq_true_eq]
  constructor
  · rintro (⟨h1 | h1, h2⟩ | h1)
    · exact .inl ⟨h1.1, h2⟩
    · rw [h1] at h2; exact absurd rfl h2.1
    · exact .inr h1
  · rintro (⟨h1, h2, h3⟩ | h1)
    · exact .inl ⟨.inl ⟨h1, h2⟩, h2, h3⟩
    · exact .inr h1

theorem mem_writing {d : Dir} {b : Bytes} {f : Text × Bytes} :
    f ∈ d.write tmpName b ↔ (f ∈ d ∧ f.1 ≠ tmpName) ∨ f = (tmpName, b) := by
  unfold Dir.write
  simp only [List.mem_append, List.mem_filter, List.mem_singleton, decide_eq_true_eq]

/-! ### Which file is read -/

/-- All names are `tmp` or numbers with 64 bits. -/
def Numbered (d : Dir) : Prop := ∀ f ∈ d, f.1 = tmpName ∨ ∃ k, k < 2 ^ 64 ∧ f.1 = dec k

theorem toUInt64_toNat {k : Nat} (h : k < 2 ^ 64) : k.toUInt64.toNat = k := by
  simp [Nat.toUInt64]; omega

theorem newest_numbered (d : Dir) : ∀ m, Numbered d → ∃ M, newest m d = .ok M ∧ m ≤ M ∧
    (M = m ∨ ∃ b, (dec M, b) ∈ d) ∧ ∀ k b, (dec k, b) ∈ d → k < 2 ^ 64 → k ≤ M := by
  induction d with
  | nil => intro m _; exact ⟨m, rfl, Nat.le_refl _, .inl rfl, by simp⟩
  | cons f d ih =>
    intro m hn
    have hn' : Numbered d := fun g hg => hn g (List.mem_cons_of_mem _ hg)
    rcases hn f List.mem_cons_self with hf | ⟨k, hk, hf⟩
    · obtain ⟨M, h1, h2, h3, h4⟩ := ih m hn'
      refine ⟨M, ?_, h2, ?_, ?_⟩
      · rw [newest, if_pos hf]; exact h1
      · rcases h3 with h3 | ⟨b, h3⟩
        · exact .inl h3
        · exact .inr ⟨b, List.mem_cons_of_mem _ h3⟩
      · intro j b hj hlt
        rcases List.mem_cons.mp hj with hj | hj
        · rw [← hj] at hf; exact absurd hf (dec_ne_tmp j)
        · exact h4 j b hj hlt
    · obtain ⟨M, h1, h2, h3, h4⟩ := ih (if m < k then k else m) hn'
      have hmk : m ≤ (if m < k then k else m) ∧ k ≤ (if m < k then k else m) := by split <;> omega
      refine ⟨M, ?_, by omega, ?_, ?_⟩
      · rw [newest, if_neg (by rw [hf]; exact dec_ne_tmp k), hf, stoull_dec k hk]
        show newest (if m < k.toUInt64.toNat then k.toUInt64.toNat else m) d = _
        rw [toUInt64_toNat hk]
        exact h1
      · rcases h3 with h3 | ⟨b, h3⟩
        · by_cases hc : m < k
          · rw [if_pos hc] at h3
            refine .inr ⟨f.2, ?_⟩
            rw [h3, ← hf]
            exact List.mem_cons_self
          · rw [if_neg hc] at h3
            exact .inl h3
        · exact .inr ⟨b, List.mem_cons_of_mem _ h3⟩
      · intro j b hj hlt
        rcases List.mem_cons.mp hj with hj | hj
        · rw [← hj] at hf
          have := dec_inj hf
          omega
        · exact h4 j b hj hlt

/-! ### A replica -/

/-- What holds of a replica at any time; `len` entries are agreed on. -/
structure Good (c : Codec) (depth : Nat) (L : List (Option Req)) (len : Nat) (r : Replica) : Prop where
  files : ∀ f ∈ r.dir, f.1 = tmpName ∨ ∃ k, 0 < k ∧ k ≤ len ∧ f.1 = dec k ∧ Holds c depth L k f.2
  kept : r.base = 0 ∨ ∃ k b, r.base ≤ k ∧ (dec k, b) ∈ r.dir
  up : ∀ p, r.process = some p → r.base ≤ p.applied ∧ p.applied ≤ len ∧ p.snapped ≤ p.applied ∧
    (p.snapped = 0 ∨ ∃ b, (dec p.snapped, b) ∈ r.dir) ∧ (∀ k b, (dec k, b) ∈ r.dir → k ≤ p.applied) ∧
    ∃ x rs, alone depth (L.take p.applied) = some (x, rs) ∧ Same p.sm x

variable {c : Codec} {depth : Nat} {L : List (Option Req)} {len : Nat} {r : Replica}

theorem Good.file (h : Good c depth L len r) {k : Nat} {b : Bytes} (hm : (dec k, b) ∈ r.dir) :
    0 < k ∧ k ≤ len ∧ Holds c depth L k b := by
  rcases h.files _ hm with h1 | ⟨j, h1, h2, h3, h4⟩
  · exact absurd h1 (dec_ne_tmp k)
  · have := dec_inj h3
    subst this
    exact ⟨h1, h2, h4⟩

theorem Good.content (h : Good c depth L len r) {k : Nat} {b : Bytes} (hm : (dec k, b) ∈ r.dir) :
    ∃ b', r.dir.content (dec k) = some b' ∧ Holds c depth L k b' := by
  obtain ⟨b', hb⟩ := mem_content hm
  exact ⟨b', hb, (h.file (content_mem hb)).2.2⟩

theorem apply_ok (hL : Small depth L) (hlen : len ≤ L.length) (h : Good c depth L len r) {k : Nat} {b : Bytes} (hm : (dec k, b) ∈ r.dir)
    (t : SM) : ∃ s x rs, applySnapshot c r.dir t k = .ok (some s) ∧ alone depth (L.take k) = some (x, rs) ∧ Same s x := by
  obtain ⟨b', hb, hh⟩ := h.content hm
  obtain ⟨s, x, rs, h1, h2, h3⟩ := holds_restore hL hh t
  have hk := (h.file hm).1
  have hk2 := (h.file hm).2.1
  have hll := hL.len
  refine ⟨s, x, rs, ?_, h2, h3⟩
  unfold applySnapshot readSnapshot chosen
  rw [if_neg (by omega)]
  show (match r.dir.content (dec k) with
      | none => _
      | some b => _) >>= _ = _
  rw [hb]
  dsimp only
  rw [holds_index hL hh (by omega)]
  show (match t.restore b' with
      | none => _
      | some s' => _) = _
  rw [h1]

/-- The constructor succeeds at the newest snapshot. -/
theorem boot_ok (hL : Small depth L) (hlen : len ≤ L.length) (h : Good c depth L len r) :
    ∃ s k x rs, boot c depth r.dir = .ok (s, k) ∧ alone depth (L.take k) = some (x, rs) ∧ Same s x ∧ k ≤ len ∧
      (k = 0 ∨ ∃ b, (dec k, b) ∈ r.dir) ∧ ∀ j b, (dec j, b) ∈ r.dir → j ≤ k := by
  have hll := hL.len
  have hnum : Numbered r.dir := by
    intro f hf
    rcases h.files f hf with h1 | ⟨k, _, h2, h3, _⟩
    · exact .inl h1
    · exact .inr ⟨k, by omega, h3⟩
  obtain ⟨M, h1, h2, h3, h4⟩ := newest_numbered r.dir 0 hnum
  have h4' : ∀ j b, (dec j, b) ∈ r.dir → j ≤ M := by
    intro j b hj
    have := (h.file hj).2.1
    exact h4 j b hj (by omega)
  have hch : chosen r.dir 0 = .ok (if M = 0 then none else some M) := by
    unfold chosen
    rw [if_pos rfl, h1]
    rfl
  by_cases hM : M = 0
  · subst hM
    refine ⟨SM.new depth, 0, SM.new depth, [], ?_, rfl, ⟨rfl, rfl⟩, Nat.zero_le _, .inl rfl, h4'⟩
    unfold boot readSnapshot
    rw [hch]
    rfl
  · obtain ⟨b, hb⟩ := h3.resolve_left hM
    obtain ⟨b', hb', hh⟩ := h.content hb
    obtain ⟨s, x, rs, a1, a2, a3⟩ := apply_ok hL hlen h hb (SM.new depth)
    refine ⟨s, M, x, rs, ?_, a2, a3, (h.file hb).2.1, .inr ⟨b, hb⟩, h4'⟩
    have hread : readSnapshot c r.dir 0 = .ok (some (M, b')) := by
      unfold readSnapshot
      rw [hch, if_neg hM]
      show (match r.dir.content (dec M) with
        | none => _
        | some b => _) = _
      rw [hb']
      dsimp only
      have hbl := (h.file hb).2.1
      rw [holds_index hL hh (by omega)]
    unfold boot
    rw [hread]
    show applySnapshot c r.dir (SM.new depth) M >>= _ = _
    rw [a1]
    rfl

theorem Good.down (h : Good c depth L len r) : Good c depth L len { r with process := none } :=
  ⟨h.files, h.kept, fun _ hp => nomatch hp⟩

theorem good_new : Good c depth L len {} :=
  ⟨fun _ hf => (nomatch hf), .inl rfl, fun _ hp => nomatch hp⟩

theorem Good.more (h : Good c depth L len r) {len' : Nat} (hl : len ≤ len') : Good c depth L len' r := by
  refine ⟨?_, h.kept, ?_⟩
  · intro f hf
    rcases h.files f hf with h1 | ⟨k, h1, h2, h3⟩
    · exact .inl h1
    · exact .inr ⟨k, h1, by omega, h3⟩
  · intro p hp
    obtain ⟨h1, h2, h3⟩ := h.up p hp
    exact ⟨h1, by omega, h3⟩

theorem good_start (hL : Small depth L) (hlen : len ≤ L.length) (h : Good c depth L len r)
    (hd : r.process = none) : Good c depth L len (r.start c depth) := by
  obtain ⟨s, k, x, rs, h1, h2, h3, h4, h5, h6⟩ := boot_ok hL hlen h
  unfold Replica.start
  rw [h1]
  refine ⟨h.files, h.kept, ?_⟩
  intro p hp
  cases hp
  refine ⟨?_, h4, Nat.le_refl _, h5, h6, x, rs, h2, h3⟩
  rcases h.kept with hk | ⟨j, b, hj, hb⟩
  · show r.base ≤ k; omega
  · have := h6 j b hb
    show r.base ≤ k; omega

theorem good_execute (h : Good c depth L len r) {p : Process} (hp : r.process = some p) {e : Option Req}
    (he : L[p.applied]? = some e) (hlt : p.applied < len) :
    Good c depth L len (r.execute depth p e).1 ∧
    ∀ a, (r.execute depth p e).2 = some a →
      ∃ x rs, alone depth (L.take (p.applied + 1)) = some (x, rs) ∧ rs[p.applied]? = some a := by
  obtain ⟨h1, h2, h3, h4, h5, x, rs, h6, h7⟩ := h.up p hp
  have htake : L.take (p.applied + 1) = L.take p.applied ++ [e] := by rw [List.take_add_one, he]; rfl
  have hll : p.applied < L.length := by
    rcases Nat.lt_or_ge p.applied L.length with h | h
    · exact h
    · rw [List.getElem?_eq_none h] at he; cases he
  have hlen := single_length _ _ _ _ h6
  simp only [List.length_take] at hlen
  unfold Replica.execute
  cases hc : (machine depth).commit p.sm e with
  | none => exact ⟨h.down, fun _ ha => nomatch ha⟩
  | some y =>
    have hx : ∃ z, (machine depth).commit x e = some z := by
      cases hz : (machine depth).commit x e with
      | some z => exact ⟨z, rfl⟩
      | none => rw [(commit_same depth h7 e).2 hz] at hc; cases hc
    obtain ⟨z, hz⟩ := hx
    obtain ⟨s', hs', hsame⟩ := (commit_same depth h7 e).1 z hz
    rw [hc] at hs'
    cases hs'
    have hnext : alone depth (L.take (p.applied + 1)) = some (z.1, rs ++ [z.2]) := by
      unfold alone at h6 ⊢
      rw [htake, single_snoc, h6]
      show ((machine depth).commit x e).map _ = _
      rw [hz]
      rfl
    constructor
    · refine ⟨h.files, h.kept, ?_⟩
      intro q hq
      cases hq
      refine ⟨?_, ?_, ?_, h4, ?_, z.1, _, hnext, hsame⟩
      · show r.base ≤ p.applied + 1; omega
      · show p.applied + 1 ≤ len; omega
      · show p.snapped ≤ p.applied + 1; omega
      · intro k b hb
        have := h5 k b hb
        show k ≤ p.applied + 1; omega
    · intro a ha
      cases ha
      refine ⟨z.1, _, hnext, ?_⟩
      rw [List.getElem?_append_right (by omega)]
      have : p.applied - rs.length = 0 := by omega
      simp [this]

theorem isOld_dec {idx k : Nat} (hk : k < 2 ^ 64) : isOld idx (dec k) = decide (k < idx) := by
  unfold isOld
  rw [stoull_dec k hk]
  simp only [dec_ne_tmp, decide_false, Bool.false_or]
  rw [toUInt64_toNat hk]

/-- The files after a snapshot was made, with any of the old ones left. -/
theorem good_saved (h : Good c depth L len r) {idx : Nat} {b : Bytes} (h0 : 0 < idx)
    (hi : idx ≤ len) (hh : Holds c depth L idx b) (base : Nat) (keep : Text → Bool)
    (hkeep : keep (dec idx) = true) (hbase : base = 0 ∨ base ≤ idx ∨ base = r.base)
    (hk : base ≤ idx ∨ ∀ k, idx < k → k ≤ len → keep (dec k) = true) (proc : Option Process)
    (hproc : ∀ p, proc = some p → base ≤ p.applied ∧ p.applied ≤ len ∧ idx ≤ p.applied ∧ p.snapped = idx ∧
      (∀ k b, (dec k, b) ∈ r.dir → k ≤ p.applied) ∧
      ∃ x rs, alone depth (L.take p.applied) = some (x, rs) ∧ Same p.sm x) :
    Good c depth L len {
      dir := List.filter (fun f => keep f.1) ((r.dir.write tmpName b).rename tmpName (dec idx))
      base := base
      process := proc } := by
  have hnt := dec_ne_tmp idx
  have hself : (dec idx, b) ∈ List.filter (fun f : Text × Bytes => keep f.1)
      ((r.dir.write tmpName b).rename tmpName (dec idx)) := by
    rw [List.mem_filter]
    exact ⟨(mem_saved hnt).mpr (.inr rfl), hkeep⟩
  refine ⟨?_, ?_, ?_⟩
  · intro f hf
    rcases (mem_saved hnt).mp (List.mem_filter.mp hf).1 with ⟨h1, _, _⟩ | h1
    · exact h.files f h1
    · rw [h1]; exact .inr ⟨idx, h0, hi, rfl, hh⟩
  · by_cases hle : base ≤ idx
    · exact .inr ⟨idx, b, hle, hself⟩
    · rcases hbase with h1 | h1 | h1
      · exact .inl h1
      · exact absurd h1 hle
      · have hk' := hk.resolve_left hle
        rcases h.kept with hz | ⟨k, b', h2, h3⟩
        · left; show base = 0; omega
        · refine .inr ⟨k, b', by show base ≤ k; omega, ?_⟩
          have hkl := (h.file h3).2.1
          rw [List.mem_filter]
          refine ⟨(mem_saved hnt).mpr (.inl ⟨h3, dec_ne_tmp k, ?_⟩), hk' k (by omega) hkl⟩
          intro he
          have := dec_inj he
          omega
  · intro p hp
    obtain ⟨p1, p2, p3, p4, p5, p6⟩ := hproc p hp
    refine ⟨p1, p2, by omega, .inr ⟨b, by rw [p4]; exact hself⟩, ?_, p6⟩
    intro k b' hkb
    rcases (mem_saved hnt).mp (List.mem_filter.mp hkb).1 with ⟨h1, _, _⟩ | h1
    · exact p5 k b' h1
    · have := dec_inj (congrArg Prod.fst h1)
      omega

theorem good_writing (h : Good c depth L len r) (b : Bytes) :
    Good c depth L len {
      dir := r.dir.write tmpName b
      base := r.base } := by
  refine ⟨?_, ?_, fun _ hp => nomatch hp⟩
  · intro f hf
    rcases mem_writing.mp hf with ⟨h1, _⟩ | h1
    · exact h.files f h1
    · rw [h1]; exact .inl rfl
  · rcases h.kept with h1 | ⟨k, b', h1, h2⟩
    · exact .inl h1
    · exact .inr ⟨k, b', h1, mem_writing.mpr (.inl ⟨h2, dec_ne_tmp k⟩)⟩

theorem good_create (hL : Small depth L) (hlen : len ≤ L.length) (h : Good c depth L len r) {p : Process}
    (hp : r.process = some p) (cut : Cut) : Good c depth L len (r.create c p cut) := by
  obtain ⟨h1, h2, h3, h4, h5, x, rs, h6, h7⟩ := h.up p hp
  have hll := hL.len
  unfold Replica.create
  split
  · exact h
  · rename_i h0
    have hh : Holds c depth L p.applied (p.sm.snapshotFile (c.write p.applied)) :=
      ⟨x, rs, h6, file_same h7 _⟩
    have hold : isOld p.applied (dec p.applied) = false := by
      rw [isOld_dec (by omega)]; simp
    cases cut with
    | writing k => exact good_writing h _
    | removing keep =>
      refine good_saved h (by omega) h2 hh r.base (fun n => keep n || !isOld p.applied n) ?_ (.inr (.inr rfl)) (.inl h1) none
        (fun _ hq => nomatch hq)
      simp [hold]
    | never =>
      refine good_saved h (by omega) h2 hh r.base (fun n => !isOld p.applied n) ?_ (.inr (.inr rfl)) (.inl h1) _ ?_
      · simp [hold]
      · intro q hq
        cases hq
        exact ⟨h1, h2, Nat.le_refl _, rfl, h5, x, rs, h6, h7⟩

theorem filter_all {α : Type} (l : List α) : List.filter (fun _ => true) l = l :=
  List.filter_eq_self.mpr fun _ _ => rfl

theorem good_install (hL : Small depth L) (hlen : len ≤ L.length) (h : Good c depth L len r) {p : Process}
    (hp : r.process = some p) {idx : Nat} {b : Bytes} (h0 : 0 < idx) (hi : idx ≤ len) (hh : Holds c depth L idx b)
    (hbehind : p.applied < idx) (stop : Stop) :
    Good c depth L len (r.install c p idx b stop) ∧
      (stop = .never → ∃ sm, (r.install c p idx b stop).process = some ⟨sm, idx, idx⟩) := by
  obtain ⟨h1, h2, h3, h4, h5, x, rs, h6, h7⟩ := h.up p hp
  have hsaved : ∀ base proc, (base ≤ idx ∨ base = r.base) → (∀ p, proc = some p → base ≤ p.applied ∧ p.applied ≤ len ∧ idx ≤ p.applied ∧ p.snapped = idx ∧
      (∀ k b, (dec k, b) ∈ r.dir → k ≤ p.applied) ∧
      ∃ x rs, alone depth (L.take p.applied) = some (x, rs) ∧ Same p.sm x) →
      Good c depth L len {
        dir := (r.dir.write tmpName b).rename tmpName (dec idx)
        base := base
        process := proc } := by
    intro base proc hb hproc
    have := good_saved h h0 hi hh base (fun _ => true) rfl (.inr hb) (.inr fun _ _ _ => rfl) proc hproc
    rwa [filter_all] at this
  cases stop with
  | writing k => exact ⟨good_writing h _, fun hs => nomatch hs⟩
  | saved dropped =>
    refine ⟨?_, fun hs => nomatch hs⟩
    cases dropped with
    | false => exact hsaved r.base none (.inr rfl) (fun _ hq => nomatch hq)
    | true => exact hsaved (max r.base idx) none (.inl (by omega)) (fun _ hq => nomatch hq)
  | never =>
    have hg := hsaved (max r.base idx) none (.inl (by omega)) (fun _ hq => nomatch hq)
    obtain ⟨s, y, rs', a1, a2, a3⟩ := apply_ok hL hlen hg
      (show (dec idx, b) ∈ _ from (mem_saved (dec_ne_tmp idx)).mpr (.inr rfl)) p.sm
    dsimp only at a1
    unfold Replica.install
    dsimp only
    rw [a1]
    dsimp only
    refine ⟨?_, fun _ => ⟨s, rfl⟩⟩
    refine hsaved (max r.base idx) (some ⟨s, idx, idx⟩) (.inl (by omega)) ?_
    intro q hq
    cases hq
    refine ⟨by show max r.base idx ≤ idx; omega, hi, Nat.le_refl _, rfl, ?_, y, rs', a2, a3⟩
    intro k b' hk
    have := h5 k b' hk
    show k ≤ idx; omega

/-! ### The cluster -/

/-- What holds at any time. -/
structure Inv (c : Codec) (depth : Nat) (L : List (Option Req)) (s : Sys) : Prop where
  pre : s.log <+: L
  replica : ∀ n, Good c depth L s.log.length (s.replicas n)
  replies : ∀ i a, (i, a) ∈ s.replies → i < s.log.length ∧
    ∃ x rs, alone depth (L.take (i + 1)) = some (x, rs) ∧ rs[i]? = some a

theorem Inv.set {s : Sys} (h : Inv c depth L s) (n : Nat) {r : Replica} (hr : Good c depth L s.log.length r) :
    Inv c depth L (s.set n r) := by
  refine ⟨h.pre, ?_, h.replies⟩
  intro i
  simp only [Sys.set]
  split
  · exact hr
  · exact h.replica i

theorem inv_new : Inv c depth L {} := ⟨List.nil_prefix, fun _ => good_new, fun _ _ h => nomatch h⟩

theorem prefix_get {α : Type} {l L : List α} (h : l <+: L) {i : Nat} {e : α} (he : l[i]? = some e) :
    L[i]? = some e ∧ i < l.length := by
  obtain ⟨t, rfl⟩ := h
  have hlt : i < l.length := by
    rcases Nat.lt_or_ge i l.length with h | h
    · exact h
    · rw [List.getElem?_eq_none h] at he; cases he
  exact ⟨by rw [List.getElem?_append_left hlt]; exact he, hlt⟩

theorem inv_step (hL : Small depth L) {s : Sys} (h : Inv c depth L s) (e : Ev) (hlog : (step c depth s e).log <+: L) :
    Inv c depth L (step c depth s e) := by
  have hlen : s.log.length ≤ L.length := h.pre.length_le
  cases e with
  | agree e =>
    refine ⟨hlog, ?_, ?_⟩
    · intro n
      refine (h.replica n).more ?_
      simp only [step, List.length_append]
      omega
    · intro i a ha
      obtain ⟨h1, h2⟩ := h.replies i a ha
      refine ⟨?_, h2⟩
      simp only [step, List.length_append]
      omega
  | execute n answers =>
    simp only [step]
    split
    · exact h
    · rename_i p hp
      split
      · exact h
      · split
        · exact h
        · rename_i e he
          obtain ⟨g1, g2⟩ := prefix_get h.pre he
          obtain ⟨g3, g4⟩ := good_execute (h.replica n) hp g1 g2
          have hb := h.set n g3
          split
          · rename_i a ha
            refine ⟨hb.pre, hb.replica, ?_⟩
            intro i a' ha'
            rcases List.mem_append.mp ha' with ha' | ha'
            · exact h.replies i a' ha'
            · simp only [List.mem_singleton, Prod.mk.injEq] at ha'
              obtain ⟨rfl, rfl⟩ := ha'
              exact ⟨g2, g4 _ ha⟩
          · exact hb
  | create n cut =>
    simp only [step]
    split
    · exact h
    · rename_i p hp
      exact h.set n (good_create hL hlen (h.replica n) hp cut)
  | drop n k =>
    simp only [step]
    split
    · exact h
    · rename_i p hp
      split
      · exact h
      · rename_i hk
        refine h.set n ?_
        have hg := h.replica n
        obtain ⟨h1, h2, h3, h4, h5⟩ := hg.up p hp
        refine ⟨hg.files, ?_, ?_⟩
        · rcases Nat.le_total (s.replicas n).base k with hle | hle
          · rcases h4 with h4 | ⟨b, h4⟩
            · left; show max _ _ = 0; omega
            · exact .inr ⟨p.snapped, b, by show max _ _ ≤ _; omega, h4⟩
          · have : max (s.replicas n).base k = (s.replicas n).base := by omega
            show max (s.replicas n).base k = 0 ∨ ∃ k' b, max (s.replicas n).base k ≤ k' ∧ _
            rw [this]
            exact hg.kept
        · intro q hq
          have : q = p := by
            have hq' : (s.replicas n).process = some q := hq
            rw [hp] at hq'
            exact (Option.some.inj hq').symm
          subst this
          exact ⟨by show max _ _ ≤ _; omega, h2, h3, h4, h5⟩
  | install leader n stop =>
    simp only [step]
    split
    · rename_i p q hp hq
      split
      · exact h
      · rename_i hb
        split
        · exact h
        · rename_i b hc
          obtain ⟨f1, f2, f3⟩ := (h.replica leader).file (content_mem hc)
          exact h.set n (good_install hL hlen (h.replica n) hq f1 f2 f3 (by omega) stop).1
    · exact h
  | kill n => exact h.set n (h.replica n).down
  | start n =>
    simp only [step]
    split
    · exact h
    · rename_i hp
      exact h.set n (good_start hL hlen (h.replica n) hp)

theorem log_step (s : Sys) (e : Ev) : s.log <+: (step c depth s e).log := by
  cases e with
  | agree e => exact ⟨[e], rfl⟩
  | execute n a =>
    simp only [step]
    split
    · exact List.prefix_refl _
    · split
      · exact List.prefix_refl _
      · split
        · exact List.prefix_refl _
        · split <;> exact List.prefix_refl _
  | create n cut => simp only [step]; split <;> exact List.prefix_refl _
  | drop n k =>
    simp only [step]
    split
    · exact List.prefix_refl _
    · split <;> exact List.prefix_refl _
  | install l n st =>
    simp only [step]
    split
    · split
      · exact List.prefix_refl _
      · split <;> exact List.prefix_refl _
    · exact List.prefix_refl _
  | kill n => exact List.prefix_refl _
  | start n => simp only [step]; split <;> exact List.prefix_refl _

theorem log_run (evs : List Ev) (s : Sys) : s.log <+: (run c depth s evs).log := by
  induction evs generalizing s with
  | nil => exact List.prefix_refl _
  | cons e evs ih => exact (log_step s e).trans (ih _)

theorem inv_run (hL : Small depth L) (evs : List Ev) (s : Sys) (h : Inv c depth L s)
    (hlog : (run c depth s evs).log <+: L) : Inv c depth L (run c depth s evs) := by
  induction evs generalizing s with
  | nil => exact h
  | cons e evs ih =>
    have h1 : (step c depth s e).log <+: L := (log_run evs _).trans hlog
    exact ih _ (inv_step hL h e h1) hlog

theorem run_append (s : Sys) (a b : List Ev) : run c depth s (a ++ b) = run c depth (run c depth s a) b :=
  List.foldl_append ..

end Verif.Atomizer.Replicas
