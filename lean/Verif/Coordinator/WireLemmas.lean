import Verif.Coordinator.WireSpec
import Verif.Serial.Lemmas2
import Mathlib.Data.List.Induction

namespace Verif.Coordinator.Wire

open Verif.Serial

theorem last_snoc (log : List Entry) (e e0 : Entry) :
    Last (log ++ [e]) e0 ↔ e = e0 ∨ (e.about ≠ e0.about ∧ Last log e0) := by
  constructor
  · rintro ⟨pre, post, h, hp⟩
    rcases List.eq_nil_or_concat post with rfl | ⟨post', x, rfl⟩
    · have := List.append_inj' h (by simp)
      simp at this
      exact .inl this.2
    · have h' : log ++ [e] = (pre ++ e0 :: post') ++ [x] := by simpa using h
      have := List.append_inj' h' (by simp)
      obtain ⟨h1, h2⟩ := this
      simp at h2
      subst h2
      exact .inr ⟨hp e (by simp), pre, post', h1, fun e' he' => hp e' (by simp [he'])⟩
  · rintro (rfl | ⟨hn, pre, post, rfl, hp⟩)
    · exact ⟨log, [], rfl, by simp⟩
    · refine ⟨pre, post ++ [e], by simp, ?_⟩
      intro e' he'
      rcases List.mem_append.mp he' with h | h
      · exact hp e' h
      · simp at h
        subst h
        exact hn

theorem last_nil (e : Entry) : ¬ Last [] e := by
  rintro ⟨pre, post, h, _⟩
  simp at h

theorem last_unique (log : List Entry) : ∀ (e e' : Entry), Last log e → Last log e' →
    e.about = e'.about → e = e' := by
  induction log using List.reverseRecOn with
  | nil => intro e _ h; exact absurd h (last_nil e)
  | append_singleton log x ih =>
    intro e e' h h' hab
    rw [last_snoc] at h h'
    rcases h with rfl | ⟨h1, h2⟩
    · rcases h' with rfl | ⟨h1', _⟩
      · rfl
      · exact absurd hab h1'
    · rcases h' with rfl | ⟨_, h2'⟩
      · exact absurd hab.symm h1
      · exact ih e e' h2 h2' hab

theorem last_mem {log : List Entry} {e : Entry} (h : Last log e) : e ∈ log := by
  obtain ⟨pre, post, rfl, _⟩ := h
  simp

/-- The header of a command is read as it was written, and the cursor is left at the payload. -/
theorem readHeader_write (comm : Nat) (hc : comm < 256) (dtx : Option Bytes)
    (hd : ∀ d, dtx = some d → d.length = 32) (payload : Bytes) :
    readHeader (writeHeader comm dtx ++ payload) = .read comm dtx payload := by
  have h1 := decInt_append 1 comm (enc (.opt tHash) dtx ++ payload) (by simpa using hc)
  have h2 := roundtrip (.opt tHash) dtx (fun v hv => hd v hv) payload
  unfold readHeader writeHeader
  rw [List.append_assoc, h1]
  dsimp only
  rw [h2]

/-- What the state machine is told by the bytes of an entry. -/
theorem exec_entry (s : Raw) (e : Entry) (he : e.Valid) (b : Bytes)
    (hb : e.command.write = some b) :
    s.exec b = match e with
      | .prepare d txs => s.run 0 (some d) (enc tPrepare txs)
      | .commit d p => s.run 1 (some d) (enc tCommit p)
      | .discard d => s.run 2 (some d) []
      | .done d => s.run 3 (some d) []
      | .get => s.run 4 none [] := by
  cases e with
  | prepare d txs =>
    simp only [Entry.command, Command.write, Option.some.injEq] at hb
    subst hb
    unfold Raw.exec
    rw [readHeader_write 0 (by decide) (some d) (by rintro _ ⟨⟩; exact he.1)]
  | commit d p =>
    simp only [Entry.command, Command.write, Option.some.injEq] at hb
    subst hb
    unfold Raw.exec
    rw [readHeader_write 1 (by decide) (some d) (by rintro _ ⟨⟩; exact he.1)]
  | discard d =>
    simp only [Entry.command, Command.write, Option.some.injEq] at hb
    subst hb
    unfold Raw.exec
    have := readHeader_write 2 (by decide) (some d) (by rintro _ ⟨⟩; exact he) []
    rw [List.append_nil] at this
    rw [this]
  | done d =>
    simp only [Entry.command, Command.write, Option.some.injEq] at hb
    subst hb
    unfold Raw.exec
    have := readHeader_write 3 (by decide) (some d) (by rintro _ ⟨⟩; exact he) []
    rw [List.append_nil] at this
    rw [this]
  | get =>
    simp only [Entry.command, Command.write, Option.some.injEq] at hb
    subst hb
    unfold Raw.exec
    have := readHeader_write 4 (by decide) none (by rintro _ ⟨⟩) []
    rw [List.append_nil] at this
    rw [this]

/-- The state machine holds what the log says. -/
structure Inv (log : List Entry) (s : Raw) : Prop where
  prepare_iff : ∀ d b, (d, b) ∈ s.prepare ↔ ∃ txs, b = enc tPrepare txs ∧ Last log (.prepare d txs)
  commit_iff : ∀ d b, (d, b) ∈ s.commit ↔ ∃ p, b = enc tCommit p ∧ Last log (.commit d p)
  discard_iff : ∀ d, d ∈ s.discard ↔ Last log (.discard d)
  prepare_nodup : (s.prepare.map Prod.fst).Nodup
  commit_nodup : (s.commit.map Prod.fst).Nodup
  discard_nodup : s.discard.Nodup
  prepare_le : s.prepare.length ≤ log.length
  commit_le : s.commit.length ≤ log.length
  discard_le : s.discard.length ≤ log.length

theorem Inv.same {log : List Entry} {s t : Raw} (h : Inv log s) (hst : s.Same t) : Inv log t := by
  obtain ⟨hp, hc, hd⟩ := hst
  exact ⟨fun d b => hp.mem_iff.symm.trans (h.prepare_iff d b),
    fun d b => hc.mem_iff.symm.trans (h.commit_iff d b),
    fun d => hd.mem_iff.symm.trans (h.discard_iff d),
    (hp.map _).nodup_iff.mp h.prepare_nodup, (hc.map _).nodup_iff.mp h.commit_nodup,
    hd.nodup_iff.mp h.discard_nodup, hp.length_eq ▸ h.prepare_le, hc.length_eq ▸ h.commit_le,
    hd.length_eq ▸ h.discard_le⟩

theorem Inv.prepare_key {log : List Entry} {s : Raw} (h : Inv log s) (d : Bytes) :
    d ∈ s.prepare.map Prod.fst ↔ ∃ txs, Last log (.prepare d txs) := by
  constructor
  · intro hd
    obtain ⟨⟨d', b⟩, hm, rfl⟩ := List.mem_map.mp hd
    obtain ⟨txs, _, hl⟩ := (h.prepare_iff d' b).mp hm
    exact ⟨txs, hl⟩
  · rintro ⟨txs, hl⟩
    exact List.mem_map.mpr ⟨(d, enc tPrepare txs), (h.prepare_iff _ _).mpr ⟨txs, rfl, hl⟩, rfl⟩

theorem Inv.commit_key {log : List Entry} {s : Raw} (h : Inv log s) (d : Bytes) :
    d ∈ s.commit.map Prod.fst ↔ ∃ p, Last log (.commit d p) := by
  constructor
  · intro hd
    obtain ⟨⟨d', b⟩, hm, rfl⟩ := List.mem_map.mp hd
    obtain ⟨p, _, hl⟩ := (h.commit_iff d' b).mp hm
    exact ⟨p, hl⟩
  · rintro ⟨p, hl⟩
    exact List.mem_map.mpr ⟨(d, enc tCommit p), (h.commit_iff _ _).mpr ⟨p, rfl, hl⟩, rfl⟩

theorem mem_erase {m : List (Bytes × Bytes)} {d d' b : Bytes} :
    (d', b) ∈ erase m d ↔ (d', b) ∈ m ∧ d' ≠ d := by
  simp [erase]

theorem erase_nodup {m : List (Bytes × Bytes)} (h : (m.map Prod.fst).Nodup) (d : Bytes) :
    ((erase m d).map Prod.fst).Nodup :=
  h.sublist (List.Sublist.map _ List.filter_sublist)

theorem snoc_nodup {m : List (Bytes × Bytes)} (h : (m.map Prod.fst).Nodup) {d b : Bytes}
    (hd : d ∉ m.map Prod.fst) : ((m ++ [(d, b)]).map Prod.fst).Nodup := by
  rw [List.map_append, List.nodup_append]
  refine ⟨h, by simp, ?_⟩
  intro x hx y hy
  simp at hy
  subst hy
  rintro rfl
  exact hd hx

theorem nodup_snoc {l : List Bytes} (h : l.Nodup) {d : Bytes} (hd : d ∉ l) : (l ++ [d]).Nodup := by
  rw [List.nodup_append]
  refine ⟨h, by simp, ?_⟩
  intro x hx y hy
  simp at hy
  subst hy
  rintro rfl
  exact hd hx

theorem Inv.nil : Inv [] .empty := by
  constructor <;> simp [Raw.empty, last_nil]

/-- One entry that is the next step of its batch: executed, and the invariant is kept. -/
theorem Inv.next {log : List Entry} {s : Raw} (h : Inv log s) {e : Entry} (he : e.Valid)
    (hn : Next log e) {b : Bytes} (hb : e.command.write = some b) :
    ∃ t r, s.exec b = .goes t r ∧ Inv (log ++ [e]) t := by
  rw [exec_entry s e he b hb]
  cases e with
  | prepare d txs =>
    have hP : d ∉ s.prepare.map Prod.fst := by
      intro hd
      obtain ⟨txs', hl⟩ := (h.prepare_key d).mp hd
      exact absurd (hn _ rfl hl) (by simp)
    have hC : ∀ p, ¬ Last log (.commit d p) := fun p hl => absurd (hn _ rfl hl) (by simp)
    have hD : ¬ Last log (.discard d) := fun hl => absurd (hn _ rfl hl) (by simp)
    have hstep : s.run 0 (some d) (enc tPrepare txs)
        = .goes { s with prepare := s.prepare ++ [(d, enc tPrepare txs)] } none := by
      simp only [Raw.run, emplace, if_neg hP]
    refine ⟨_, _, hstep, ?_⟩
    constructor
    · intro d' b'
      by_cases hdd : d' = d
      · subst hdd
        constructor
        · intro hm
          rcases List.mem_append.mp hm with hm | hm
          · exact absurd (List.mem_map.mpr ⟨_, hm, rfl⟩) hP
          · simp at hm
            exact ⟨txs, hm, (last_snoc _ _ _).mpr (.inl rfl)⟩
        · rintro ⟨txs', rfl, hl⟩
          rcases (last_snoc _ _ _).mp hl with heq | ⟨hne, _⟩
          · injection heq with _ heq
            subst heq
            simp
          · exact absurd rfl hne
      · have hne : (d', b') ≠ (d, enc tPrepare txs) := by
          intro heq
          exact hdd (congrArg Prod.fst heq)
        simp only [List.mem_append, List.mem_singleton, hne, or_false]
        rw [h.prepare_iff]
        constructor
        · rintro ⟨txs', rfl, hl⟩
          exact ⟨txs', rfl, (last_snoc _ _ _).mpr (.inr ⟨by simp [Entry.about, Ne.symm hdd], hl⟩)⟩
        · rintro ⟨txs', rfl, hl⟩
          rcases (last_snoc _ _ _).mp hl with heq | ⟨_, hl⟩
          · injection heq with heq _
            exact absurd heq.symm hdd
          · exact ⟨txs', rfl, hl⟩
    · intro d' b'
      refine (h.commit_iff d' b').trans ?_
      constructor
      · rintro ⟨p, rfl, hl⟩
        refine ⟨p, rfl, (last_snoc _ _ _).mpr (.inr ⟨?_, hl⟩)⟩
        intro heq
        simp only [Entry.about, Option.some.injEq] at heq
        subst heq
        exact hC p hl
      · rintro ⟨p, rfl, hl⟩
        rcases (last_snoc _ _ _).mp hl with heq | ⟨_, hl⟩
        · exact (nomatch heq)
        · exact ⟨p, rfl, hl⟩
    · intro d'
      refine (h.discard_iff d').trans ?_
      constructor
      · intro hl
        refine (last_snoc _ _ _).mpr (.inr ⟨?_, hl⟩)
        intro heq
        simp only [Entry.about, Option.some.injEq] at heq
        subst heq
        exact hD hl
      · intro hl
        rcases (last_snoc _ _ _).mp hl with heq | ⟨_, hl⟩
        · exact (nomatch heq)
        · exact hl
    · exact snoc_nodup h.prepare_nodup hP
    · exact h.commit_nodup
    · exact h.discard_nodup
    · have := h.prepare_le
      simp
      omega
    · have := h.commit_le
      simp
      omega
    · have := h.discard_le
      simp
      omega
  | commit d p =>
    obtain ⟨txs, hlast⟩ := hn
    have hP : d ∈ s.prepare.map Prod.fst := (h.prepare_key d).mpr ⟨txs, hlast⟩
    have hC : d ∉ s.commit.map Prod.fst := by
      intro hd
      obtain ⟨p', hl⟩ := (h.commit_key d).mp hd
      exact (nomatch last_unique log _ _ hlast hl rfl)
    have hD : ¬ Last log (.discard d) := fun hl => (nomatch last_unique log _ _ hlast hl rfl)
    have hstep : s.run 1 (some d) (enc tCommit p)
        = .goes { s with
            prepare := erase s.prepare d
            commit := s.commit ++ [(d, enc tCommit p)] } none := by
      simp only [Raw.run, emplace, if_pos hP, if_neg hC]
    refine ⟨_, _, hstep, ?_⟩
    constructor
    · intro d' b'
      refine mem_erase.trans ?_
      rw [h.prepare_iff]
      constructor
      · rintro ⟨⟨txs', rfl, hl⟩, hdd⟩
        exact ⟨txs', rfl, (last_snoc _ _ _).mpr (.inr ⟨by simp [Entry.about, Ne.symm hdd], hl⟩)⟩
      · rintro ⟨txs', rfl, hl⟩
        rcases (last_snoc _ _ _).mp hl with heq | ⟨hne, hl⟩
        · exact (nomatch heq)
        · exact ⟨⟨txs', rfl, hl⟩, by rintro rfl; exact hne rfl⟩
    · intro d' b'
      by_cases hdd : d' = d
      · subst hdd
        constructor
        · intro hm
          rcases List.mem_append.mp hm with hm | hm
          · exact absurd (List.mem_map.mpr ⟨_, hm, rfl⟩) hC
          · simp at hm
            exact ⟨p, hm, (last_snoc _ _ _).mpr (.inl rfl)⟩
        · rintro ⟨p', rfl, hl⟩
          rcases (last_snoc _ _ _).mp hl with heq | ⟨hne, _⟩
          · injection heq with _ heq
            subst heq
            simp
          · exact absurd rfl hne
      · have hne : (d', b') ≠ (d, enc tCommit p) := by
          intro heq
          exact hdd (congrArg Prod.fst heq)
        simp only [List.mem_append, List.mem_singleton, hne, or_false]
        rw [h.commit_iff]
        constructor
        · rintro ⟨p', rfl, hl⟩
          exact ⟨p', rfl, (last_snoc _ _ _).mpr (.inr ⟨by simp [Entry.about, Ne.symm hdd], hl⟩)⟩
        · rintro ⟨p', rfl, hl⟩
          rcases (last_snoc _ _ _).mp hl with heq | ⟨_, hl⟩
          · injection heq with heq _
            exact absurd heq.symm hdd
          · exact ⟨p', rfl, hl⟩
    · intro d'
      refine (h.discard_iff d').trans ?_
      constructor
      · intro hl
        refine (last_snoc _ _ _).mpr (.inr ⟨?_, hl⟩)
        intro heq
        simp only [Entry.about, Option.some.injEq] at heq
        subst heq
        exact hD hl
      · intro hl
        rcases (last_snoc _ _ _).mp hl with heq | ⟨_, hl⟩
        · exact (nomatch heq)
        · exact hl
    · exact erase_nodup h.prepare_nodup d
    · exact snoc_nodup h.commit_nodup hC
    · exact h.discard_nodup
    · have := h.prepare_le
      have : (erase s.prepare d).length ≤ s.prepare.length := List.length_filter_le _ _
      simp
      omega
    · have := h.commit_le
      simp
      omega
    · have := h.discard_le
      simp
      omega
  | discard d =>
    obtain ⟨p, hlast⟩ := hn
    have hC : d ∈ s.commit.map Prod.fst := (h.commit_key d).mpr ⟨p, hlast⟩
    have hP : ∀ txs, ¬ Last log (.prepare d txs) :=
      fun txs hl => (nomatch last_unique log _ _ hlast hl rfl)
    have hD : d ∉ s.discard := fun hd =>
      (nomatch last_unique log _ _ hlast ((h.discard_iff d).mp hd) rfl)
    have hstep : s.run 2 (some d) []
        = .goes { s with
            commit := erase s.commit d
            discard := s.discard ++ [d] } none := by
      simp only [Raw.run, if_pos hC, if_neg hD]
    refine ⟨_, _, hstep, ?_⟩
    constructor
    · intro d' b'
      refine (h.prepare_iff d' b').trans ?_
      constructor
      · rintro ⟨txs, rfl, hl⟩
        refine ⟨txs, rfl, (last_snoc _ _ _).mpr (.inr ⟨?_, hl⟩)⟩
        intro heq
        simp only [Entry.about, Option.some.injEq] at heq
        subst heq
        exact hP txs hl
      · rintro ⟨txs, rfl, hl⟩
        rcases (last_snoc _ _ _).mp hl with heq | ⟨_, hl⟩
        · exact (nomatch heq)
        · exact ⟨txs, rfl, hl⟩
    · intro d' b'
      refine mem_erase.trans ?_
      rw [h.commit_iff]
      constructor
      · rintro ⟨⟨p', rfl, hl⟩, hdd⟩
        exact ⟨p', rfl, (last_snoc _ _ _).mpr (.inr ⟨by simp [Entry.about, Ne.symm hdd], hl⟩)⟩
      · rintro ⟨p', rfl, hl⟩
        rcases (last_snoc _ _ _).mp hl with heq | ⟨hne, hl⟩
        · exact (nomatch heq)
        · exact ⟨⟨p', rfl, hl⟩, by rintro rfl; exact hne rfl⟩
    · intro d'
      simp only [List.mem_append, List.mem_singleton]
      rw [h.discard_iff, last_snoc]
      constructor
      · rintro (hl | rfl)
        · refine .inr ⟨?_, hl⟩
          intro heq
          simp only [Entry.about, Option.some.injEq] at heq
          subst heq
          exact hD ((h.discard_iff d).mpr hl)
        · exact .inl rfl
      · rintro (heq | ⟨_, hl⟩)
        · injection heq with heq
          exact .inr heq.symm
        · exact .inl hl
    · exact h.prepare_nodup
    · exact erase_nodup h.commit_nodup d
    · exact nodup_snoc h.discard_nodup hD
    · have := h.prepare_le
      simp
      omega
    · have := h.commit_le
      have : (erase s.commit d).length ≤ s.commit.length := List.length_filter_le _ _
      simp
      omega
    · have := h.discard_le
      simp
      omega
  | done d =>
    have hlast : Last log (.discard d) := hn
    have hD : d ∈ s.discard := (h.discard_iff d).mpr hlast
    have hP : ∀ txs, ¬ Last log (.prepare d txs) :=
      fun txs hl => (nomatch last_unique log _ _ hlast hl rfl)
    have hC : ∀ p, ¬ Last log (.commit d p) :=
      fun p hl => (nomatch last_unique log _ _ hlast hl rfl)
    have hstep : s.run 3 (some d) []
        = .goes { s with
            discard := s.discard.filter fun x => decide (x ≠ d) } none := by
      simp only [Raw.run, if_pos hD]
    refine ⟨_, _, hstep, ?_⟩
    constructor
    · intro d' b'
      refine (h.prepare_iff d' b').trans ?_
      constructor
      · rintro ⟨txs, rfl, hl⟩
        refine ⟨txs, rfl, (last_snoc _ _ _).mpr (.inr ⟨?_, hl⟩)⟩
        intro heq
        simp only [Entry.about, Option.some.injEq] at heq
        subst heq
        exact hP txs hl
      · rintro ⟨txs, rfl, hl⟩
        rcases (last_snoc _ _ _).mp hl with heq | ⟨_, hl⟩
        · exact (nomatch heq)
        · exact ⟨txs, rfl, hl⟩
    · intro d' b'
      refine (h.commit_iff d' b').trans ?_
      constructor
      · rintro ⟨p, rfl, hl⟩
        refine ⟨p, rfl, (last_snoc _ _ _).mpr (.inr ⟨?_, hl⟩)⟩
        intro heq
        simp only [Entry.about, Option.some.injEq] at heq
        subst heq
        exact hC p hl
      · rintro ⟨p, rfl, hl⟩
        rcases (last_snoc _ _ _).mp hl with heq | ⟨_, hl⟩
        · exact (nomatch heq)
        · exact ⟨p, rfl, hl⟩
    · intro d'
      simp only [List.mem_filter, decide_eq_true_eq]
      rw [h.discard_iff, last_snoc]
      constructor
      · rintro ⟨hl, hdd⟩
        exact .inr ⟨by simp [Entry.about, Ne.symm hdd], hl⟩
      · rintro (heq | ⟨hne, hl⟩)
        · exact (nomatch heq)
        · exact ⟨hl, by rintro rfl; exact hne rfl⟩
    · exact h.prepare_nodup
    · exact h.commit_nodup
    · exact h.discard_nodup.sublist List.filter_sublist
    · have := h.prepare_le
      simp
      omega
    · have := h.commit_le
      simp
      omega
    · have := h.discard_le
      have : (s.discard.filter fun x => decide (x ≠ d)).length ≤ s.discard.length :=
        List.length_filter_le _ _
      simp only [List.length_append, List.length_cons, List.length_nil]
      omega
  | get =>
    refine ⟨s, _, rfl, ?_⟩
    have hL : ∀ e0 : Entry, e0 ≠ .get → (Last (log ++ [.get]) e0 ↔ Last log e0) := by
      intro e0 h0
      rw [last_snoc]
      constructor
      · rintro (rfl | ⟨_, hl⟩)
        · exact absurd rfl h0
        · exact hl
      · intro hl
        refine .inr ⟨?_, hl⟩
        cases e0 <;> simp_all [Entry.about]
    constructor
    · intro d b
      rw [h.prepare_iff]
      simp only [hL _ (by simp : Entry.prepare d _ ≠ .get)]
    · intro d b
      rw [h.commit_iff]
      simp only [hL _ (by simp : Entry.commit d _ ≠ .get)]
    · intro d
      rw [h.discard_iff, hL _ (by simp)]
    · exact h.prepare_nodup
    · exact h.commit_nodup
    · exact h.discard_nodup
    · have := h.prepare_le
      simp
      omega
    · have := h.commit_le
      simp
      omega
    · have := h.discard_le
      simp
      omega

/-- An entry that was executed was the next step of its batch, if it does not reuse an identifier. -/
theorem Inv.next_of_goes {log : List Entry} {s : Raw} (h : Inv log s) {e : Entry} (he : e.Valid)
    (hf : ∀ d txs, e = .prepare d txs → Closed log d) {b : Bytes}
    (hb : e.command.write = some b) {t : Raw} {r : Option Bytes} (hg : s.exec b = .goes t r) :
    Next log e := by
  rw [exec_entry s e he b hb] at hg
  cases e with
  | prepare d txs => exact hf d txs rfl
  | commit d p =>
    simp only [Raw.run] at hg
    split at hg
    · next hd => exact (h.prepare_key d).mp hd
    · cases hg
  | discard d =>
    simp only [Raw.run] at hg
    split at hg
    · next hd => exact (h.commit_key d).mp hd
    · cases hg
  | done d =>
    simp only [Raw.run] at hg
    split at hg
    · next hd => exact (h.discard_iff d).mp hd
    · cases hg
  | get => exact trivial

theorem fresh_init {log : List Entry} {e : Entry} (h : Fresh (log ++ [e])) : Fresh log := by
  intro pre d txs post hl
  exact h pre d txs (post ++ [e]) (by rw [hl]; simp)

theorem fresh_last {log : List Entry} {e : Entry} (h : Fresh (log ++ [e])) (d : Bytes)
    (txs : tPrepare.val) (he : e = .prepare d txs) : Closed log d :=
  h log d txs [] (by rw [he])

theorem reach_inv {log : List Entry} {s : Raw} (h : Reach log s) (hv : ∀ e ∈ log, e.Valid)
    (hf : Fresh log) : Inv log s := by
  induction h with
  | start => exact .nil
  | @step log s s' t e b r _ hs hb hg ih =>
    have hI := (ih (fun e he => hv e (by simp [he])) (fresh_init hf)).same hs
    have he := hv e (by simp)
    have hn := hI.next_of_goes he (fresh_last hf) hb hg
    obtain ⟨t', r', hg', hI'⟩ := hI.next he hn hb
    rw [hg] at hg'
    injection hg' with h1 _
    subst h1
    exact hI'

theorem exists_map {α β : Type} (f : β → α) (P : β → Prop) (l : List α)
    (h : ∀ x ∈ l, ∃ y, x = f y ∧ P y) : ∃ l' : List β, l = l'.map f ∧ ∀ y ∈ l', P y := by
  induction l with
  | nil => exact ⟨[], rfl, by simp⟩
  | cons x l ih =>
    obtain ⟨y, rfl, hy⟩ := h x (by simp)
    obtain ⟨l', rfl, hl'⟩ := ih fun z hz => h z (by simp [hz])
    refine ⟨y :: l', rfl, ?_⟩
    intro z hz
    rcases List.mem_cons.mp hz with rfl | hz
    · exact hy
    · exact hl' z hz

theorem writeRawMap_map (t : Ty) (l : List (Bytes × t.val)) :
    writeRawMap (l.map fun p => (p.1, enc t p.2)) = enc (.umap tHash t) l := by
  simp only [writeRawMap, enc, List.length_map, List.flatMap_map]
  rfl

theorem enc_inj (t : Ty) {v w : t.val} (hv : WF t v) (hw : WF t w) (h : enc t v = enc t w) :
    v = w := by
  have h1 := roundtrip t v hv []
  rw [h, roundtrip t w hw []] at h1
  injection h1 with h1
  exact h1.symm

/-- What a state that agrees with the log is read as. -/
theorem Inv.read {log : List Entry} {s : Raw} (h : Inv log s) (hv : ∀ e ∈ log, e.Valid)
    (hlen : log.length < 2 ^ 64) (rest : Bytes) :
    ∃ P C D, readState (s.write ++ rest) = .ok (P, C, D) rest ∧ Recovered log P C D := by
  obtain ⟨P, hP, hPw⟩ := exists_map (fun p : Bytes × tPrepare.val => (p.1, enc tPrepare p.2))
    (fun p => Last log (.prepare p.1 p.2)) s.prepare (by
      rintro ⟨d, b⟩ hm
      obtain ⟨txs, rfl, hl⟩ := (h.prepare_iff d b).mp hm
      exact ⟨(d, txs), rfl, hl⟩)
  obtain ⟨C, hC, hCw⟩ := exists_map (fun p : Bytes × tCommit.val => (p.1, enc tCommit p.2))
    (fun p => Last log (.commit p.1 p.2)) s.commit (by
      rintro ⟨d, b⟩ hm
      obtain ⟨p, rfl, hl⟩ := (h.commit_iff d b).mp hm
      exact ⟨(d, p), rfl, hl⟩)
  have vP : ∀ d txs, Last log (.prepare d txs) → d.length = 32 ∧ WF tPrepare txs :=
    fun d txs hl => hv _ (last_mem hl)
  have vC : ∀ d p, Last log (.commit d p) → d.length = 32 ∧ WF tCommit p :=
    fun d p hl => hv _ (last_mem hl)
  have vD : ∀ d, Last log (.discard d) → d.length = 32 := fun d hl => hv _ (last_mem hl)
  have kP : P.map Prod.fst = s.prepare.map Prod.fst := by
    rw [hP, List.map_map]
    rfl
  have kC : C.map Prod.fst = s.commit.map Prod.fst := by
    rw [hC, List.map_map]
    rfl
  have lP : P.length = s.prepare.length := by rw [hP, List.length_map]
  have lC : C.length = s.commit.length := by rw [hC, List.length_map]
  have hwrite : s.write = enc tState (P, C, s.discard) := by
    unfold Raw.write
    rw [hP, hC, writeRawMap_map, writeRawMap_map]
    rfl
  have hPle := h.prepare_le
  have hCle := h.commit_le
  have hDle := h.discard_le
  have hwf : WF tState (P, C, s.discard) := by
    have h1 : P.length < 2 ^ 64 := by omega
    have h2 : C.length < 2 ^ 64 := by omega
    have h3 : s.discard.length < 2 ^ 64 := by omega
    refine ⟨⟨h1, kP ▸ h.prepare_nodup, ?_⟩, ⟨h2, kC ▸ h.commit_nodup, ?_⟩,
      h3, h.discard_nodup, ?_⟩
    · intro p hp
      exact vP p.1 p.2 (hPw p hp)
    · intro p hp
      exact vC p.1 p.2 (hCw p hp)
    · intro d hd
      exact vD d ((h.discard_iff d).mp hd)
  refine ⟨P, C, s.discard, ?_, ?_⟩
  · unfold readState
    rw [hwrite]
    exact roundtrip tState _ hwf rest
  · refine ⟨?_, ?_, h.discard_iff, ?_⟩
    · intro d txs
      refine ⟨fun hm => hPw _ hm, fun hl => ?_⟩
      have hm : (d, enc tPrepare txs) ∈ s.prepare := (h.prepare_iff _ _).mpr ⟨txs, rfl, hl⟩
      rw [hP] at hm
      obtain ⟨⟨d', txs'⟩, hy, heq⟩ := List.mem_map.mp hm
      simp only [Prod.mk.injEq] at heq
      obtain ⟨rfl, heq⟩ := heq
      have := enc_inj tPrepare (vP _ _ (hPw _ hy)).2 (vP _ _ hl).2 heq
      dsimp only at this
      rw [← this]
      exact hy
    · intro d p
      refine ⟨fun hm => hCw _ hm, fun hl => ?_⟩
      have hm : (d, enc tCommit p) ∈ s.commit := (h.commit_iff _ _).mpr ⟨p, rfl, hl⟩
      rw [hC] at hm
      obtain ⟨⟨d', p'⟩, hy, heq⟩ := List.mem_map.mp hm
      simp only [Prod.mk.injEq] at heq
      obtain ⟨rfl, heq⟩ := heq
      have := enc_inj tCommit (vC _ _ (hCw _ hy)).2 (vC _ _ hl).2 heq
      dsimp only at this
      rw [← this]
      exact hy
    · rw [List.nodup_append, List.nodup_append]
      refine ⟨kP ▸ h.prepare_nodup, ⟨kC ▸ h.commit_nodup, h.discard_nodup, ?_⟩, ?_⟩
      · intro x hx y hy
        rintro rfl
        rw [kC] at hx
        obtain ⟨p, hl⟩ := (h.commit_key x).mp hx
        exact (nomatch last_unique log _ _ hl ((h.discard_iff x).mp hy) rfl)
      · intro x hx y hy
        rintro rfl
        rw [kP] at hx
        obtain ⟨txs, hl⟩ := (h.prepare_key x).mp hx
        rcases List.mem_append.mp hy with hy | hy
        · rw [kC] at hy
          obtain ⟨p, hl'⟩ := (h.commit_key x).mp hy
          exact (nomatch last_unique log _ _ hl hl' rfl)
        · exact (nomatch last_unique log _ _ hl ((h.discard_iff x).mp hy) rfl)

end Verif.Coordinator.Wire
