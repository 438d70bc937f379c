import Verif.Raft.Model
/-!
# C34: the raft log store is a log
-/
namespace Verif.Raft

open Verif.Serial

variable {E : Type}

/-! ### Specification -/

/-- A log: the index of the first entry and the entries. -/
structure Log (E : Type) where
  start : Nat
  entries : List E

/-- The index after the last entry. -/
def Log.next (l : Log E) : Nat := l.start + l.entries.length

/-- The entry at an index. -/
def Log.at (l : Log E) (i : Nat) : Option E :=
  if l.start ≤ i then l.entries[i - l.start]? else none

/-- What each operation should do to the log. -/
def Log.step (c : Codec E) (l : Log E) : Op E → Log E
  | .append e => { l with entries := l.entries ++ [e] }
  | .writeAt i e => { l with entries := l.entries.take (i - l.start) ++ [e] }
  | .applyPack i b =>
    match unpack c b with
    | none => l
    | some es =>
      { l with
        entries := l.entries.take (i - l.start) ++ es ++
          l.entries.drop (i - l.start + es.length) }
  | .compact last =>
    { start := last + 1, entries := l.entries.drop (last + 1 - l.start) }
  | .flush => l
  | .restart => l
  | .powerLoss _ => l

/-- What NuRaft asks for: overwriting and unpacking inside the log or right after
it, compaction not below the start. -/
def Allowed (c : Codec E) (l : Log E) : Op E → Prop
  | .append _ => True
  | .writeAt i _ => l.start ≤ i ∧ i ≤ l.next
  | .applyPack i b => l.start ≤ i ∧ i ≤ l.next ∧ ∃ es, unpack c b = some es
  | .compact last => l.start ≤ last + 1
  | .flush => True
  | .restart => True
  | .powerLoss _ => False

/-- An empty log does not remember where it ends: the cases in which the store
forgets the index. -/
def Forgets (c : Codec E) (l : Log E) : Op E → Prop
  | .restart => l.entries = [] ∧ l.start ≠ 1
  | .applyPack _ b => unpack c b = some [] ∧ l.entries = [] ∧ l.start ≠ 1
  | _ => False

/-! ### The database as a run of entries -/

/-- Entries at consecutive indexes. -/
def rep : Nat → List E → DB E
  | _, [] => []
  | s, e :: es => (s, e) :: rep (s + 1) es

theorem rep_append (s : Nat) (es fs : List E) :
    rep s (es ++ fs) = rep s es ++ rep (s + es.length) fs := by
  induction es generalizing s with
  | nil => simp [rep]
  | cons e es ih =>
    simp only [List.cons_append, rep, ih, List.length_cons, List.cons_append]
    rw [show s + 1 + es.length = s + (es.length + 1) by omega]

theorem rep_keys (s : Nat) (es : List E) (p : Nat × E) (h : p ∈ rep s es) :
    s ≤ p.1 ∧ p.1 < s + es.length := by
  induction es generalizing s with
  | nil => cases h
  | cons e es ih =>
    simp only [rep, List.mem_cons] at h
    simp only [List.length_cons]
    rcases h with rfl | h
    · simp
    · have := ih _ h
      omega

theorem rep_map (s : Nat) (es : List E) : (rep s es).map (·.2) = es := by
  induction es generalizing s with
  | nil => rfl
  | cons e es ih => simp [rep, ih]

theorem rep_length (s : Nat) (es : List E) : (rep s es).length = es.length := by
  rw [← List.length_map (f := (·.2)), rep_map]

theorem put_rep (s : Nat) (es : List E) (i : Nat) (h1 : s ≤ i)
    (h2 : i ≤ s + es.length) (e : E) :
    (rep s es).put i e =
      rep s (es.take (i - s) ++ [e] ++ es.drop (i - s + 1)) := by
  induction es generalizing s with
  | nil =>
    simp only [List.length_nil, Nat.add_zero] at h2
    have : i = s := by omega
    subst this
    simp [rep, DB.put]
  | cons x es ih =>
    simp only [rep, DB.put]
    rw [if_neg (by omega)]
    by_cases he : i = s
    · subst he
      simp [rep]
    · rw [if_neg he, ih (s + 1) (by omega) (by simp only [List.length_cons] at h2; omega)]
      have e1 : i - s = (i - (s + 1)) + 1 := by omega
      rw [e1]
      simp [rep]

theorem put_rep_end (s : Nat) (es : List E) (e : E) :
    (rep s es).put (s + es.length) e = rep s (es ++ [e]) := by
  rw [put_rep s es _ (by omega) (by omega)]
  have : s + es.length - s = es.length := by omega
  rw [this, List.drop_eq_nil_of_le (by omega)]
  simp

theorem delAll_filter (db : DB E) (ks : List Nat) :
    delAll db ks = db.filter fun p => decide (p.1 ∉ ks) := by
  induction ks generalizing db with
  | nil => exact (List.filter_eq_self.mpr (by simp)).symm
  | cons k ks ih =>
    simp only [delAll, List.foldl_cons] at ih ⊢
    rw [ih, DB.del, List.filter_filter]
    apply List.filter_congr
    intro p _
    by_cases h1 : p.1 = k <;> by_cases h2 : p.1 ∈ ks <;> simp [h1, h2]

theorem filter_rep_lt (s : Nat) (es : List E) (a : Nat) :
    (rep s es).filter (fun p => decide (p.1 < a)) = rep s (es.take (a - s)) := by
  induction es generalizing s with
  | nil => simp [rep]
  | cons x es ih =>
    simp only [rep]
    by_cases h : s < a
    · rw [List.filter_cons_of_pos (by simpa using h), ih]
      have : a - s = (a - (s + 1)) + 1 := by omega
      rw [this]
      rfl
    · rw [List.filter_cons_of_neg (by simpa using h), ih]
      have h1 : a - (s + 1) = 0 := by omega
      have h2 : a - s = 0 := by omega
      rw [h1, h2]
      rfl

theorem filter_rep_ge (s : Nat) (es : List E) (a : Nat) (h : s ≤ a) :
    (rep s es).filter (fun p => decide (a ≤ p.1)) = rep a (es.drop (a - s)) := by
  induction es generalizing s with
  | nil => simp [rep]
  | cons x es ih =>
    simp only [rep]
    by_cases he : s = a
    · subst he
      rw [List.filter_eq_self.mpr]
      · simp [rep]
      · intro p hp
        have := rep_keys s (x :: es) p hp
        simpa using this.1
    · rw [List.filter_cons_of_neg (by simp; omega), ih (s + 1) (by omega)]
      have : a - s = (a - (s + 1)) + 1 := by omega
      rw [this]
      rfl

theorem dropWhile_rep (s : Nat) (es : List E) (a : Nat) (h1 : s ≤ a)
    (h2 : a ≤ s + es.length) :
    (rep s es).dropWhile (fun p => decide (p.1 < a)) = rep a (es.drop (a - s)) := by
  induction es generalizing s with
  | nil => simp [rep]
  | cons x es ih =>
    simp only [rep]
    by_cases he : s = a
    · subst he
      rw [List.dropWhile_cons_of_neg (by simp)]
      simp [rep]
    · rw [List.dropWhile_cons_of_pos (by simp; omega),
        ih (s + 1) (by omega) (by simp only [List.length_cons] at h2; omega)]
      have : a - s = (a - (s + 1)) + 1 := by omega
      rw [this]
      rfl

theorem get_rep (s : Nat) (es : List E) (i : Nat) :
    (rep s es).get i = (Log.mk s es).at i := by
  unfold DB.get Log.at
  induction es generalizing s with
  | nil => simp [rep]
  | cons x es ih =>
    simp only [rep]
    by_cases he : s = i
    · subst he
      simp
    · rw [List.find?_cons_of_neg (by simpa using he), ih]
      by_cases h : s ≤ i
      · rw [if_pos h, if_pos (show s + 1 ≤ i by omega)]
        have : i - s = (i - (s + 1)) + 1 := by omega
        simp only [this, List.getElem?_cons_succ]
      · rw [if_neg h, if_neg (show ¬ s + 1 ≤ i by omega)]

theorem firstIndex_rep (s : Nat) (es : List E) (h : es ≠ [] ∨ s = 1) :
    firstIndex (rep s es) = s := by
  cases es with
  | nil => rcases h with h | h
           · exact absurd rfl h
           · rw [h]; rfl
  | cons e es => rfl

theorem lastIndex_rep (s : Nat) (es : List E) (h : es ≠ [] ∨ s = 1) :
    lastIndex (rep s es) + 1 = s + es.length := by
  by_cases he : es = []
  · subst he
    rcases h with h | h
    · exact absurd rfl h
    · subst h; rfl
  · obtain ⟨fs, e, rfl⟩ : ∃ fs e, es = fs ++ [e] :=
      ⟨es.dropLast, es.getLast he, (List.dropLast_concat_getLast he).symm⟩
    unfold lastIndex
    rw [rep_append]
    simp [rep]
    omega

theorem putAll_rep (s : Nat) (es : List E) (i : Nat) (fs : List E) (h1 : s ≤ i)
    (h2 : i ≤ s + es.length) :
    putAll (rep s es) i fs =
      rep s (es.take (i - s) ++ fs ++ es.drop (i - s + fs.length)) := by
  induction fs generalizing es i with
  | nil => simp [putAll]
  | cons f fs ih =>
    simp only [putAll]
    rw [put_rep s es i h1 h2, ih _ (i + 1) (by omega)]
    · congr 1
      have e1 : i + 1 - s = (i - s) + 1 := by omega
      have hl : (es.take (i - s)).length = i - s := by
        rw [List.length_take]; omega
      rw [e1]
      have t1 : (es.take (i - s) ++ [f] ++ es.drop (i - s + 1)).take (i - s + 1) =
          es.take (i - s) ++ [f] := by
        rw [List.take_left' (by simp [hl])]
      have t2 : (es.take (i - s) ++ [f] ++ es.drop (i - s + 1)).drop
          (i - s + 1 + fs.length) = es.drop (i - s + (fs.length + 1)) := by
        rw [List.drop_append, List.drop_eq_nil_of_le (by simp [hl])]
        simp only [List.nil_append, List.drop_drop]
        congr 1
        simp [hl]
        omega
      rw [t1, t2]
      simp
    · simp only [List.length_append, List.length_take, List.length_drop,
        List.length_singleton]
      omega

/-! ### Refinement -/

/-- The store holds the log. -/
structure Holds (s : Store E) (l : Log E) : Prop where
  db : s.db = rep l.start l.entries
  start : s.start = l.start
  next : s.next = l.next
  pos : 1 ≤ l.start

theorem flush_rep (s : Nat) (es : List E) (h : 1 ≤ s) :
    (rep s es).filter (fun p => p.1 != 0) = rep s es := by
  rw [List.filter_eq_self]
  intro p hp
  have := rep_keys s es p hp
  simp
  omega

theorem Holds.step (c : Codec E) {s : Store E} {l : Log E} (h : Holds s l)
    (op : Op E) (ha : Allowed c l op) (hf : ¬ Forgets c l op) :
    ∃ s', Raft.step c s op = some s' ∧ Holds s' (l.step c op) := by
  have hp := h.pos
  cases op with
  | append e =>
    refine ⟨_, rfl, ?_, h.start, ?_, hp⟩
    · show s.db.put s.next e = rep l.start (l.entries ++ [e])
      rw [h.db, h.next]
      exact put_rep_end _ _ _
    · show s.next + 1 = l.start + (l.entries ++ [e]).length
      rw [h.next]
      simp [Log.next]
      omega
  | writeAt i e =>
    obtain ⟨h1, h2⟩ := ha
    have hn : ¬ s.next < i := by rw [h.next]; omega
    unfold Log.next at h2
    have hl : (l.entries.take (i - l.start)).length = i - l.start := by
      rw [List.length_take]; omega
    refine ⟨_, if_neg hn, ?_, h.start, ?_, hp⟩
    · show delAll (s.db.put i e) _ = rep l.start (l.entries.take (i - l.start) ++ [e])
      rw [h.db, put_rep _ _ _ h1 h2, delAll_filter]
      have hlt := filter_rep_lt l.start
        (l.entries.take (i - l.start) ++ [e] ++ l.entries.drop (i - l.start + 1))
        (i + 1)
      rw [List.take_left' (by simp [hl]; omega)] at hlt
      rw [← hlt]
      apply List.filter_congr
      intro p hp
      have hk := rep_keys _ _ p hp
      simp only [List.length_append, hl, List.length_singleton,
        List.length_drop] at hk
      simp only [List.mem_map, List.mem_range, decide_eq_decide]
      rw [h.next]
      unfold Log.next
      constructor
      · intro hx
        apply Decidable.byContradiction
        intro hlt
        exact hx ⟨p.1 - (i + 1), by omega, by omega⟩
      · rintro hlt ⟨k, _, hk2⟩
        omega
    · show i + 1 = l.start + (l.entries.take (i - l.start) ++ [e]).length
      simp only [List.length_append, hl, List.length_singleton]
      omega
  | applyPack i b =>
    obtain ⟨h1, h2, es, hes⟩ := ha
    unfold Log.next at h2
    have hdb : putAll s.db i es = rep l.start (l.entries.take (i - l.start) ++ es ++
        l.entries.drop (i - l.start + es.length)) := by
      rw [h.db]
      exact putAll_rep _ _ _ _ h1 h2
    have hne : l.entries.take (i - l.start) ++ es ++
        l.entries.drop (i - l.start + es.length) ≠ [] ∨ l.start = 1 := by
      apply Decidable.byContradiction
      intro hn
      simp only [not_or, ne_eq, Decidable.not_not] at hn
      obtain ⟨hn1, hn2⟩ := hn
      have : es = [] := by
        have := List.append_eq_nil_iff.mp hn1
        exact (List.append_eq_nil_iff.mp this.1).2
      subst this
      refine hf ⟨hes, ?_, hn2⟩
      simpa using hn1
    refine ⟨_, by simp only [Raft.step, applyPack, hes]; rfl, ?_, ?_, ?_, ?_⟩
    · simp only [Log.step, hes]
      exact hdb
    · simp only [Log.step, hes]
      show firstIndex (putAll s.db i es) = _
      rw [hdb]
      exact firstIndex_rep _ _ hne
    · simp only [Log.step, hes]
      show lastIndex (putAll s.db i es) + 1 = _
      rw [hdb]
      exact lastIndex_rep _ _ hne
    · simp only [Log.step, hes]
      exact hp
  | compact last =>
    have ha : l.start ≤ last + 1 := ha
    have hn : ¬ last + 1 < s.start := by rw [h.start]; omega
    refine ⟨_, if_neg hn, ?_, rfl, ?_, ?_⟩
    · show delAll s.db _ = rep (last + 1) (l.entries.drop (last + 1 - l.start))
      rw [h.db, delAll_filter, ← filter_rep_ge l.start l.entries (last + 1) ha]
      apply List.filter_congr
      intro p hp
      have hk := rep_keys _ _ p hp
      simp only [List.mem_map, List.mem_range, decide_eq_decide]
      rw [h.start]
      constructor
      · intro hx
        apply Decidable.byContradiction
        intro hlt
        exact hx ⟨p.1 - l.start, by omega, by omega⟩
      · rintro hlt ⟨k, _, hk2⟩
        omega
    · show max s.next (last + 1) =
        last + 1 + (l.entries.drop (last + 1 - l.start)).length
      rw [h.next, List.length_drop]
      unfold Log.next
      omega
    · show 1 ≤ last + 1
      omega
  | flush =>
    refine ⟨_, rfl, ?_, h.start, h.next, hp⟩
    show s.db.filter _ = _
    rw [h.db]
    exact flush_rep _ _ hp
  | restart =>
    have hne : l.entries ≠ [] ∨ l.start = 1 := by
      apply Decidable.byContradiction
      intro hn
      simp only [not_or, ne_eq, Decidable.not_not] at hn
      exact hf ⟨hn.1, hn.2⟩
    refine ⟨_, rfl, h.db, ?_, ?_, hp⟩
    · show firstIndex s.db = _
      rw [h.db]
      exact firstIndex_rep _ _ hne
    · show lastIndex s.db + 1 = _
      rw [h.db]
      exact lastIndex_rep _ _ hne
  | powerLoss k => exact absurd ha id

/-- Histories of a store that starts empty, the specification alongside. -/
inductive History (c : Codec E) : Store E → Log E → Prop where
  | init : History c (load []) ⟨1, []⟩
  | step {s s' : Store E} {l : Log E} (op : Op E) (h : History c s l)
      (ha : Allowed c l op) (hf : ¬ Forgets c l op)
      (hs : Raft.step c s op = some s') : History c s' (l.step c op)

theorem History.holds {c : Codec E} {s : Store E} {l : Log E} (h : History c s l) :
    Holds s l := by
  induction h with
  | init => exact ⟨rfl, rfl, rfl, Nat.le_refl _⟩
  | step op _ ha hf hs ih =>
    obtain ⟨s', h1, h2⟩ := ih.step c op ha hf
    rw [hs] at h1
    cases h1
    exact h2

/-- **C34, in part.** After any permitted history, restarts included, the store
reports exactly the entries of the log: start and next index, the entry and the
term at each index, the last entry and any range.  Missing: an empty log that does
not start at 1 forgets its index on restart, see `C34_restart_violated`. -/
theorem C34_contents_partial (c : Codec E) (s : Store E) (l : Log E)
    (h : History c s l) :
    s.start = l.start ∧ s.next = l.next ∧
    (∀ i, entryAt s i = l.at i) ∧
    (∀ i, termAt c s i = ((l.at i).map c.term).getD 0) ∧
    lastEntry s = l.entries.getLast? ∧
    ∀ a b, l.start ≤ a → a ≤ b → b ≤ l.next → ∃ es,
      logEntries s a b = some es ∧ es.length = b - a ∧
      ∀ i, i < b - a → es[i]? = l.at (a + i) := by
  have hh := h.holds
  refine ⟨hh.start, hh.next, ?_, ?_, ?_, ?_⟩
  · intro i
    unfold entryAt
    rw [hh.db]
    exact get_rep _ _ _
  · intro i
    unfold termAt entryAt
    rw [hh.db, get_rep]
    show (match l.at i with | some e => c.term e | none => 0) = _
    cases l.at i <;> rfl
  · unfold lastEntry
    rw [hh.db, ← List.getLast?_map, rep_map]
  · intro a b h1 h2 h3
    unfold Log.next at h3
    have hlen : (l.entries.drop (a - l.start)).length =
        l.start + l.entries.length - a := by
      rw [List.length_drop]; omega
    refine ⟨(l.entries.drop (a - l.start)).take (b - a), ?_, ?_, ?_⟩
    · unfold logEntries
      rw [if_neg (by omega), hh.db, dropWhile_rep _ _ _ h1 (by omega)]
      simp only [rep_map]
      rw [if_neg (by omega)]
    · rw [List.length_take]; omega
    · intro i hi
      unfold Log.at
      rw [if_pos (by omega), List.getElem?_take, if_pos hi, List.getElem?_drop]
      congr 1
      omega

/-- **C34.** A permitted operation never ends the process. -/
theorem C34_no_crash (c : Codec E) (s : Store E) (l : Log E) (h : History c s l)
    (op : Op E) (ha : Allowed c l op) (hf : ¬ Forgets c l op) :
    (Raft.step c s op).isSome := by
  obtain ⟨s', h1, _⟩ := h.holds.step c op ha hf
  rw [h1]
  rfl

/-- **C34.** The next index never goes backwards except by overwriting; an
appended entry gets the next index; the start index never goes backwards. -/
theorem C34_monotone (c : Codec E) (s s' : Store E) (l : Log E)
    (h : History c s l) (op : Op E) (ha : Allowed c l op)
    (hf : ¬ Forgets c l op) (hs : Raft.step c s op = some s') :
    (s'.next < s.next → ∃ i e, op = .writeAt i e) ∧
    (∀ e, op = .append e → (append s e).2 = s.next ∧ entryAt s' s.next = some e) ∧
    s.start ≤ s'.start := by
  have h0 := h.holds
  have h1 := (History.step op h ha hf hs).holds
  refine ⟨?_, ?_, ?_⟩
  · intro hlt
    cases op with
    | writeAt i e => exact ⟨i, e, rfl⟩
    | _ =>
      exfalso
      rw [h1.next, h0.next] at hlt
      revert hlt
      simp only [Log.step, Log.next]
      first
        | (simp; done)
        | (simp only [List.length_drop]; have : l.start ≤ _ + 1 := ha; omega)
        | (obtain ⟨p1, p2, es, hes⟩ := ha
           simp only [hes, List.length_append, List.length_take, List.length_drop]
           unfold Log.next at p2
           omega)
        | exact absurd ha id
  · rintro e rfl
    refine ⟨rfl, ?_⟩
    unfold entryAt
    rw [h1.db, h0.next, get_rep]
    unfold Log.at Log.next
    simp [Log.step]
  · rw [h1.start, h0.start]
    cases op with
    | compact last => exact ha
    | applyPack i b =>
      obtain ⟨_, _, es, hes⟩ := ha
      simp [Log.step, hes]
    | powerLoss k => exact absurd ha id
    | _ => exact Nat.le_refl _

/-! ### Packs -/

theorem take_left {α : Type} (a b : List α) (n : Nat) (h : a.length = n) :
    (a ++ b).take n = a := List.take_left' h

theorem unpackLoop_enc (c : Codec E) (es : List E) (rest : Bytes) :
    unpackLoop c es.length
      ((es.flatMap fun e => encInt 8 (c.enc e).length ++ c.enc e) ++ rest) =
      some es := by
  induction es with
  | nil => rfl
  | cons e es ih =>
    have h8 : (encInt 8 (c.enc e).length).length = 8 := encInt_length _ _
    simp only [List.length_cons, unpackLoop, List.flatMap_cons, List.append_assoc]
    rw [if_neg (by simp only [List.length_append, h8]; omega),
      List.take_left' h8, List.drop_left' h8,
      leNat_encInt _ _ (Nat.lt_of_lt_of_eq (c.small e) (by decide)),
      if_neg (by simp only [List.length_append]; omega),
      List.take_left' rfl, List.drop_left' rfl, c.exact]
    rw [ih]
    rfl

/-- **C34.** A pack holds the entries of its range: applying it to another store
writes exactly these entries. -/
theorem C34_pack (c : Codec E) (s : Store E) (l : Log E) (h : History c s l)
    (index cnt : Nat) (h1 : l.start ≤ index) (h2 : index + cnt ≤ l.next)
    (h3 : cnt < 2 ^ 31) :
    ∃ b es, pack c s index cnt = some b ∧ unpack c b = some es ∧ es.length = cnt ∧
      ∀ i, i < cnt → es[i]? = l.at (index + i) := by
  obtain ⟨_, _, _, _, _, hr⟩ := C34_contents_partial c s l h
  obtain ⟨es, e1, e2, e3⟩ := hr index (index + cnt) h1 (by omega) h2
  have hlen : es.length = cnt := by omega
  refine ⟨_, es, by unfold pack; rw [e1], ?_, hlen, ?_⟩
  · have h8 : (encInt 8 cnt).length = 8 := encInt_length _ _
    unfold unpack
    rw [if_neg (by simp only [List.length_append, h8]; omega),
      List.take_left' h8, List.drop_left' h8,
      leNat_encInt _ _ (by omega), ← hlen]
    have := unpackLoop_enc c es []
    rwa [List.append_nil] at this
  · intro i hi
    exact e3 i (by omega)

/-! ### Failures of the machine -/

/-- **C34.** What is on the disk after a failure of the machine is the contents at
the last flush or after a later write; if nothing was written since the flush,
nothing is lost. -/
theorem C34_flushed (c : Codec E) (s : Store E) (l : Log E) (h : History c s l)
    (hne : l.entries ≠ [] ∨ l.start = 1) (k : Nat) (s' : Store E)
    (hs : Raft.step c (flush s) (.powerLoss k) = some s') : Holds s' l := by
  have hh := h.holds
  simp only [Raft.step, flush] at hs
  rw [hh.db, flush_rep _ _ hh.pos] at hs
  cases k with
  | zero =>
    simp only [List.getElem?_cons_zero, Option.map_some, Option.some.injEq] at hs
    subst hs
    exact ⟨rfl, firstIndex_rep _ _ hne, lastIndex_rep _ _ hne, hh.pos⟩
  | succ k => simp at hs

/-- A codec for the examples. -/
def byteCodec : Codec UInt8 :=
  ⟨fun b => [b], fun l => l.headD 0, fun b => b.toNat, fun _ => rfl,
    fun _ => by simp⟩

/-- **C34, counterexample.** A store that was compacted completely (as after a
snapshot) forgets its index when it is restarted: the next index goes from 3 back
to 1, and the next entry is written at 1. -/
theorem C34_restart_violated :
    ∃ (s : Store UInt8) (l : Log UInt8), History byteCodec s l ∧ s.next = 3 ∧
      s.start = 3 ∧ ∃ s', Raft.step byteCodec s .restart = some s' ∧ s'.next = 1 ∧
      s'.start = 1 ∧ (append s' 9).2 = 1 := by
  have h1 := History.step (.append 5) (History.init (c := byteCodec)) trivial id rfl
  have h2 := History.step (.append 6) h1 trivial id rfl
  have h3 := History.step (.compact 2) h2 (by simp [Allowed, Log.step]) id rfl
  exact ⟨_, _, h3, rfl, rfl, _, rfl, rfl, rfl, rfl⟩

/-- **C34, counterexample.** The same happens when an empty pack is applied to an
emptied store. -/
theorem C34_empty_pack_violated :
    ∃ (s : Store UInt8) (l : Log UInt8), History byteCodec s l ∧ s.next = 3 ∧
      ∃ s', Raft.step byteCodec s (.applyPack 3 [0, 0, 0, 0, 0, 0, 0, 0]) = some s' ∧
      s'.next = 1 := by
  have h1 := History.step (.append 5) (History.init (c := byteCodec)) trivial id rfl
  have h2 := History.step (.append 6) h1 trivial id rfl
  have h3 := History.step (.compact 2) h2 (by simp [Allowed, Log.step]) id rfl
  exact ⟨_, _, h3, rfl, _, rfl, rfl⟩

/-- **C34, counterexample.** An entry whose index has been returned by `append`
is lost if the machine fails before a flush: writes are not synchronous. -/
theorem C34_power_violated :
    ∃ (s : Store UInt8) (l : Log UInt8), History byteCodec s l ∧
      entryAt s 1 = some 5 ∧
      ∃ s', Raft.step byteCodec s (.powerLoss 0) = some s' ∧ entryAt s' 1 = none ∧
      s'.next = 1 := by
  have h1 := History.step (.append 5) (History.init (c := byteCodec)) trivial id rfl
  exact ⟨_, _, h1, rfl, _, rfl, rfl, rfl⟩

/-! ### Examples -/

/-- A history with an overwrite, a compaction and a restart. -/
example : ∃ (s : Store UInt8) (l : Log UInt8), History byteCodec s l ∧
    l.start = 2 ∧ l.entries = [7, 8] ∧ s.next = 4 := by
  have h1 := History.step (.append 5) (History.init (c := byteCodec)) trivial id rfl
  have h2 := History.step (.append 6) h1 trivial id rfl
  have h3 := History.step (.writeAt 2 7) h2 (by simp [Allowed, Log.step, Log.next]) id rfl
  have h4 := History.step (.compact 1) h3 (by simp [Allowed, Log.step]) id rfl
  have h5 := History.step .restart h4 trivial (fun h => nomatch h.1) rfl
  have h6 := History.step (.append 8) h5 trivial id rfl
  exact ⟨_, _, h6, rfl, rfl, rfl⟩

end Verif.Raft
