import Verif.Raft.State
import Mathlib.Data.List.Nodup

/-! Property C104: a raft node does not forget its vote, and so no two leaders are elected in a term. -/
namespace Verif.Raft.State

open Verif.Serial

/-! ### Specification -/

/-- What is read back is what was written. -/
def Codec.Faithful (C : Codec) : Prop := ∀ s, C.dec (C.enc s) = some s

/-- Writes reach the file completely, and the power stays on. -/
def Sound (C : Codec) : Ev → Prop
  | .vote _ t c ps => ps.flatten = C.enc ⟨t, some c⟩
  | .learn _ t ps => ps.flatten = C.enc ⟨t, none⟩
  | .power _ _ _ => False
  | _ => True

/-- More than half of the `n` nodes voted for a candidate. -/
def Elected (n : Nat) (grants : List Grant) (term cand : Nat) : Prop :=
  n < 2 * ((List.range n).filter fun i => decide (⟨i, term, cand⟩ ∈ grants)).length

/-! ### Files -/

theorem runOps_append (fs : Fs) (a b : List Op) :
    runOps fs (a ++ b) = (runOps fs a).bind fun fs' => runOps fs' b := by
  induction a generalizing fs with
  | nil => rfl
  | cons o a ih =>
    simp only [List.cons_append, runOps]
    cases o.run fs with
    | none => rfl
    | some fs' => exact ih fs'

theorem runOps_writes (m : Option Bytes) (t : Bytes) (ps : List Bytes) :
    runOps ⟨m, some t⟩ (ps.map .write) = some ⟨m, some (t ++ ps.flatten)⟩ := by
  induction ps generalizing t with
  | nil => simp [runOps]
  | cons p ps ih => simp [runOps, Op.run, ih, List.append_assoc]

/-- **C104.** Wherever a save is cut off by the end of the process, what is loaded afterwards is the old object or the new one,
and the new one when the save was complete. -/
theorem C104_atomic (C : Codec) (hC : C.Faithful) (fs : Fs) (s : Srv) (pieces : List Bytes) (hp : pieces.flatten = C.enc s)
    (k : Nat) : ∃ fs', runOps fs ((saveOps pieces).take k) = some fs' ∧
      (load C fs' = load C fs ∨ load C fs' = .got s) ∧
      ((saveOps pieces).length ≤ k → load C fs' = .got s) := by
  have full : runOps fs (saveOps pieces) = some ⟨some (C.enc s), none⟩ := by
    simp only [saveOps, List.cons_append, List.nil_append, runOps, Op.run]
    rw [runOps_append, runOps_writes]
    simp [runOps, Op.run, hp]
  by_cases hk : (saveOps pieces).length ≤ k
  · refine ⟨_, by rw [List.take_of_length_le hk]; exact full, .inr ?_, fun _ => ?_⟩ <;> simp [load, hC s]
  · have hk' : k < pieces.length + 2 := by simp [saveOps] at hk; omega
    cases k with
    | zero => exact ⟨fs, rfl, .inl rfl, fun h => absurd h hk⟩
    | succ k =>
      have ht : (saveOps pieces).take (k + 1) = .openTmp :: (pieces.take k).map .write := by
        simp only [saveOps, List.cons_append, List.nil_append, List.take_succ_cons]
        rw [List.take_append_of_le_length (by simp; omega), List.map_take]
      refine ⟨⟨fs.main, some ((pieces.take k).flatten)⟩, ?_, .inl rfl, fun h => absurd h hk⟩
      rw [ht]
      simp only [runOps, Op.run]
      rw [runOps_writes]
      simp

/-! ### Votes -/

/-- What the node would start with. -/
def disk (C : Codec) (fs : Fs) : Option Srv :=
  match load C fs with
  | .absent => some ⟨0, none⟩
  | .got s => some s
  | .throws => none

/-- A state may follow another. -/
def Later (a b : Srv) : Prop := a.term < b.term ∨ (a.term = b.term ∧ (a.voted = none ∨ a.voted = b.voted))

theorem later_refl (a : Srv) : Later a a := .inr ⟨rfl, .inr rfl⟩

/-- A state remembers a vote. -/
def Remembers (s : Srv) (t c : Nat) : Prop := t < s.term ∨ (t = s.term ∧ s.voted = some c)

theorem remembers_later {a b : Srv} {t c : Nat} (h : Later a b) (hr : Remembers a t c) : Remembers b t c := by
  rcases hr with hr | ⟨h1, h2⟩
  · rcases h with h | ⟨h, _⟩
    · exact .inl (Nat.lt_trans hr h)
    · exact .inl (h ▸ hr)
  · rcases h with h | ⟨h, h'⟩
    · exact .inl (h1 ▸ h)
    · refine .inr ⟨h1.trans h, ?_⟩
      rcases h' with h' | h'
      · rw [h2] at h'; cases h'
      · rw [← h', h2]

/-- What holds of a node and the votes it has sent. -/
structure Inv (C : Codec) (nd : Node) (sent : Nat → Nat → Prop) : Prop where
  /-- The file can be read and remembers all votes sent. -/
  stored : ∃ d, disk C nd.fs = some d ∧ (∀ t c, sent t c → Remembers d t c) ∧
    (match nd.mem with
      | none => nd.ops = [] ∧ nd.reply = none
      | some s =>
        (nd.ops = [] → d = s) ∧
        (nd.ops ≠ [] → Later d s ∧ ∃ ps : List Bytes, ∃ pre : Bytes,
          (nd.ops = saveOps ps ∧ ps.flatten = C.enc s) ∨
          (nd.fs.tmp = some pre ∧ nd.ops = ps.map .write ++ [.rename] ∧ pre ++ ps.flatten = C.enc s)))
  once : ∀ t c c', sent t c → sent t c' → c = c'
  reply : ∀ t c, nd.reply = some (t, c) → nd.mem = some ⟨t, some c⟩

theorem inv_new (C : Codec) : Inv C ⟨⟨none, none⟩, none, [], none, []⟩ fun _ _ => False :=
  ⟨⟨⟨0, none⟩, rfl, by simp, rfl, rfl⟩, by simp, by simp⟩

theorem inv_save (C : Codec) {nd : Node} {sent : Nat → Nat → Prop} (h : Inv C nd sent) {s s' : Srv} (hm : nd.mem = some s)
    (hi : nd.idle = true) (hl : Later s s') (ps : List Bytes) (hp : ps.flatten = C.enc s') (r : Option (Nat × Nat))
    (hr : ∀ t c, r = some (t, c) → s' = ⟨t, some c⟩) : Inv C (nd.save s' ps r) sent := by
  obtain ⟨⟨d, hd, hs, hrest⟩, honce, _⟩ := h
  simp only [Node.idle, Bool.and_eq_true, beq_iff_eq] at hi
  rw [hm] at hrest
  have hds := hrest.1 hi.1
  subst hds
  refine ⟨⟨d, hd, hs, ?_⟩, honce, ?_⟩
  · exact ⟨fun h => by simp [Node.save, saveOps] at h, fun _ => ⟨hl, ps, [], .inl ⟨rfl, hp⟩⟩⟩
  · intro t c ht
    simp only [Node.save] at ht ⊢
    rw [hr t c ht]

theorem later_of_mayVote {s : Srv} {t c : Nat} (h : mayVote s t c = true) : Later s ⟨t, some c⟩ := by
  simp only [mayVote, Bool.or_eq_true, Bool.and_eq_true, decide_eq_true_eq, beq_iff_eq] at h
  rcases h with h | ⟨h1, h2⟩
  · exact .inl h
  · exact .inr ⟨h1, h2⟩

theorem inv_vote (C : Codec) {nd : Node} {sent : Nat → Nat → Prop} (h : Inv C nd sent) (t c : Nat) (ps : List Bytes)
    (hp : ps.flatten = C.enc ⟨t, some c⟩) : Inv C (nd.vote t c ps) sent := by
  unfold Node.vote
  split
  · rename_i s hm
    split
    · rename_i hc
      simp only [Bool.and_eq_true] at hc
      exact inv_save C h hm hc.1 (later_of_mayVote hc.2) ps hp _ (by rintro t' c' ⟨⟩; rfl)
    · exact h
  · exact h

theorem inv_learn (C : Codec) {nd : Node} {sent : Nat → Nat → Prop} (h : Inv C nd sent) (t : Nat) (ps : List Bytes)
    (hp : ps.flatten = C.enc ⟨t, none⟩) : Inv C (nd.learn t ps) sent := by
  unfold Node.learn
  split
  · rename_i s hm
    split
    · rename_i hc
      simp only [Bool.and_eq_true, decide_eq_true_eq] at hc
      exact inv_save C h hm hc.1 (.inl hc.2) ps hp _ (by simp)
    · exact h
  · exact h

theorem inv_kill (C : Codec) {nd : Node} {sent : Nat → Nat → Prop} (h : Inv C nd sent) : Inv C nd.kill sent := by
  obtain ⟨⟨d, hd, hs, _⟩, honce, _⟩ := h
  exact ⟨⟨d, hd, hs, rfl, rfl⟩, honce, by simp [Node.kill]⟩

theorem inv_start (C : Codec) {nd : Node} {sent : Nat → Nat → Prop} (h : Inv C nd sent) : Inv C (nd.start C) sent := by
  unfold Node.start
  split
  · exact h
  · rename_i hm
    obtain ⟨⟨d, hd, hs, hrest⟩, honce, _⟩ := h
    rw [hm] at hrest
    simp only at hrest
    split
    · rename_i hl
      have : d = ⟨0, none⟩ := by simpa [disk, hl, eq_comm] using hd
      exact ⟨⟨d, hd, hs, by simp [hrest.1, this]⟩, honce, by simp [hrest.2]⟩
    · rename_i s hl
      have : d = s := by simpa [disk, hl, eq_comm] using hd
      exact ⟨⟨d, hd, hs, by simp [hrest.1, this]⟩, honce, by simp [hrest.2]⟩
    · exact ⟨⟨d, hd, hs, by rw [hm]; exact hrest⟩, honce, by simp [hrest.2]⟩

theorem inv_move (C : Codec) (hC : C.Faithful) {nd : Node} {sent : Nat → Nat → Prop} (h : Inv C nd sent) :
    Inv C nd.move.1 fun t c => sent t c ∨ nd.move.2 = some (t, c) := by
  obtain ⟨⟨d, hd, hs, hrest⟩, honce, hrep⟩ := h
  cases hops : nd.ops with
  | nil =>
    have hmv : nd.move = ({ nd with reply := none }, nd.reply) := by simp [Node.move, hops]
    have hnew : ∀ t c, nd.reply = some (t, c) → d = ⟨t, some c⟩ := by
      intro t c h
      have hm := hrep t c h
      rw [hm] at hrest
      exact hrest.1 hops
    rw [hmv]
    refine ⟨⟨d, hd, ?_, ?_⟩, ?_, by simp⟩
    · rintro t c (h | h)
      · exact hs t c h
      · exact .inr (by simp [hnew t c h])
    · cases hm : nd.mem with
      | none => exact ⟨hops, rfl⟩
      | some s => rw [hm] at hrest; exact hrest
    · have key : ∀ t c c', sent t c → nd.reply = some (t, c') → c = c' := by
        intro t c c' h1 h2
        have hr := hs t c h1
        rw [hnew t c' h2] at hr
        rcases hr with hr | ⟨_, hr⟩
        · exact absurd hr (Nat.lt_irrefl _)
        · exact (Option.some.inj hr).symm
      rintro t c c' (h1 | h1) (h2 | h2)
      · exact honce t c c' h1 h2
      · exact key t c c' h1 h2
      · exact (key t c' c h2 h1).symm
      · simp only at h1 h2
        rw [h1] at h2
        cases h2
        rfl
  | cons o os =>
    cases hm : nd.mem with
    | none => rw [hm] at hrest; simp [hops] at hrest
    | some s =>
      rw [hm] at hrest
      obtain ⟨hl, ps, pre, hcase⟩ := hrest.2 (by simp [hops])
      have honly : ∀ t c, sent t c ∨ (none : Option (Nat × Nat)) = some (t, c) → sent t c := by
        rintro t c (h | h)
        · exact h
        · cases h
      have hrep' : ∀ t c, nd.reply = some (t, c) → some s = some ⟨t, some c⟩ := by
        intro t c ht
        rw [← hrep t c ht, hm]
      have hone : ∀ t c c', (sent t c ∨ (none : Option (Nat × Nat)) = some (t, c)) →
          (sent t c' ∨ (none : Option (Nat × Nat)) = some (t, c')) → c = c' :=
        fun t c c' h1 h2 => honce t c c' (honly t c h1) (honly t c' h2)
      rcases hcase with ⟨h1, h2⟩ | ⟨h1, h2, h3⟩
      · rw [hops] at h1
        simp only [saveOps, List.cons_append, List.nil_append, List.cons.injEq] at h1
        obtain ⟨rfl, rfl⟩ := h1
        simp only [Node.move, hops, Op.run]
        refine ⟨⟨d, hd, fun t c h => hs t c (honly t c h), ?_⟩, hone, by simpa [hm] using hrep'⟩
        simp only [hm]
        exact ⟨fun h => by simp at h, fun _ => ⟨hl, ps, [], .inr ⟨rfl, rfl, by simpa using h2⟩⟩⟩
      · rw [hops] at h2
        cases ps with
        | nil =>
          simp only [List.map_nil, List.nil_append, List.cons.injEq] at h2
          obtain ⟨rfl, rfl⟩ := h2
          simp only [List.flatten_nil, List.append_nil] at h3
          simp only [Node.move, hops, Op.run, h1, Option.map_some]
          refine ⟨⟨s, ?_, fun t c h => remembers_later hl (hs t c (honly t c h)), ?_⟩, hone, by simpa [hm] using hrep'⟩
          · simp [disk, load, h3, hC s]
          · simp [hm]
        | cons p ps =>
          simp only [List.map_cons, List.cons_append, List.cons.injEq] at h2
          obtain ⟨rfl, rfl⟩ := h2
          simp only [Node.move, hops, Op.run, h1, Option.map_some]
          refine ⟨⟨d, hd, fun t c h => hs t c (honly t c h), ?_⟩, hone, by simpa [hm] using hrep'⟩
          simp only [hm]
          exact ⟨fun h => by simp at h, fun _ => ⟨hl, ps, pre ++ p, .inr ⟨rfl, rfl, by simpa using h3⟩⟩⟩

/-- What holds of all nodes. -/
def All (C : Codec) (s : Sys) : Prop := ∀ n, Inv C (s.nodes n) fun t c => ⟨n, t, c⟩ ∈ s.grants

theorem all_set (C : Codec) {s : Sys} (h : All C s) (n : Nat) {nd : Node}
    (hn : Inv C nd fun t c => ⟨n, t, c⟩ ∈ s.grants) : All C (s.set n nd) := by
  intro i
  simp only [Sys.set]
  by_cases hi : i = n
  · subst hi; rw [if_pos rfl]; exact hn
  · rw [if_neg hi]; exact h i

theorem inv_weaken (C : Codec) {nd : Node} {p q : Nat → Nat → Prop} (h : Inv C nd p) (hq : ∀ t c, q t c → p t c) :
    Inv C nd q := by
  obtain ⟨⟨d, hd, hs, hr⟩, ho, h2⟩ := h
  exact ⟨⟨d, hd, fun t c hc => hs t c (hq t c hc), hr⟩, fun t c c' h h' => ho t c c' (hq t c h) (hq t c' h'), h2⟩

theorem all_step (C : Codec) (hC : C.Faithful) {s : Sys} (h : All C s) (e : Ev) (he : Sound C e) : All C (step C s e) := by
  cases e with
  | vote n t c ps => exact all_set C h n (inv_vote C (h n) t c ps he)
  | learn n t ps => exact all_set C h n (inv_learn C (h n) t ps he)
  | kill n => exact all_set C h n (inv_kill C (h n))
  | start n => exact all_set C h n (inv_start C (h n))
  | power n v k => exact he.elim
  | move n =>
    have hm := inv_move C hC (h n)
    simp only [step]
    cases hr : (s.nodes n).move.2 with
    | none =>
      exact all_set C h n (inv_weaken C hm fun t c hc => .inl hc)
    | some v =>
      simp only
      intro i
      have hset := all_set C h n (inv_weaken C hm fun t c hc => .inl hc) i
      by_cases hi : i = n
      · subst hi
        simp only [Sys.set, if_true] at hset ⊢
        refine inv_weaken C hm fun t c hc => ?_
        rcases List.mem_append.mp hc with hc | hc
        · exact .inl hc
        · simp only [List.mem_singleton, Grant.mk.injEq, true_and] at hc
          exact .inr (by rw [hr, hc.1, hc.2])
      · refine inv_weaken C hset fun t c hc => ?_
        rcases List.mem_append.mp hc with hc | hc
        · exact hc
        · simp only [List.mem_singleton, Grant.mk.injEq] at hc
          exact absurd hc.1 hi

theorem all_run (C : Codec) (hC : C.Faithful) (evs : List Ev) (s : Sys) (h : All C s) (he : ∀ e ∈ evs, Sound C e) :
    All C (run C s evs) := by
  induction evs generalizing s with
  | nil => exact h
  | cons e evs ih =>
    exact ih _ (all_step C hC h e (he e (by simp))) fun e' h' => he e' (by simp [h'])

/-! ### C104 -/

/-- **C104.** However often a node is killed and started, at whatever moment, it never votes for two candidates in a term. -/
theorem C104_vote_once_partial (C : Codec) (hC : C.Faithful) (evs : List Ev) (he : ∀ e ∈ evs, Sound C e) (n t c c' : Nat)
    (h : ⟨n, t, c⟩ ∈ (run C new evs).grants) (h' : ⟨n, t, c'⟩ ∈ (run C new evs).grants) : c = c' :=
  (all_run C hC evs new (fun _ => inv_weaken C (inv_new C) (by simp [new])) he n).once t c c' h h'

/-- **C104.** Hence no two leaders are elected in a term. -/
theorem C104_one_leader_partial (C : Codec) (hC : C.Faithful) (evs : List Ev) (he : ∀ e ∈ evs, Sound C e) (n t c c' : Nat)
    (h : Elected n (run C new evs).grants t c) (h' : Elected n (run C new evs).grants t c') : c = c' := by
  by_contra hne
  have hdis : ∀ i, ¬ ((decide ((⟨i, t, c⟩ : Grant) ∈ (run C new evs).grants)) = true ∧
      (decide ((⟨i, t, c'⟩ : Grant) ∈ (run C new evs).grants)) = true) := by
    intro i ⟨h1, h2⟩
    exact hne (C104_vote_once_partial C hC evs he i t c c' (of_decide_eq_true h1) (of_decide_eq_true h2))
  have key : ∀ (p q : Nat → Bool) (l : List Nat), (∀ i, ¬ (p i = true ∧ q i = true)) →
      (l.filter p).length + (l.filter q).length ≤ l.length := by
    intro p q l hpq
    induction l with
    | nil => simp
    | cons x l ih =>
      have := hpq x
      cases hp : p x <;> cases hq : q x <;> simp_all <;> omega
  have := key _ _ (List.range n) hdis
  simp only [List.length_range] at this
  unfold Elected at h h'
  omega

/-- **C104.** A node that is down can always be started again: it never finds a file it cannot read. -/
theorem C104_starts_partial (C : Codec) (hC : C.Faithful) (evs : List Ev) (he : ∀ e ∈ evs, Sound C e) (n : Nat) :
    ((run C new (evs ++ [.start n])).nodes n).mem ≠ none := by
  obtain ⟨⟨d, hd, _, _⟩, _, _⟩ := all_run C hC evs new (fun _ => inv_weaken C (inv_new C) (by simp [new])) he n
  simp only [run, List.foldl_append, List.foldl_cons, List.foldl_nil, step, Sys.set, if_true]
  rw [← run]
  unfold Node.start
  split
  · rename_i s hm; simp [hm]
  · split
    · simp
    · simp
    · rename_i hl; simp [disk, hl] at hd

/-- C104. Nodes with the same endpoints and no file begin with the same cluster, in which the ids are those the nodes run
under, each once; and the first node is preferred. -/
theorem C104_cluster (endpoints : List (Bytes × Nat)) :
    (loadConfig none endpoints).map (·.id) = (List.range endpoints.length).map serverId ∧
    (loadConfig none endpoints).map (·.endpoint) = endpoints ∧
    ((loadConfig none endpoints).map (·.id)).Nodup ∧
    ∀ (i : Nat) (s : Server), (loadConfig none endpoints)[i]? = some s → (s.priority = 100 ↔ i = 0) := by
  have h1 : (loadConfig none endpoints).map (·.id) = (List.range endpoints.length).map serverId := by
    apply List.ext_getElem?
    intro i
    simp only [loadConfig, List.getElem?_map, List.getElem?_mapIdx, Option.map_map, Function.comp_def]
    by_cases hi : i < endpoints.length
    · simp [hi, serverId]
    · simp [hi]
  refine ⟨h1, ?_, ?_, ?_⟩
  · apply List.ext_getElem?
    intro i
    simp [loadConfig, List.getElem?_mapIdx, Function.comp_def]
  · rw [h1]
    exact (List.nodup_range).map (fun a b h => Nat.succ.inj h)
  · intro i s hs
    simp only [loadConfig, List.getElem?_mapIdx, Option.map_eq_some_iff] at hs
    obtain ⟨e, _, rfl⟩ := hs
    by_cases hi : i = 0 <;> simp [hi]

/-! #### What is missing -/

/-- A faithful codec, for examples. -/
def plain : Codec where
  enc s := List.replicate s.term (0 : UInt8) ++ 1 :: (s.voted.elim [] fun v => 1 :: List.replicate v 0)
  dec b :=
    let t := b.takeWhile (· == 0)
    match b.drop t.length with
    | [] => none
    | [_] => some ⟨t.length, none⟩
    | _ :: _ :: r => some ⟨t.length, some r.length⟩

theorem plain_faithful : plain.Faithful := by
  rintro ⟨t, v⟩
  have h : ∀ r : Bytes, (List.replicate t (0 : UInt8) ++ 1 :: r).takeWhile (· == 0) = List.replicate t 0 := by
    intro r
    induction t with
    | zero => simp
    | succ k ih => simp [List.replicate_succ, ih]
  cases v with
  | none => simp [plain, h]
  | some v => simp [plain, h]

/-- A node is started and votes. -/
def ballot (n t c : Nat) (pieces : List Bytes) : List Ev :=
  [.start n, .vote n t c pieces] ++ List.replicate (pieces.length + 3) (.move n)

/-- **C104 (violated).** Nothing is synchronised to the disk. When a node loses its power after it voted, it may
vote again for somebody else, and there are two leaders in one term. -/
theorem C104_power_violated : ∃ evs : List Ev, (∀ e ∈ evs, Sound plain e ∨ ∃ n v k, e = .power n v k) ∧ plain.Faithful ∧
    Elected 3 (run plain new evs).grants 1 0 ∧ Elected 3 (run plain new evs).grants 1 2 := by
  refine ⟨ballot 0 1 0 [[0, 1, 1]] ++ ballot 1 1 0 [[0], [1, 1]] ++ [.power 1 1 9] ++ ballot 1 1 2 [[0, 1, 1, 0, 0]] ++ ballot 2 1 2 [[0, 1, 1, 0, 0]],
    ?_, plain_faithful, ?_, ?_⟩
  · intro e he
    simp [ballot, List.replicate] at he
    rcases he with rfl | rfl | rfl | rfl | rfl | rfl | rfl | rfl | rfl | rfl | rfl | rfl | rfl <;> simp [Sound, plain, List.replicate]
  · unfold Elected; decide +kernel
  · unfold Elected; decide +kernel

/-- **C104 (violated).** Errors of writing are not looked at: when the disk is full, the good file is replaced by an empty one, and
the node does not start again, however often one tries. -/
theorem C104_full_violated (C : Codec) (hC : C.dec [] = none) (t c : Nat) (tries : Nat) :
    let evs := ballot 0 (t + 1) c []
    ⟨0, t + 1, c⟩ ∈ (run C new evs).grants ∧
    ((run C new (evs ++ .kill 0 :: List.replicate tries (.start 0))).nodes 0).mem = none := by
  have h1 : run C new (ballot 0 (t + 1) c []) =
      { nodes := fun i => if i = 0 then ⟨⟨some [], none⟩, some ⟨t + 1, some c⟩, [], none, [none]⟩
          else ⟨⟨none, none⟩, none, [], none, []⟩, grants := [⟨0, t + 1, c⟩] } := by
    simp [run, ballot, List.replicate, step, new, Sys.set, Node.start, load, Node.vote, Node.idle, mayVote, Node.save,
      saveOps, Node.move, Op.run]
    funext i
    by_cases hi : i = 0 <;> simp [hi]
  refine ⟨by simp [h1], ?_⟩
  have h2 : run C new (ballot 0 (t + 1) c [] ++ .kill 0 :: List.replicate tries (.start 0)) =
      run C (step C (run C new (ballot 0 (t + 1) c [])) (.kill 0)) (List.replicate tries (.start 0)) := by
    simp [run, List.foldl_append]
  rw [h2, h1]
  generalize hs : step C _ (.kill 0) = s
  have hn : (s.nodes 0) = ⟨⟨some [], none⟩, none, [], none, [none]⟩ := by
    subst hs; simp [step, Sys.set, Node.kill]
  clear hs h1 h2
  induction tries generalizing s with
  | zero => simp [run, hn]
  | succ k ih =>
    simp only [List.replicate_succ, run, List.foldl_cons]
    exact ih _ (by simp [step, Sys.set, hn, Node.start, load, hC])

/-! #### Examples -/

/-- Killed between the rename and the answer, started again, and asked by the other candidate: no vote for it. -/
example : (run plain new (ballot 0 1 0 [[0], [1, 1]] ++ [.kill 0] ++ ballot 0 1 2 [[0, 1, 1, 0, 0]])).grants = [⟨0, 1, 0⟩] := by
  decide +kernel

/-- Killed while it writes: the vote was not sent, and it may vote for another. -/
example : (run plain new ([.start 0, .vote 0 1 0 [[0], [1, 1]], .move 0, .move 0, .kill 0] ++ ballot 0 1 2 [[0, 1, 1, 0, 0]])).grants =
    [⟨0, 1, 2⟩] := by
  decide +kernel

example : Elected 3 (run plain new (ballot 0 1 0 [[0, 1, 1]] ++ ballot 1 1 0 [[0], [1, 1]])).grants 1 0 := by
  unfold Elected; decide +kernel

end Verif.Raft.State
