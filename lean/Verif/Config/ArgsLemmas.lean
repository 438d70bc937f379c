import Verif.Config.ArgsSpec
import Verif.Config.FileProps
/-!
# Lemmas about reading a command line
-/
namespace Verif.Config.Args

open Verif.Evm (Outcome)
open Verif.Hex (Text)
open Verif.Http (lit stoull)

theorem lit_dashes : lit "--" = [45, 45] := by decide +kernel
theorem lit_equals : lit "=" = [61] := by decide +kernel

/-! ### Taking arguments apart -/

/-- The delimiter is not in the text. -/
def Free (d t : Text) : Prop := ∀ a b, t ≠ a ++ d ++ b

theorem isPrefix_split {d t : Text} (h : d.isPrefixOf t = true) : ∃ b, t = d ++ b := by
  rw [List.isPrefixOf_iff_prefix] at h
  obtain ⟨b, hb⟩ := h
  exact ⟨b, hb.symm⟩

theorem Free.tail {d : Text} {c : UInt8} {t : Text} (h : Free d (c :: t)) : Free d t :=
  fun a b e => h (c :: a) b (by simp [e])

/-- A text without the delimiter is one piece. -/
theorem split_free (d t acc : Text) (h : Free d t) : split d t 0 acc = [acc ++ t] := by
  induction t generalizing acc with
  | nil => simp [split]
  | cons c t ih =>
    have hp : d.isPrefixOf (c :: t) = false := by
      rw [Bool.eq_false_iff]
      intro hp
      obtain ⟨b, hb⟩ := isPrefix_split hp
      exact h [] b (by simpa using hb)
    rw [split, hp]
    simp only [Bool.false_eq_true, if_false]
    rw [ih _ h.tail]
    simp

theorem split_dashes (t : Text) : split [45, 45] (45 :: 45 :: t) 0 [] =
    [] :: split [45, 45] t 0 [] := by
  simp [split, List.isPrefixOf]

theorem free_single {x : UInt8} {t : Text} (h : x ∉ t) : Free [x] t := by
  intro a b e
  exact h (by simp [e])

theorem split_single (x : UInt8) (k v acc : Text) (h : x ∉ k) :
    split [x] (k ++ x :: v) 0 acc = (acc ++ k) :: split [x] v 0 [] := by
  induction k generalizing acc with
  | nil => simp [split, List.isPrefixOf]
  | cons c k ih =>
    have hc : x ≠ c := fun e => h (by simp [e])
    rw [List.cons_append, split]
    simp only [List.isPrefixOf, beq_iff_eq, hc, Bool.and_true, if_false]
    rw [ih _ (fun e => h (by simp [e]))]
    simp

theorem parseArg_written (x : Text × Text) (h : Plain x) : parseArg (written x) = .ok x := by
  obtain ⟨k, v⟩ := x
  have e : written (k, v) = 45 :: 45 :: (k ++ 61 :: v) := by
    simp [written, lit_dashes, lit_equals]
  have hf : Free [45, 45] (k ++ 61 :: v) := by
    intro a b he
    exact h.dashes ⟨a, b, by rw [lit_dashes, lit_equals]; simpa using he⟩
  unfold parseArg
  rw [e, split_dashes, split_free _ _ _ hf]
  simp only [List.nil_append]
  rw [if_neg (by simp), split_single _ _ _ _ h.name, split_free _ _ _ (free_single h.value)]
  simp

/-! The other direction: what is taken apart was written in one piece. -/

/-- The pieces with the delimiter between them. -/
def joined (d : Text) : List Text → Text
  | [] => []
  | [a] => a
  | a :: l => a ++ d ++ joined d l

theorem split_ne_nil (d t acc : Text) (k : Nat) : split d t k acc ≠ [] := by
  induction t generalizing k acc with
  | nil => simp [split]
  | cons c t ih =>
    cases k with
    | succ k => rw [split]; exact ih _ _
    | zero =>
      rw [split]
      split
      · simp
      · exact ih _ _

theorem joined_cons (d a : Text) (l : List Text) (h : l ≠ []) :
    joined d (a :: l) = a ++ d ++ joined d l := by
  cases l with
  | nil => exact absurd rfl h
  | cons b l => rfl

theorem joined_split (d t acc : Text) (k : Nat) (hd : d ≠ []) (hk : k ≤ t.length) :
    joined d (split d t k acc) = acc ++ t.drop k := by
  induction t generalizing k acc with
  | nil => simp [split, joined]
  | cons c t ih =>
    cases k with
    | succ k =>
      rw [split, ih _ _ (by simpa using hk)]
      simp
    | zero =>
      rw [split]
      split
      · rename_i hp
        obtain ⟨b, hb⟩ := isPrefix_split hp
        obtain ⟨x, d', rfl⟩ := List.exists_cons_of_ne_nil hd
        have hb' : c = x ∧ t = d' ++ b := by simpa using hb
        obtain ⟨rfl, rfl⟩ := hb'
        rw [joined_cons _ _ _ (split_ne_nil _ _ _ _), ih _ _ (by simp)]
        simp
      · rw [ih _ _ (by simp)]
        simp

/-- The pieces do not have the delimiter: for a single character. -/
theorem split_single_free (x : UInt8) (t acc : Text) (h : x ∉ acc) :
    ∀ a ∈ split [x] t 0 acc, x ∉ a := by
  induction t generalizing acc with
  | nil => simpa [split] using h
  | cons c t ih =>
    rw [split]
    split
    · intro a ha
      simp only [List.length_singleton, Nat.sub_self, List.mem_cons] at ha
      rcases ha with rfl | ha
      · exact h
      · exact ih [] (by simp) a ha
    · rename_i hp
      have hc : x ≠ c := by
        intro e
        apply hp
        simp [List.isPrefixOf, e]
      exact ih _ (by simp [h, hc])

/-- One piece means that the delimiter is not there. -/
theorem split_one (d t acc b : Text) (hd : d ≠ []) (h : split d t 0 acc = [b]) :
    Free d t ∧ b = acc ++ t := by
  induction t generalizing acc with
  | nil =>
    simp only [split, List.cons.injEq, and_true] at h
    refine ⟨?_, by simp [h]⟩
    intro a b e
    have := congrArg List.length e
    have := List.length_pos_iff.mpr hd
    simp_all
  | cons c t ih =>
    rw [split] at h
    split at h
    · simp only [List.cons.injEq] at h
      exact absurd h.2 (split_ne_nil _ _ _ _)
    · rename_i hp
      obtain ⟨h1, h2⟩ := ih _ h
      refine ⟨?_, by simp [h2]⟩
      intro a r e
      cases a with
      | nil =>
        apply hp
        rw [List.isPrefixOf_iff_prefix]
        exact ⟨r, by simpa using e.symm⟩
      | cons y a =>
        simp only [List.cons_append, List.cons.injEq] at e
        exact h1 a r (by simpa using e.2)

theorem parseArg_inv (arg : Text) (x : Text × Text) (h : parseArg arg = .ok x) :
    arg = written x ∧ Plain x := by
  unfold parseArg at h
  split at h
  · rename_i body hb
    split at h
    · exact nomatch h
    · rename_i hne
      split at h
      · rename_i k v hk
        have h : (k, v) = x := by simpa using h
        subst h
        have j1 := joined_split [45, 45] arg [] 0 (by simp) (by simp)
        have j2 := joined_split [61] body [] 0 (by simp) (by simp)
        rw [hb] at j1
        rw [hk] at j2
        simp only [joined, List.nil_append, List.drop_zero] at j1 j2
        have hb' : arg = 45 :: 45 :: body := by rw [← j1]; rfl
        rw [hb', split_dashes] at hb
        have hb : split [45, 45] body 0 [] = [body] := by simpa using hb
        have hf := (split_one _ _ _ _ (by simp) hb).1
        have hs := split_single_free 61 body [] (by simp)
        rw [hk] at hs
        refine ⟨?_, ⟨hs k (by simp), hs v (by simp), ?_⟩⟩
        · rw [hb', ← j2]; simp [written, lit_dashes, lit_equals]
        · rintro ⟨a, b, e⟩
          rw [lit_dashes, lit_equals] at e
          exact hf a b (by rw [← j2, e])
      · exact nomatch h
  · exact nomatch h

theorem parseArgs_inv (args : List Text) (acc r : List (Text × Text))
    (h : parseArgs args acc = .ok r) : ∃ l : List (Text × Text), args = l.map written ∧ (∀ x ∈ l, Plain x) ∧
      ∀ k, r.lookup k = (acc.lookup k).or (l.lookup k) := by
  induction args generalizing acc with
  | nil =>
    have h : acc = r := by simpa [parseArgs] using h
    exact ⟨[], rfl, by simp, fun k => by simp [h]⟩
  | cons a args ih =>
    rw [parseArgs] at h
    obtain ⟨x, h1, h⟩ := bind_inv h
    obtain ⟨l, e, hp, hl⟩ := ih _ h
    obtain ⟨e1, hx⟩ := parseArg_inv a x h1
    refine ⟨x :: l, by simp [e, e1], ?_, ?_⟩
    · intro y hy
      rcases List.mem_cons.mp hy with rfl | hy
      · exact hx
      · exact hp y hy
    · intro k
      rw [hl k]
      obtain ⟨n, v⟩ := x
      simp only [List.lookup]
      by_cases hk : k = n
      · subst hk
        simp only [beq_self_eq_true]
        cases ha : acc.lookup k with
        | none => simp [lookup_snoc, ha]
        | some b => simp [ha]
      · have hk' : (k == n) = false := by simpa using hk
        rw [hk']
        split
        · rfl
        · rw [lookup_snoc, hk']; simp

theorem parseArgs_written (l : List (Text × Text)) (acc : List (Text × Text))
    (h : ∀ x ∈ l, Plain x) : ∃ r, parseArgs (l.map written) acc = .ok r ∧
      ∀ k, r.lookup k = (acc.lookup k).or (l.lookup k) := by
  induction l generalizing acc with
  | nil => exact ⟨acc, rfl, fun k => by simp⟩
  | cons x l ih =>
    obtain ⟨r, h1, h2⟩ := ih (if (acc.lookup x.1).isSome then acc else acc ++ [x])
      fun y hy => h y (by simp [hy])
    refine ⟨r, ?_, ?_⟩
    · simp only [List.map_cons, parseArgs, parseArg_written x (h x (by simp)), Outcome.bind_ok]
      exact h1
    · intro k
      rw [h2 k]
      obtain ⟨n, v⟩ := x
      simp only [List.lookup]
      by_cases hk : k = n
      · subst hk
        simp only [beq_self_eq_true]
        cases ha : acc.lookup k with
        | none => simp [lookup_snoc, ha]
        | some b => simp [ha]
      · have hk' : (k == n) = false := by simpa using hk
        rw [hk']
        split
        · rfl
        · rw [lookup_snoc, hk']; simp

/-! ### Reading what was said -/

variable {o : Opts} {p : Platform} {w : UInt64 → Text} {c : Cfg}

/-- What is said is what is looked up, or it is what is meant anyway. -/
def Told (o : Opts) (w : UInt64 → Text) (c : Cfg) : Prop :=
  (∀ s v, c.says w s = some v → o s.key = some v ∨ (o s.key = none ∧ c.silent s)) ∧
  (c.node = none → o (Name.key .node) = none)

theorem told_states (l : List (Text × Text)) (h : States w c l) :
    Told (fun k => l.lookup k) w c := by
  refine ⟨fun s v hv => ?_, fun hn => ?_⟩
  · dsimp only
    cases hl : l.lookup s.key with
    | some v' =>
      rw [h.right s v' v (lookup_some hl) hv]
      exact .inl rfl
    | none =>
      rcases h.whole s v hv with h | h
      · exact absurd h (lookup_none hl v)
      · exact .inr ⟨rfl, h⟩
  · dsimp only
    cases hl : l.lookup (Name.key .node) with
    | none => rfl
    | some v => exact absurd (lookup_some hl) (h.node hn v)

theorem Told.must (h : Told o w c) (s : Name) (v : Text) (hs : c.says w s = some v)
    (hn : ¬ c.silent s) : must o s.key = .ok v := by
  unfold Args.must
  rcases h.1 s v hs with h | ⟨_, h⟩
  · rw [h]
  · exact absurd h hn

theorem stoull_count {α : Type} (l : List α) (h : l.length < 2 ^ 64) :
    stoull (dec l.length) = .ok l.length.toUInt64 := stoull_dec _ h

theorem readEndpoints_told (name : Text) (l : List Endpoint) (hl : l.length < 2 ^ 64)
    (hf : ∀ e ∈ l, e.Fits) (hc : must o (name ++ lit "_count") = .ok (dec l.length))
    (he : ∀ (i : Nat) (e : Endpoint), l[i]? = some e →
      must o (name ++ dec i ++ lit "_endpoint") = .ok e.shown) :
    readEndpoints o name = .ok l := by
  unfold readEndpoints
  rw [hc]
  simp only [Outcome.bind_ok]
  rw [stoull_count l hl]
  simp only [Outcome.bind_ok]
  refine readCount _ l hl fun i e hi => ?_
  rw [he i e hi]
  simp only [Outcome.bind_ok]
  exact parseIpPort_shown e (hf e (List.mem_of_getElem? hi))

/-- What is not required is read as it is said. -/
theorem optional_told (h : ∀ s v, ¬ s.Required → c.says w s = some v →
      o s.key = some v ∨ (o s.key = none ∧ c.silent s))
    (hnode : c.node = none → o (Name.key .node) = none)
    (hw : p.stod (w c.contention) = some c.contention) :
    readNode o = .ok c.node ∧ readLoad o = .ok c.load ∧ readContention p o = .ok c.contention ∧
    readAccounts o = .ok c.accounts ∧ readRunner o = .ok c.runner ∧ readLevel o = c.level := by
  have h4 : readNode o = .ok c.node := by
    unfold readNode
    cases hn : c.node with
    | none =>
      have : o (lit "node_id") = none := hnode hn
      rw [this]
    | some n =>
      rcases h .node (shown n) id (by simp [Cfg.says, hn]) with g | ⟨_, g⟩
      · have g : o (lit "node_id") = some (shown n) := g
        rw [g]
        unfold shown
        simp only [stoull_dec _ n.toNat_lt, Outcome.bind_ok]
        simp
      · exact absurd g id
  have h7 : readLoad o = .ok c.load := by
    unfold readLoad
    rcases h .load _ id rfl with g | ⟨g, g'⟩
    · have g : o (lit "loadgen_txtype") = some c.load.shown := g
      rw [g]
      cases c.load <;> decide +kernel
    · have g : o (lit "loadgen_txtype") = none := g
      have g' : c.load = .transfer := g'
      rw [g, g']
  have h8 : readContention p o = .ok c.contention := by
    unfold readContention
    rcases h .contention _ id rfl with g | ⟨g, g'⟩
    · have g : o (lit "contention_rate") = some (w c.contention) := g
      rw [g]
      simp only [hw]
    · have g : o (lit "contention_rate") = none := g
      have g' : c.contention = 0 := g'
      rw [g, g']
  have h9 : readAccounts o = .ok c.accounts := by
    unfold readAccounts
    rcases h .accounts _ id rfl with g | ⟨g, g'⟩
    · have g : o (lit "loadgen_accounts") = some (shown c.accounts) := g
      rw [g]
      unfold shown
      simp only [stoull_dec _ c.accounts.toNat_lt]
      simp
    · have g : o (lit "loadgen_accounts") = none := g
      have g' : c.accounts = 1000 := g'
      rw [g, g']
  have h10 : readRunner o = .ok c.runner := by
    unfold readRunner
    rcases h .runner _ id rfl with g | ⟨g, g'⟩
    · have g : o (lit "runner_type") = some c.runner.shown := g
      rw [g]
      cases c.runner <;> decide +kernel
    · have g : o (lit "runner_type") = none := g
      have g' : c.runner = .evm := g'
      rw [g, g']
  have h11 : readLevel o = c.level := by
    unfold readLevel
    rcases h .level _ id rfl with g | ⟨g, g'⟩
    · have g : o (lit "loglevel") = some c.level.shown := g
      rw [g]
      simp [parseLevel_shown]
    · have g : o (lit "loglevel") = none := g
      have g' : c.level = .trace := g'
      rw [g, g']
  exact ⟨h4, h7, h8, h9, h10, h11⟩

theorem readOpts_told (h : Told o w c) (hf : c.Fits p w) : readOpts p o = .ok c := by
  have h1 : must o (lit "component_id") = .ok (shown c.component) :=
    h.must .component _ rfl id
  have h2 : stoull (shown c.component) = .ok c.component := by
    unfold shown
    rw [stoull_dec _ c.component.toNat_lt]
    simp
  have h3 : readEndpoints o (lit "ticket_machine") = .ok c.tickets := by
    refine readEndpoints_told _ _ hf.tickets.1 hf.tickets.2 ?_ fun i e hi => ?_
    · have : lit "ticket_machine" ++ lit "_count" = Name.key .tickets := by decide +kernel
      rw [this]
      exact h.must .tickets _ rfl id
    · exact h.must (.ticket i) _ (by simp [Cfg.says, hi]) id
  have h5 : readClusters o (lit "shard") = .ok c.shards := by
    unfold readClusters
    have : lit "shard" ++ lit "_count" = Name.key .shards := by decide +kernel
    rw [this, h.must .shards _ rfl id]
    simp only [Outcome.bind_ok]
    rw [stoull_count _ hf.shards]
    simp only [Outcome.bind_ok]
    refine readCount _ _ hf.shards fun i l hi => ?_
    obtain ⟨g1, g2⟩ := hf.shard l (List.mem_of_getElem? hi)
    refine readEndpoints_told _ _ g1 g2 ?_ fun j e hj => ?_
    · exact h.must (.shardNodes i) _ (by simp [Cfg.says, hi]) id
    · exact h.must (.shard i j) _ (by simp [Cfg.says, hi, hj]) id
  have h6 : readEndpoints o (lit "agent") = .ok c.agents := by
    refine readEndpoints_told _ _ hf.agents.1 hf.agents.2 ?_ fun i e hi => ?_
    · have : lit "agent" ++ lit "_count" = Name.key .agents := by decide +kernel
      rw [this]
      exact h.must .agents _ rfl id
    · exact h.must (.agent i) _ (by simp [Cfg.says, hi]) id
  obtain ⟨h4, h7, h8, h9, h10, h11⟩ := optional_told (fun s v _ => h.1 s v) h.2 hf.contention
  unfold readOpts
  simp only [h1, h2, h3, h4, h5, h6, h7, h8, h9, h10, h11, Outcome.bind_ok]

/-! ### Names -/

/-- A digit. -/
def digit (c : UInt8) : Bool := decide (IsDigit c)

/-- The parts of a name: what is before the first digit, the digits, and the rest. -/
def parts (t : Text) : Text × Text × Text :=
  (t.takeWhile (!digit ·), (t.dropWhile (!digit ·)).takeWhile digit,
    (t.dropWhile (!digit ·)).dropWhile digit)

/-- What is before and after the digits of a name. -/
def Name.frame : Name → Text × Text
  | .ticket _ => (lit "ticket_machine", lit "_endpoint")
  | .shardNodes _ => (lit "shard", lit "_count")
  | .shard _ _ => (lit "shard", lit "_endpoint")
  | .agent _ => (lit "agent", lit "_endpoint")
  | s => (s.key, [])

/-- The digits of a name. -/
def Name.digits : Name → Text
  | .ticket i => dec i
  | .shardNodes i => dec i
  | .shard i j => dec i ++ dec j
  | .agent i => dec i
  | _ => []

theorem parts_append (a d b : Text) (ha : ∀ x ∈ a, digit x = false) (hd : ∀ x ∈ d, digit x = true)
    (hne : d ≠ []) (hb : ∀ x, b.head? = some x → digit x = false) :
    parts (a ++ (d ++ b)) = (a, d, b) := by
  have h3 : b.takeWhile digit = [] ∧ b.dropWhile digit = b := by
    cases b with
    | nil => simp
    | cons x b => have := hb x rfl; simp [this]
  have h2 : (d ++ b).takeWhile digit = d ∧ (d ++ b).dropWhile digit = b := by
    clear hne
    induction d with
    | nil => exact h3
    | cons x d ih =>
      have h1 := ih fun y hy => hd y (by simp [hy])
      have h2 := hd x (by simp)
      simp [h2, h1]
  have h1 : (a ++ (d ++ b)).takeWhile (!digit ·) = a ∧
      (a ++ (d ++ b)).dropWhile (!digit ·) = d ++ b := by
    clear h2 h3
    induction a with
    | nil =>
      obtain ⟨x, d', rfl⟩ := List.exists_cons_of_ne_nil hne
      have := hd x (by simp)
      simp [this]
    | cons x a ih =>
      have h1 := ih fun y hy => ha y (by simp [hy])
      have h2 := ha x (by simp)
      rw [List.cons_append, List.takeWhile_cons, List.dropWhile_cons]
      simp [h2, h1]
  unfold parts
  rw [h1.1, h1.2, h2.1, h2.2]

theorem parts_key (s : Name) : parts s.key = (s.frame.1, s.digits, s.frame.2) := by
  have key : ∀ (a : String) (d : Text) (b : String), ((lit a).all (!digit ·)) = true →
      (lit b).head? = some 95 → (∀ x ∈ d, IsDigit x) → d ≠ [] →
      parts (lit a ++ (d ++ lit b)) = (lit a, d, lit b) := by
    intro a d b ha hb hd hne
    refine parts_append _ _ _ (fun x hx => ?_) (fun x hx => by simp [digit, hd x hx]) hne
      (fun x hx => ?_)
    · rw [List.all_eq_true] at ha
      simpa using ha x hx
    · rw [hb] at hx
      simp only [Option.some.injEq] at hx
      subst hx
      decide
  have two : ∀ i j x, x ∈ dec i ++ dec j → IsDigit x := by
    intro i j x hx
    rcases List.mem_append.mp hx with h | h
    · exact dec_digits i x h
    · exact dec_digits j x h
  cases s with
  | ticket i =>
    have := key "ticket_machine" (dec i) "_endpoint" (by decide +kernel) (by decide +kernel)
      (dec_digits i) (dec_ne_nil i)
    simpa [Name.key, Name.frame, Name.digits] using this
  | shardNodes i =>
    have := key "shard" (dec i) "_count" (by decide +kernel) (by decide +kernel)
      (dec_digits i) (dec_ne_nil i)
    simpa [Name.key, Name.frame, Name.digits] using this
  | shard i j =>
    have := key "shard" (dec i ++ dec j) "_endpoint" (by decide +kernel) (by decide +kernel)
      (two i j) (by simp [dec_ne_nil])
    simpa [Name.key, Name.frame, Name.digits] using this
  | agent i =>
    have := key "agent" (dec i) "_endpoint" (by decide +kernel) (by decide +kernel)
      (dec_digits i) (dec_ne_nil i)
    simpa [Name.key, Name.frame, Name.digits] using this
  | _ => decide +kernel

/-- One name of each sort. -/
def Name.base : Name → Name
  | .ticket _ => .ticket 0
  | .shardNodes _ => .shardNodes 0
  | .shard _ _ => .shard 0 0
  | .agent _ => .agent 0
  | s => s

/-- All sorts of names. -/
def bases : List Name :=
  [.component, .level, .node, .tickets, .ticket 0, .shards, .shardNodes 0, .shard 0 0, .agents,
    .agent 0, .load, .contention, .accounts, .runner]

theorem find_base (s : Name) : bases.find? (fun x => x.frame == s.frame) = some s.base := by
  cases s with
  | ticket i =>
    have h : bases.find? (fun x => x.frame == (Name.ticket 0).frame) = some (Name.ticket 0) := by decide +kernel
    exact h
  | shardNodes i =>
    have h : bases.find? (fun x => x.frame == (Name.shardNodes 0).frame) = some (Name.shardNodes 0) := by decide +kernel
    exact h
  | shard i j =>
    have h : bases.find? (fun x => x.frame == (Name.shard 0 0).frame) = some (Name.shard 0 0) := by decide +kernel
    exact h
  | agent i =>
    have h : bases.find? (fun x => x.frame == (Name.agent 0).frame) = some (Name.agent 0) := by decide +kernel
    exact h
  | _ => decide +kernel

theorem dec_small {n : Nat} (h : n < 10) : dec n = [(48 + n).toUInt8] := by
  rw [dec, if_pos h]

theorem dec_two {i j i' j' : Nat} (h : dec i ++ dec j = dec i' ++ dec j')
    (hs : (i < 10 ∧ i' < 10) ∨ (j < 10 ∧ j' < 10)) : i = i' ∧ j = j' := by
  rcases hs with ⟨h1, h2⟩ | ⟨h1, h2⟩
  · have hl : (dec i).length = (dec i').length := by rw [dec_small h1, dec_small h2]; rfl
    obtain ⟨a, b⟩ := List.append_inj h hl
    exact ⟨dec_inj a, dec_inj b⟩
  · have hl : (dec j).length = (dec j').length := by rw [dec_small h1, dec_small h2]; rfl
    obtain ⟨a, b⟩ := List.append_inj' h hl
    exact ⟨dec_inj a, dec_inj b⟩

/-- Equal keys: the same name, or two nodes of shards whose numbers look alike. -/
theorem key_cases {s t : Name} (h : s.key = t.key) : s = t ∨
    ∃ i j i' j', s = .shard i j ∧ t = .shard i' j' ∧ dec i ++ dec j = dec i' ++ dec j' := by
  have hp := parts_key s
  rw [h, parts_key t] at hp
  simp only [Prod.mk.injEq] at hp
  have hf : t.frame = s.frame := Prod.ext hp.1 hp.2.2
  have hd := hp.2.1
  have hb := find_base s
  rw [← hf, find_base t] at hb
  have hb : t.base = s.base := by simpa using hb
  cases s <;> cases t <;> simp only [Name.base, reduceCtorEq] at hb <;>
    simp only [Name.digits] at hd <;>
    first
    | exact .inl rfl
    | (rw [dec_inj hd]; exact .inl rfl)
    | exact .inr ⟨_, _, _, _, rfl, rfl, hd.symm⟩

end Verif.Config.Args
