import Verif.Config.ArgsGiven
/-!
# C109: what a command line says is what the program does
-/
namespace Verif.Config.Args

open Verif.Evm (Outcome)
open Verif.Hex (Text)
open Verif.Http (lit stoull)

variable {p : Platform} {w : UInt64 → Text} {c : Cfg}

/-! ### What is said is what is read -/

/-- **C109.** Arguments that describe a configuration are read as this configuration:
in whatever order they are, with others between them, and with what is not said
being what is meant then. -/
theorem C109_read (p : Platform) (w : UInt64 → Text) (c : Cfg) (l : List (Text × Text))
    (hl : ∀ x ∈ l, Plain x) (hs : States w c l) (hf : c.Fits p w) :
    readConfig p (l.map written) = .ok c := by
  obtain ⟨r, h1, h2⟩ := parseArgs_written l [] hl
  unfold readConfig
  rw [h1]
  simp only [Outcome.bind_ok]
  have e : (fun k => r.lookup k) = fun k => l.lookup k := by
    funext k
    simpa using h2 k
  rw [e]
  exact readOpts_told (told_states l hs) hf

/-- **C109.** If an argument is missing that is required, the program ends with a
message. -/
theorem C109_missing (p : Platform) (w : UInt64 → Text) (c : Cfg) (l : List (Text × Text))
    (hl : ∀ x ∈ l, Plain x) (hs : Mostly w c l) (hf : c.Fits p w) (s : Name) (v : Text)
    (hv : c.says w s = some v) (hr : s.Required) (hm : ∀ u, (s.key, u) ∉ l) :
    readConfig p (l.map written) = .refused := by
  obtain ⟨r, h1, h2⟩ := parseArgs_written l [] hl
  unfold readConfig
  rw [h1]
  simp only [Outcome.bind_ok]
  have e : (fun k => r.lookup k) = fun k => l.lookup k := by
    funext k
    simpa using h2 k
  rw [e]
  rcases readOpts_either hs hf with h | h
  · rcases readOpts_inv h s v hv with ⟨t, h1, _⟩ | ⟨_, h1⟩
    · exact absurd (lookup_some h1) (hm t)
    · cases s <;> first | exact absurd h1 id | exact absurd hr id
  · exact h

/-- **C109.** A program that starts was given a name and a value in every argument, and
each thing in its configuration is the first value that was given under its name; if
there was none, it is what is meant when nothing is said. -/
theorem C109_given (p : Platform) (w : UInt64 → Text) (args : List Text) (c : Cfg)
    (h : readConfig p args = .ok c) : ∃ l : List (Text × Text),
      args = l.map written ∧ (∀ x ∈ l, Plain x) ∧
      (∀ s v, c.says w s = some v → (∃ t, l.lookup s.key = some t ∧ Means p c s t) ∨
        (l.lookup s.key = none ∧ c.silent s)) ∧
      (c.node = none → l.lookup (Name.key .node) = none) := by
  unfold readConfig at h
  obtain ⟨r, h1, h⟩ := bind_inv h
  obtain ⟨l, e, hp, hl⟩ := parseArgs_inv _ _ _ h1
  have e' : (fun k => r.lookup k) = fun k => l.lookup k := by
    funext k
    simpa using hl k
  rw [e'] at h
  exact ⟨l, e, hp, fun s v hv => readOpts_inv h s v hv, readOpts_node h⟩

/-! ### Which configurations can be said -/

/-- The names that say something about a configuration. -/
theorem small_inj (hc : c.Small) {s t : Name} {v u : Text} (hs : c.says w s = some v)
    (ht : c.says w t = some u) (h : s.key = t.key) : s = t := by
  rcases key_cases h with h | ⟨i, j, i', j', rfl, rfl, hd⟩
  · exact h
  · simp only [Cfg.says, Option.map_eq_some_iff, Option.bind_eq_some_iff] at hs ht
    obtain ⟨e, ⟨x, hx, he⟩, _⟩ := hs
    obtain ⟨e', ⟨x', hx', he'⟩, _⟩ := ht
    have l1 := (List.getElem?_eq_some_iff.mp hx).1
    have l2 := (List.getElem?_eq_some_iff.mp hx').1
    have l3 := (List.getElem?_eq_some_iff.mp he).1
    have l4 := (List.getElem?_eq_some_iff.mp he').1
    have : (i < 10 ∧ i' < 10) ∨ (j < 10 ∧ j' < 10) := by
      rcases hc with hc | hc
      · left; omega
      · right
        have m1 := hc x (List.mem_of_getElem? hx)
        have m2 := hc x' (List.mem_of_getElem? hx')
        omega
    obtain ⟨rfl, rfl⟩ := dec_two hd this
    rfl

/-- **C109, partial.** Within a configuration with at most ten shards, or at most ten
nodes in each, no two things have the same name.  Missing: larger ones, see
`C109_names_violated`. -/
theorem C109_names_partial (w : UInt64 → Text) (c : Cfg) (hc : c.Small) (s t : Name)
    (hs : (c.says w s).isSome) (ht : (c.says w t).isSome) (h : s.key = t.key) : s = t := by
  obtain ⟨v, hv⟩ := Option.isSome_iff_exists.mp hs
  obtain ⟨u, hu⟩ := Option.isSome_iff_exists.mp ht
  exact small_inj hc hv hu h

theorem mem_names (s : Name) (v : Text) (h : c.says w s = some v) : s ∈ c.names := by
  cases s with
  | ticket i =>
    simp only [Cfg.says, Option.map_eq_some_iff] at h
    obtain ⟨e, he, _⟩ := h
    have := (List.getElem?_eq_some_iff.mp he).1
    simp [Cfg.names, this]
  | shardNodes i =>
    simp only [Cfg.says, Option.map_eq_some_iff] at h
    obtain ⟨e, he, _⟩ := h
    have := (List.getElem?_eq_some_iff.mp he).1
    simp [Cfg.names, this]
  | shard i j =>
    simp only [Cfg.says, Option.map_eq_some_iff, Option.bind_eq_some_iff] at h
    obtain ⟨e, ⟨x, hx, he⟩, _⟩ := h
    have h1 := (List.getElem?_eq_some_iff.mp hx).1
    have h2 := (List.getElem?_eq_some_iff.mp he).1
    simp only [Cfg.names, List.mem_append, List.mem_flatMap, List.mem_map, List.mem_range]
    exact .inl (.inr ⟨i, h1, j, by rw [hx]; exact h2, rfl⟩)
  | agent i =>
    simp only [Cfg.says, Option.map_eq_some_iff] at h
    obtain ⟨e, he, _⟩ := h
    have := (List.getElem?_eq_some_iff.mp he).1
    simp [Cfg.names, this]
  | _ => simp [Cfg.names]

theorem mem_line (k v : Text) (h : (k, v) ∈ c.line w) : ∃ s : Name, s.key = k ∧
    c.says w s = some v := by
  simp only [Cfg.line, List.mem_filterMap, Option.map_eq_some_iff, Prod.mk.injEq] at h
  obtain ⟨s, _, u, h1, h2, rfl⟩ := h
  exact ⟨s, h2, h1⟩

theorem line_states (hc : c.Small) : States w c (c.line w) := by
  refine ⟨fun s v v' h hv => ?_, fun s v hv => .inl ?_, fun hn v h => ?_⟩
  · obtain ⟨t, ht, hu⟩ := mem_line _ _ h
    have := small_inj hc hu hv ht
    subst this
    rw [hu] at hv
    simpa using hv
  · simp only [Cfg.line, List.mem_filterMap, Option.map_eq_some_iff, Prod.mk.injEq]
    exact ⟨s, mem_names s v hv, v, hv, rfl, rfl⟩
  · obtain ⟨t, ht, hu⟩ := mem_line _ _ h
    rcases key_cases ht with rfl | ⟨_, _, _, _, _, h, _⟩
    · simp [Cfg.says, hn] at hu
    · exact nomatch h

/-! Plain values -/

/-- Neither an equals sign nor a dash. -/
def calm (t : Text) : Bool := t.all fun x => decide (x ≠ 61) && decide (x ≠ 45)

theorem calm_dec (n : Nat) : calm (dec n) = true := by
  unfold calm
  rw [List.all_eq_true]
  intro x hx
  have h := dec_digits n x hx
  have h1 : x ≠ 61 := by rintro rfl; exact absurd h (by decide)
  have h2 : x ≠ 45 := by rintro rfl; exact absurd h (by decide)
  simp [h1, h2]

theorem calm_append {a b : Text} (ha : calm a = true) (hb : calm b = true) :
    calm (a ++ b) = true := by
  unfold calm at *
  rw [List.all_append, ha, hb]; rfl

theorem calm_key (s : Name) : calm s.key = true := by
  cases s with
  | ticket i => exact calm_append (calm_append (by decide +kernel) (calm_dec i)) (by decide +kernel)
  | shardNodes i =>
    exact calm_append (calm_append (by decide +kernel) (calm_dec i)) (by decide +kernel)
  | shard i j =>
    exact calm_append (calm_append (calm_append (by decide +kernel) (calm_dec i)) (calm_dec j))
      (by decide +kernel)
  | agent i => exact calm_append (calm_append (by decide +kernel) (calm_dec i)) (by decide +kernel)
  | _ => decide +kernel

theorem calm_mem {t : Text} (h : calm t = true) : 61 ∉ t ∧ 45 ∉ t := by
  unfold calm at h
  rw [List.all_eq_true] at h
  exact ⟨fun e => by simpa using h _ e, fun e => by simpa using h _ e⟩

/-- Two dashes in a text that is put together are in one of its parts, if what is
between them is something else. -/
theorem dashes_between {a b : Text} {x : UInt8} (hx : x ≠ 45) (h : Dashes (a ++ x :: b)) :
    Dashes a ∨ Dashes b := by
  obtain ⟨r, s, e⟩ := h
  rw [lit_dashes] at e
  have e : a ++ x :: b = r ++ (45 :: 45 :: s) := by simpa using e
  rcases List.append_eq_append_iff.mp e with ⟨l, h1, h2⟩ | ⟨l, h1, h2⟩
  · cases l with
    | nil =>
      simp only [List.nil_append, List.cons.injEq] at h2
      exact absurd h2.1 hx
    | cons y l =>
      simp only [List.cons_append, List.cons.injEq] at h2
      exact .inr ⟨l, s, by rw [lit_dashes]; simpa using h2.2⟩
  · cases l with
    | nil =>
      simp only [List.nil_append, List.cons.injEq] at h2
      exact absurd h2.1.symm hx
    | cons y l =>
      simp only [List.cons_append, List.cons.injEq] at h2
      obtain ⟨rfl, h2⟩ := h2
      cases l with
      | nil =>
        simp only [List.nil_append, List.cons.injEq] at h2
        exact absurd h2.1.symm hx
      | cons z l =>
        simp only [List.cons_append, List.cons.injEq] at h2
        obtain ⟨rfl, h2⟩ := h2
        exact .inl ⟨r, l, by rw [lit_dashes, h1]; simp⟩

theorem dashes_calm {t : Text} (h : calm t = true) : ¬ Dashes t := by
  rintro ⟨a, b, rfl⟩
  rw [lit_dashes] at h
  exact (calm_mem h).2 (by simp)

theorem plain_value {k v : Text} (hk : calm k = true) (h1 : 61 ∉ v) (h2 : ¬ Dashes v) :
    Plain (k, v) := by
  refine ⟨(calm_mem hk).1, h1, fun h => ?_⟩
  rw [lit_equals] at h
  have h : Dashes (k ++ 61 :: v) := by simpa using h
  rcases dashes_between (by decide) h with h | h
  · exact dashes_calm hk h
  · exact h2 h

theorem plain_calm {k v : Text} (hk : calm k = true) (hv : calm v = true) : Plain (k, v) :=
  plain_value hk (calm_mem hv).1 (dashes_calm hv)

theorem plain_endpoint {k : Text} {e : Endpoint} (hk : calm k = true)
    (h : 61 ∉ e.1 ∧ ¬ Dashes e.1) : Plain (k, e.shown) := by
  have hd := calm_dec e.2.toNat
  have es : e.shown = e.1 ++ 58 :: dec e.2.toNat := by simp [Endpoint.shown]
  refine plain_value hk ?_ ?_
  · rw [es]
    simp only [List.mem_append, List.mem_cons, not_or]
    exact ⟨h.1, by decide, (calm_mem hd).1⟩
  · rw [es]
    intro g
    rcases dashes_between (by decide) g with g | g
    · exact h.2 g
    · exact dashes_calm hd g

theorem line_plain (hp : c.Plain w) : ∀ x ∈ c.line w, Plain x := by
  rintro ⟨k, v⟩ h
  obtain ⟨s, rfl, hs⟩ := mem_line _ _ h
  have hk := calm_key s
  cases s with
  | component => simp only [Cfg.says, Option.some.injEq] at hs; subst hs; exact plain_calm hk (calm_dec _)
  | level =>
    simp only [Cfg.says, Option.some.injEq] at hs
    subst hs
    refine plain_calm hk ?_
    cases c.level <;> decide +kernel
  | node =>
    simp only [Cfg.says, Option.map_eq_some_iff] at hs
    obtain ⟨n, _, rfl⟩ := hs
    exact plain_calm hk (calm_dec _)
  | tickets => simp only [Cfg.says, Option.some.injEq] at hs; subst hs; exact plain_calm hk (calm_dec _)
  | ticket i =>
    simp only [Cfg.says, Option.map_eq_some_iff] at hs
    obtain ⟨e, he, rfl⟩ := hs
    exact plain_endpoint hk (hp.tickets e (List.mem_of_getElem? he))
  | shards => simp only [Cfg.says, Option.some.injEq] at hs; subst hs; exact plain_calm hk (calm_dec _)
  | shardNodes i =>
    simp only [Cfg.says, Option.map_eq_some_iff] at hs
    obtain ⟨e, he, rfl⟩ := hs
    exact plain_calm hk (calm_dec _)
  | shard i j =>
    simp only [Cfg.says, Option.map_eq_some_iff, Option.bind_eq_some_iff] at hs
    obtain ⟨e, ⟨x, hx, he⟩, rfl⟩ := hs
    exact plain_endpoint hk (hp.shards x (List.mem_of_getElem? hx) e (List.mem_of_getElem? he))
  | agents => simp only [Cfg.says, Option.some.injEq] at hs; subst hs; exact plain_calm hk (calm_dec _)
  | agent i =>
    simp only [Cfg.says, Option.map_eq_some_iff] at hs
    obtain ⟨e, he, rfl⟩ := hs
    exact plain_endpoint hk (hp.agents e (List.mem_of_getElem? he))
  | load =>
    simp only [Cfg.says, Option.some.injEq] at hs
    subst hs
    refine plain_calm hk ?_
    cases c.load <;> decide +kernel
  | contention =>
    simp only [Cfg.says, Option.some.injEq] at hs
    subst hs
    exact plain_value hk hp.contention.1 hp.contention.2
  | accounts => simp only [Cfg.says, Option.some.injEq] at hs; subst hs; exact plain_calm hk (calm_dec _)
  | runner =>
    simp only [Cfg.says, Option.some.injEq] at hs
    subst hs
    refine plain_calm hk ?_
    cases c.runner <;> decide +kernel

/-- **C109, partial.** Every configuration with at most ten shards, or at most ten nodes
in each, with hosts that have neither colons nor equals signs nor two dashes in a row,
can be given on a command line.  Missing: the others, see `C109_names_violated` and
`C109_host_violated`. -/
theorem C109_describe_partial (p : Platform) (w : UInt64 → Text) (c : Cfg) (hf : c.Fits p w)
    (hp : c.Plain w) (hc : c.Small) : readConfig p ((c.line w).map written) = .ok c :=
  C109_read p w c _ (line_plain hp) (line_states hc) hf

/-- **C109, violated.** Two nodes whose numbers look alike when they are written one
after the other are at the same place in every configuration that is read from a
command line: for example the eleventh node of the second shard and the first node of
the twelfth shard.  A command line that gives both of them is accepted, see
`C109_clash_violated`. -/
theorem C109_names_violated (p : Platform) (args : List Text) (c : Cfg)
    (h : readConfig p args = .ok c) (i j i' j' : Nat) (e e' : Endpoint)
    (hd : dec i ++ dec j = dec i' ++ dec j')
    (he : c.shards[i]?.bind (·[j]?) = some e) (he' : c.shards[i']?.bind (·[j']?) = some e') :
    e = e' := by
  obtain ⟨l, _, _, hl, _⟩ := C109_given p (fun _ => []) args c h
  have h1 := hl (.shard i j) e.shown (by simp [Cfg.says, he])
  have h2 := hl (.shard i' j') e'.shown (by simp [Cfg.says, he'])
  have hk : Name.key (.shard i j) = Name.key (.shard i' j') := by
    simp only [Name.key, List.append_assoc]
    rw [← List.append_assoc (dec i), hd, List.append_assoc]
  rcases h1 with ⟨t, h1, x, g1, g2⟩ | ⟨_, h1⟩
  · rcases h2 with ⟨t', h2, x', g1', g2'⟩ | ⟨_, h2⟩
    · rw [hk, h2] at h1
      simp only [Option.some.injEq] at h1
      subst h1
      rw [g2] at g2'
      simp only [Outcome.ok.injEq] at g2'
      rw [he] at g1
      rw [he'] at g1'
      simp only [Option.some.injEq] at g1 g1'
      rw [g1, g1', g2']
    · exact absurd h2 id
  · exact absurd h1 id

theorem parseArgs_outcome (args : List Text) (acc : List (Text × Text)) :
    (∃ r, parseArgs args acc = .ok r) ∨ parseArgs args acc = .refused := by
  induction args generalizing acc with
  | nil => exact .inl ⟨acc, rfl⟩
  | cons a args ih =>
    have : (∃ x, parseArg a = .ok x) ∨ parseArg a = .refused := by
      unfold parseArg
      split
      · split
        · exact .inr rfl
        · split
          · exact .inl ⟨_, rfl⟩
          · exact .inr rfl
      · exact .inr rfl
    rcases this with ⟨x, h⟩ | h
    · rw [parseArgs, h]
      exact ih _
    · rw [parseArgs, h]
      exact .inr rfl

/-- **C109, violated.** A value with two dashes in a row, such as the host names of
international domains have them, or with an equals sign, is refused, whatever else is
on the command line. -/
theorem C109_host_violated (p : Platform) (args : List Text) (k v : Text)
    (h : written (k, v) ∈ args) (hv : Dashes v ∨ 61 ∈ v) : readConfig p args = .refused := by
  unfold readConfig
  rcases parseArgs_outcome args [] with ⟨r, hr⟩ | hr
  · exfalso
    obtain ⟨l, rfl, hl, _⟩ := parseArgs_inv _ _ _ hr
    obtain ⟨x, hx, e⟩ := List.mem_map.mp h
    obtain ⟨k', v'⟩ := x
    have hp := hl _ hx
    have e : k' ++ 61 :: v' = k ++ 61 :: v := by
      simpa [written, lit_dashes, lit_equals] using e
    have key : ∀ a b : Text, 61 ∉ a → 61 ∉ b → a ++ 61 :: b = k ++ 61 :: v → 61 ∉ v := by
      intro a b ha hb e hm
      have h1 : (a ++ 61 :: b).count 61 = 1 := by
        rw [List.count_append, List.count_cons_self, List.count_eq_zero.mpr ha,
          List.count_eq_zero.mpr hb]
      rw [e, List.count_append, List.count_cons_self] at h1
      have : 0 < v.count 61 := List.count_pos_iff.mpr hm
      omega
    rcases hv with ⟨a, b, rfl⟩ | hv
    · refine hp.dashes ⟨k ++ [61] ++ a, b, ?_⟩
      rw [lit_equals]
      simpa using e
    · exact key k' v' hp.name hp.value e hv
  · rw [hr]; rfl

/-! ### Where the programs listen -/

/-- **C109.** A shard that starts listens where the command line says for its number and
that of its node, a ticket machine and an agent where it says for their number, and
the replicas of the cluster find each other one port above. -/
theorem C109_role (c : Cfg) (r : Role) :
    (shardRole c = .ok r → ∃ n nodes, c.node = some n ∧
      c.shards[c.component.toNat]? = some nodes ∧ nodes[n.toNat]? = some r.own ∧
      r.raft.length = nodes.length ∧
      ∀ (i : Nat) (e : Endpoint), nodes[i]? = some e → r.raft[i]? = some (e.1, e.2 + 1)) ∧
    (ticketRole c = .ok r → c.tickets[c.component.toNat]? = some r.own ∧
      r.raft.length = c.tickets.length ∧
      ∀ (i : Nat) (e : Endpoint), c.tickets[i]? = some e → r.raft[i]? = some (e.1, e.2 + 1)) ∧
    (agentRole c = .ok r → c.agents[c.component.toNat]? = some r.own) := by
  have raft : ∀ (l : List Endpoint) (i : Nat) (e : Endpoint), l[i]? = some e →
      (raftOf l)[i]? = some (e.1, e.2 + 1) := by
    intro l i e h
    simp [raftOf, h]
  refine ⟨fun h => ?_, fun h => ?_, fun h => ?_⟩
  · unfold shardRole at h
    split at h
    · exact nomatch h
    · rename_i nodes hn
      split at h
      · exact nomatch h
      · rename_i n hm
        split at h
        · exact nomatch h
        · rename_i e he
          simp only [Outcome.ok.injEq] at h
          subst h
          exact ⟨n, nodes, hm, hn, he, by simp [raftOf], raft nodes⟩
  · unfold ticketRole at h
    split at h
    · exact nomatch h
    · rename_i e he
      simp only [Outcome.ok.injEq] at h
      subst h
      exact ⟨he, by simp [raftOf], raft _⟩
  · unfold agentRole at h
    split at h
    · exact nomatch h
    · rename_i e he
      simp only [Outcome.ok.injEq] at h
      subst h
      exact he

/-- **C109, partial.** If no port of the cluster is the last one, and no port of a host
is one above another port of the same host, then nobody else listens where the
replication of a node does.  Missing: ports that follow one another, see
`C109_ports_violated`. -/
theorem C109_ports_partial (nodes : List Endpoint) (hn : nodes.Nodup)
    (hl : ∀ e ∈ nodes, e.2.toNat < 65535)
    (hg : ∀ e ∈ nodes, ∀ f ∈ nodes, e.1 = f.1 → e.2.toNat + 1 ≠ f.2.toNat) :
    (nodes ++ raftOf nodes).Nodup ∧ ∀ e ∈ raftOf nodes, e.2 ≠ 0 := by
  have next : ∀ e ∈ nodes, (e.2 + 1).toNat = e.2.toNat + 1 := by
    intro e he
    have := hl e he
    rw [UInt16.toNat_add]
    have h1 : (1 : UInt16).toNat = 1 := rfl
    rw [h1]
    omega
  constructor
  · rw [List.nodup_append]
    refine ⟨hn, ?_, ?_⟩
    · unfold raftOf
      rw [List.nodup_iff_pairwise_ne, List.pairwise_map]
      refine (List.nodup_iff_pairwise_ne.mp hn).imp_of_mem ?_
      intro a b ha hb hab e
      simp only [Prod.mk.injEq] at e
      apply hab
      have h1 := congrArg UInt16.toNat e.2
      rw [next a ha, next b hb] at h1
      exact Prod.ext e.1 (UInt16.toNat_inj.mp (by omega))
    · intro a ha b hb e
      subst e
      obtain ⟨f, hf, rfl⟩ := List.mem_map.mp hb
      exact hg f hf _ ha rfl (next f hf).symm
  · intro e he h0
    obtain ⟨f, hf, rfl⟩ := List.mem_map.mp he
    have := next f hf
    have h0 : f.2 + 1 = 0 := h0
    rw [h0] at this
    exact absurd this (by have : (0 : UInt16).toNat = 0 := rfl; omega)

/-! ### Cases -/

/-- A platform without decimal points. -/
def bare : Platform := ⟨fun _ => none, fun _ => none⟩

/-- The arguments that `scripts/parsec-run-local.sh` gives to a shard. -/
def scriptArgs : List Text :=
  [lit "--shard_count=1", lit "--shard0_count=1", lit "--shard00_endpoint=localhost:5556",
    lit "--shard00_raft_endpoint=localhost:5557", lit "--node_id=0", lit "--component_id=0",
    lit "--agent_count=1", lit "--agent0_endpoint=localhost:6666",
    lit "--ticket_machine_count=1", lit "--ticket_machine0_endpoint=localhost:7777",
    lit "--loglevel=WARN"]

/-- **C109.** The shipped script starts a shard as it is meant to be started. -/
theorem C109_script : readConfig bare scriptArgs = .ok
    ⟨[(lit "localhost", 7777)], 0, .warn, [[(lit "localhost", 5556)]], some 0,
      [(lit "localhost", 6666)], .evm, 1000, .transfer, 0⟩ ∧
    (readConfig bare scriptArgs >>= shardRole) =
      .ok ⟨(lit "localhost", 5556), [(lit "localhost", 5557)]⟩ := by
  decide +kernel

/-- What the arguments of the smallest cluster have in common. -/
def smallArgs (more : List String) : List Text :=
  (["--component_id=0", "--ticket_machine_count=1", "--ticket_machine0_endpoint=t:1",
    "--shard_count=1", "--shard0_count=2", "--shard00_endpoint=s:10", "--shard01_endpoint=s:11",
    "--agent_count=0"] ++ more).map lit

/-- **C109, violated.** A shard that is not told which of its nodes it is reads a value
that is not there; the command line was accepted. -/
theorem C109_node_violated : (readConfig bare (smallArgs []) >>= shardRole) = .undefined ∧
    (readConfig bare (smallArgs ["--node_id=0"]) >>= shardRole) =
      .ok ⟨(lit "s", 10), [(lit "s", 11), (lit "s", 12)]⟩ := by
  decide +kernel

/-- **C109, violated.** Two nodes of one host with ports that follow one another are
accepted; the replication of the first one is where the second one listens.  The port
above the last one is 0. -/
theorem C109_ports_violated : ∃ a b, (readConfig bare (smallArgs ["--node_id=0"]) >>= shardRole)
      = .ok a ∧ (readConfig bare (smallArgs ["--node_id=1"]) >>= shardRole) = .ok b ∧
      a.raft[0]? = some b.own ∧ raftOf [(lit "s", 65535)] = [(lit "s", 0)] :=
  ⟨⟨(lit "s", 10), [(lit "s", 11), (lit "s", 12)]⟩, ⟨(lit "s", 11), [(lit "s", 11), (lit "s", 12)]⟩,
    by decide +kernel⟩

/-- A command line for a shard of eleven nodes and one of a single node, among ten empty
ones. -/
def clashArgs : List Text :=
  [lit "--component_id=11", lit "--node_id=0", lit "--ticket_machine_count=0",
    lit "--agent_count=0", lit "--shard_count=12"] ++
  (List.range 12).map (fun i => lit "--shard" ++ dec i ++ lit "_count=" ++
    (if i = 1 then lit "11" else if i = 11 then lit "1" else lit "0")) ++
  (List.range 11).map (fun j => lit "--shard1" ++ dec j ++ lit "_endpoint=a:" ++ dec (2 * j)) ++
  [lit "--shard110_endpoint=b:40"]

/-- **C109, violated.** The command line gives the last node of the second shard and the
only node of the twelfth different places; the latter listens at the place of the
former. -/
theorem C109_clash_violated : (readConfig bare clashArgs >>= shardRole) =
    .ok ⟨(lit "a", 20), [(lit "a", 21)]⟩ ∧ lit "--shard110_endpoint=b:40" ∈ clashArgs := by
  decide +kernel

/-- **C109, violated.** A name that is not known is ignored, so is a level that is not
known; of two values for a name the first one counts; and without a level everything
is logged, although the default is said to be `WARN`. -/
theorem C109_ignored_violated :
    (∃ c, readConfig bare (smallArgs ["--nodeid=1", "--loglevel=warn", "--node_id=0",
      "--node_id=1"]) = .ok c ∧ c.node = some 0 ∧ c.level = .trace) ∧
    (∃ c, readConfig bare (smallArgs []) = .ok c ∧ c.level = .trace ∧ c.node = none) :=
  ⟨⟨⟨[(lit "t", 1)], 0, .trace, [[(lit "s", 10), (lit "s", 11)]], some 0, [], .evm, 1000,
      .transfer, 0⟩, by decide +kernel⟩,
    ⟨⟨[(lit "t", 1)], 0, .trace, [[(lit "s", 10), (lit "s", 11)]], none, [], .evm, 1000,
      .transfer, 0⟩, by decide +kernel⟩⟩

/-- **C109, violated.** A number that is none ends the program with an exception instead
of a message, so does an endpoint without a port; a number with something behind it,
or below zero, is accepted. -/
theorem C109_number_violated :
    readConfig bare (smallArgs ["--node_id=one"]) = .throws ∧
    readConfig bare [lit "--component_id=0", lit "--ticket_machine_count=1",
      lit "--ticket_machine0_endpoint=localhost"] = .throws ∧
    (∃ c, readConfig bare (smallArgs ["--node_id=1st", "--loadgen_accounts=-1"]) = .ok c ∧
      c.node = some 1 ∧ c.accounts = 18446744073709551615) :=
  ⟨by decide +kernel, by decide +kernel,
    ⟨⟨[(lit "t", 1)], 0, .trace, [[(lit "s", 10), (lit "s", 11)]], some 1, [], .evm,
      18446744073709551615, .transfer, 0⟩, by decide +kernel⟩⟩

/-! A configuration with two shards of two nodes meets the hypotheses. -/

/-- A configuration. -/
def sample : Cfg :=
  ⟨[(lit "t", 1)], 1, .warn, [[(lit "a", 10), (lit "a-b", 20)], [(lit "c", 10), (lit "d", 10)]],
    some 1, [(lit "g", 65535)], .lua, 7, .erc20, 0⟩

/-- A platform that knows one rate. -/
def simple : Platform := ⟨fun _ => none, fun t => if t = lit "0.0" then some 0 else none⟩

theorem no_dashes {t : Text} (h : (List.range (t.length + 1)).all (fun i =>
    !(lit "--").isPrefixOf (t.drop i)) = true) : ¬ Dashes t := by
  rintro ⟨a, b, rfl⟩
  rw [List.all_eq_true] at h
  have := h a.length (by simp [lit_dashes]; omega)
  rw [List.append_assoc, List.drop_left] at this
  simp only [lit_dashes, List.cons_append, List.nil_append, List.isPrefixOf] at this
  exact absurd this (by decide)

theorem sample_fits : sample.Fits simple (fun _ => lit "0.0") := by
  refine ⟨⟨by decide, ?_⟩, by decide, ?_, ⟨by decide, ?_⟩, by decide +kernel⟩ <;>
    unfold Endpoint.Fits <;> decide +kernel

theorem sample_plain : sample.Plain (fun _ => lit "0.0") := by
  have key : ∀ t : Text, (decide (61 ∉ t) && (List.range (t.length + 1)).all (fun i =>
      !(lit "--").isPrefixOf (t.drop i))) = true → 61 ∉ t ∧ ¬ Dashes t := by
    intro t h
    rw [Bool.and_eq_true] at h
    exact ⟨by simpa using h.1, no_dashes h.2⟩
  refine ⟨fun e he => key _ ?_, fun l hl e he => key _ ?_, fun e he => key _ ?_,
    key _ (by decide +kernel)⟩
  · revert e; decide +kernel
  · revert e; revert l; decide +kernel
  · revert e; decide +kernel

example : sample.Small := .inl (by decide)

example : readConfig simple ((sample.line fun _ => lit "0.0").map written) = .ok sample :=
  C109_describe_partial _ _ _ sample_fits sample_plain (.inl (by decide))

/-- The same without the number of agents: refused. -/
example : readConfig simple (((sample.line fun _ => lit "0.0").filter
    (fun x => x.1 ≠ Name.key .agents)).map written) = .refused := by
  have hst := line_states (w := fun _ => lit "0.0") (c := sample) (.inl (by decide))
  refine C109_missing simple (fun _ => lit "0.0") sample _
    (fun x hx => line_plain sample_plain x (List.mem_filter.mp hx).1)
    ⟨fun s v v' h => hst.right s v v' (List.mem_filter.mp h).1, fun s v hv hr => ?_,
      fun hn v h => hst.node hn v (List.mem_filter.mp h).1⟩
    sample_fits .agents _ rfl trivial (fun u h => by simpa using (List.mem_filter.mp h).2)
  rcases hst.whole s v hv with h | h
  · refine .inl (List.mem_filter.mpr ⟨h, ?_⟩)
    have : s.key ≠ Name.key .agents := by
      intro e
      rcases key_cases e with rfl | ⟨_, _, _, _, _, h, _⟩
      · exact hr trivial
      · exact nomatch h
    simpa using this
  · exact .inr h

/-- Twelve shards of eleven nodes: the two nodes share a name. -/
example : dec 1 ++ dec 10 = dec 11 ++ dec 0 := by decide +kernel

example : Dashes (lit "xn--mnchen-3ya.example:5000") :=
  ⟨lit "xn", lit "mnchen-3ya.example:5000", by decide +kernel⟩

example : (raftOf [(lit "a", 10), (lit "a", 12)]) = [(lit "a", 11), (lit "a", 13)] := by
  decide +kernel

end Verif.Config.Args
