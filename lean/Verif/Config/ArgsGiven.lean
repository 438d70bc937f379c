import Verif.Config.ArgsLemmas
/-!
# Lemmas about command lines that were accepted, or that lack something
-/
namespace Verif.Config.Args

open Verif.Evm (Outcome)
open Verif.Hex (Text)
open Verif.Http (lit stoull)

variable {o : Opts} {p : Platform} {w : UInt64 → Text} {c : Cfg}

/-! ### Something is missing -/

theorem must_either {l : List (Text × Text)} (h : Mostly w c l) (s : Name) (v : Text)
    (hs : c.says w s = some v) : Either (must (fun k => l.lookup k) s.key) v := by
  unfold must
  dsimp only
  cases hl : l.lookup s.key with
  | some v' =>
    rw [h.right s v' v (lookup_some hl) hs]
    exact .inl rfl
  | none => exact .inr rfl

theorem mostly_told {l : List (Text × Text)} (h : Mostly w c l) (s : Name) (v : Text)
    (hs : c.says w s = some v) (hr : ¬ s.Required) :
    l.lookup s.key = some v ∨ (l.lookup s.key = none ∧ c.silent s) := by
  cases hl : l.lookup s.key with
  | some v' =>
    rw [h.right s v' v (lookup_some hl) hs]
    exact .inl rfl
  | none =>
    rcases h.whole s v hs hr with h | h
    · exact absurd h (lookup_none hl v)
    · exact .inr ⟨rfl, h⟩

theorem readEndpoints_either (name : Text) (l : List Endpoint) (hl : l.length < 2 ^ 64)
    (hf : ∀ e ∈ l, e.Fits) (hc : Either (must o (name ++ lit "_count")) (dec l.length))
    (he : ∀ (i : Nat) (e : Endpoint), l[i]? = some e →
      Either (must o (name ++ dec i ++ lit "_endpoint")) e.shown) :
    Either (readEndpoints o name) l := by
  unfold readEndpoints
  refine hc.bind ?_
  rw [stoull_count l hl]
  simp only [Outcome.bind_ok]
  refine count_either _ l hl fun i e hi => ?_
  exact (he i e hi).bind (.inl (parseIpPort_shown e (hf e (List.mem_of_getElem? hi))))

theorem readOpts_either {l : List (Text × Text)} (h : Mostly w c l) (hf : c.Fits p w) :
    Either (readOpts p fun k => l.lookup k) c := by
  have h3 : Either (readEndpoints (fun k => l.lookup k) (lit "ticket_machine")) c.tickets := by
    refine readEndpoints_either _ _ hf.tickets.1 hf.tickets.2 ?_ fun i e hi => ?_
    · have : lit "ticket_machine" ++ lit "_count" = Name.key .tickets := by decide +kernel
      rw [this]
      exact must_either h .tickets _ rfl
    · exact must_either h (.ticket i) _ (by simp [Cfg.says, hi])
  have h5 : Either (readClusters (fun k => l.lookup k) (lit "shard")) c.shards := by
    unfold readClusters
    have : lit "shard" ++ lit "_count" = Name.key .shards := by decide +kernel
    rw [this]
    refine (must_either h .shards _ rfl).bind ?_
    rw [stoull_count _ hf.shards]
    simp only [Outcome.bind_ok]
    refine count_either _ _ hf.shards fun i x hi => ?_
    obtain ⟨g1, g2⟩ := hf.shard x (List.mem_of_getElem? hi)
    refine readEndpoints_either _ _ g1 g2 ?_ fun j e hj => ?_
    · exact must_either h (.shardNodes i) _ (by simp [Cfg.says, hi])
    · exact must_either h (.shard i j) _ (by simp [Cfg.says, hi, hj])
  have h6 : Either (readEndpoints (fun k => l.lookup k) (lit "agent")) c.agents := by
    refine readEndpoints_either _ _ hf.agents.1 hf.agents.2 ?_ fun i e hi => ?_
    · have : lit "agent" ++ lit "_count" = Name.key .agents := by decide +kernel
      rw [this]
      exact must_either h .agents _ rfl
    · exact must_either h (.agent i) _ (by simp [Cfg.says, hi])
  obtain ⟨h4, h7, h8, h9, h10, h11⟩ := optional_told (o := fun k => l.lookup k)
    (fun s v hr hs => mostly_told h s v hs hr) (fun hn => by
      cases hl : l.lookup (Name.key .node) with
      | none => rfl
      | some v => exact absurd (lookup_some hl) (h.node hn v)) hf.contention
  have h2 : stoull (shown c.component) = .ok c.component := by
    unfold shown
    rw [stoull_dec _ c.component.toNat_lt]
    simp
  unfold readOpts
  rw [h4, h7, h8, h9, h10, h11]
  refine (must_either h .component _ rfl).bind ?_
  rw [h2]
  exact h3.bind (h5.bind (h6.bind (.ok _)))

/-! ### The command line was accepted -/

/-- What the text of an argument is read as. -/
def Means (p : Platform) (c : Cfg) : Name → Text → Prop
  | .component, t => stoull t = .ok c.component
  | .level, t => c.level = (parseLevel t).getD .trace
  | .node, t => ∃ n, c.node = some n ∧ stoull t = .ok n
  | .tickets, t => stoull t = .ok c.tickets.length.toUInt64
  | .ticket i, t => ∃ e, c.tickets[i]? = some e ∧ parseIpPort t = .ok e
  | .shards, t => stoull t = .ok c.shards.length.toUInt64
  | .shardNodes i, t => ∃ l, c.shards[i]? = some l ∧ stoull t = .ok l.length.toUInt64
  | .shard i j, t => ∃ e, c.shards[i]?.bind (·[j]?) = some e ∧ parseIpPort t = .ok e
  | .agents, t => stoull t = .ok c.agents.length.toUInt64
  | .agent i, t => ∃ e, c.agents[i]? = some e ∧ parseIpPort t = .ok e
  | .load, t => t = c.load.shown
  | .contention, t => p.stod t = some c.contention
  | .accounts, t => stoull t = .ok c.accounts
  | .runner, t => t = c.runner.shown

theorem must_inv {k t : Text} (h : must o k = .ok t) : o k = some t := by
  unfold must at h
  split at h
  · simpa using (by assumption : _ = some _).trans (by simpa using h)
  · exact nomatch h

theorem readEndpoints_inv {name : Text} {l : List Endpoint} (h : readEndpoints o name = .ok l) :
    (∃ t, o (name ++ lit "_count") = some t ∧ stoull t = .ok l.length.toUInt64) ∧
    ∀ (i : Nat) (e : Endpoint), l[i]? = some e →
      ∃ t, o (name ++ dec i ++ lit "_endpoint") = some t ∧ parseIpPort t = .ok e := by
  unfold readEndpoints at h
  obtain ⟨t, h1, h⟩ := bind_inv h
  obtain ⟨n, h2, h⟩ := bind_inv h
  obtain ⟨h3, h4⟩ := readFrom_inv _ _ _ _ h
  refine ⟨⟨t, must_inv h1, ?_⟩, fun i e hi => ?_⟩
  · rw [h2, h3]; simp
  · have := h4 i e hi
    rw [Nat.zero_add] at this
    obtain ⟨t, g1, g2⟩ := bind_inv this
    exact ⟨t, must_inv g1, g2⟩

theorem readClusters_inv {name : Text} {l : List (List Endpoint)}
    (h : readClusters o name = .ok l) :
    (∃ t, o (name ++ lit "_count") = some t ∧ stoull t = .ok l.length.toUInt64) ∧
    ∀ (i : Nat) (x : List Endpoint), l[i]? = some x → readEndpoints o (name ++ dec i) = .ok x := by
  unfold readClusters at h
  obtain ⟨t, h1, h⟩ := bind_inv h
  obtain ⟨n, h2, h⟩ := bind_inv h
  obtain ⟨h3, h4⟩ := readFrom_inv _ _ _ _ h
  refine ⟨⟨t, must_inv h1, ?_⟩, fun i e hi => ?_⟩
  · rw [h2, h3]; simp
  · have := h4 i e hi
    rwa [Nat.zero_add] at this

theorem readOpts_inv (h : readOpts p o = .ok c) (s : Name) (v : Text)
    (hs : c.says w s = some v) :
    (∃ t, o s.key = some t ∧ Means p c s t) ∨ (o s.key = none ∧ c.silent s) := by
  unfold readOpts at h
  obtain ⟨t, h1, h⟩ := bind_inv h
  obtain ⟨component, h2, h⟩ := bind_inv h
  obtain ⟨tickets, h3, h⟩ := bind_inv h
  obtain ⟨node, h4, h⟩ := bind_inv h
  obtain ⟨shards, h5, h⟩ := bind_inv h
  obtain ⟨agents, h6, h⟩ := bind_inv h
  obtain ⟨load, h7, h⟩ := bind_inv h
  obtain ⟨contention, h8, h⟩ := bind_inv h
  obtain ⟨accounts, h9, h⟩ := bind_inv h
  obtain ⟨runner, h10, h⟩ := bind_inv h
  simp only [Outcome.ok.injEq] at h
  subst h
  have h3 := readEndpoints_inv h3
  have h5 := readClusters_inv h5
  have h6 := readEndpoints_inv h6
  cases s with
  | component => exact .inl ⟨t, must_inv h1, h2⟩
  | level =>
    unfold Name.key
    cases ho : o (lit "loglevel") with
    | none => exact .inr ⟨rfl, by simp [Cfg.silent, readLevel, ho]⟩
    | some t => exact .inl ⟨t, rfl, by simp [Means, readLevel, ho]⟩
  | node =>
    unfold Name.key
    simp only [Cfg.says, Option.map_eq_some_iff] at hs
    obtain ⟨n, rfl, _⟩ := hs
    unfold readNode at h4
    cases ho : o (lit "node_id") with
    | none => rw [ho] at h4; simp at h4
    | some t =>
      rw [ho] at h4
      obtain ⟨m, g1, g2⟩ := bind_inv h4
      simp only [Outcome.ok.injEq, Option.some.injEq] at g2
      exact .inl ⟨t, rfl, n, rfl, g2 ▸ g1⟩
  | tickets =>
    have e : lit "ticket_machine" ++ lit "_count" = Name.key .tickets := by decide +kernel
    rw [e] at h3
    exact .inl h3.1
  | ticket i =>
    simp only [Cfg.says, Option.map_eq_some_iff] at hs
    obtain ⟨e, he, _⟩ := hs
    obtain ⟨t, g1, g2⟩ := h3.2 i e he
    exact .inl ⟨t, g1, e, he, g2⟩
  | shards =>
    have e : lit "shard" ++ lit "_count" = Name.key .shards := by decide +kernel
    rw [e] at h5
    exact .inl h5.1
  | shardNodes i =>
    simp only [Cfg.says, Option.map_eq_some_iff] at hs
    obtain ⟨x, hx, _⟩ := hs
    obtain ⟨t, g1, g2⟩ := (readEndpoints_inv (h5.2 i x hx)).1
    exact .inl ⟨t, g1, x, hx, g2⟩
  | shard i j =>
    simp only [Cfg.says, Option.map_eq_some_iff, Option.bind_eq_some_iff] at hs
    obtain ⟨e, ⟨x, hx, he⟩, _⟩ := hs
    obtain ⟨t, g1, g2⟩ := (readEndpoints_inv (h5.2 i x hx)).2 j e he
    exact .inl ⟨t, g1, e, by simp [hx, he], g2⟩
  | agents =>
    have e : lit "agent" ++ lit "_count" = Name.key .agents := by decide +kernel
    rw [e] at h6
    exact .inl h6.1
  | agent i =>
    simp only [Cfg.says, Option.map_eq_some_iff] at hs
    obtain ⟨e, he, _⟩ := hs
    obtain ⟨t, g1, g2⟩ := h6.2 i e he
    exact .inl ⟨t, g1, e, he, g2⟩
  | load =>
    unfold Name.key
    unfold readLoad at h7
    cases ho : o (lit "loadgen_txtype") with
    | none => rw [ho] at h7; exact .inr ⟨rfl, by simpa [Cfg.silent] using h7.symm⟩
    | some t =>
      rw [ho] at h7
      dsimp only at h7
      refine .inl ⟨t, rfl, ?_⟩
      split at h7
      · rename_i ht; simp only [Outcome.ok.injEq] at h7; subst h7; exact ht
      · split at h7
        · rename_i ht; simp only [Outcome.ok.injEq] at h7; subst h7; exact ht
        · exact nomatch h7
  | contention =>
    unfold Name.key
    unfold readContention at h8
    cases ho : o (lit "contention_rate") with
    | none => rw [ho] at h8; exact .inr ⟨rfl, by simpa [Cfg.silent] using h8.symm⟩
    | some t =>
      rw [ho] at h8
      dsimp only at h8
      refine .inl ⟨t, rfl, ?_⟩
      split at h8
      · rename_i d hd; simp only [Outcome.ok.injEq] at h8; subst h8; exact hd
      · exact nomatch h8
  | accounts =>
    unfold Name.key
    unfold readAccounts at h9
    cases ho : o (lit "loadgen_accounts") with
    | none => rw [ho] at h9; exact .inr ⟨rfl, by simpa [Cfg.silent] using h9.symm⟩
    | some t => rw [ho] at h9; exact .inl ⟨t, rfl, h9⟩
  | runner =>
    unfold Name.key
    unfold readRunner at h10
    cases ho : o (lit "runner_type") with
    | none => rw [ho] at h10; exact .inr ⟨rfl, by simpa [Cfg.silent] using h10.symm⟩
    | some t =>
      rw [ho] at h10
      dsimp only at h10
      refine .inl ⟨t, rfl, ?_⟩
      split at h10
      · rename_i ht; simp only [Outcome.ok.injEq] at h10; subst h10; exact ht
      · split at h10
        · rename_i ht; simp only [Outcome.ok.injEq] at h10; subst h10; exact ht
        · exact nomatch h10

theorem readOpts_node (h : readOpts p o = .ok c) (hn : c.node = none) :
    o (Name.key .node) = none := by
  unfold readOpts at h
  obtain ⟨t, h1, h⟩ := bind_inv h
  obtain ⟨component, h2, h⟩ := bind_inv h
  obtain ⟨tickets, h3, h⟩ := bind_inv h
  obtain ⟨node, h4, h⟩ := bind_inv h
  obtain ⟨shards, h5, h⟩ := bind_inv h
  obtain ⟨agents, h6, h⟩ := bind_inv h
  obtain ⟨load, h7, h⟩ := bind_inv h
  obtain ⟨contention, h8, h⟩ := bind_inv h
  obtain ⟨accounts, h9, h⟩ := bind_inv h
  obtain ⟨runner, h10, h⟩ := bind_inv h
  simp only [Outcome.ok.injEq] at h
  subst h
  have hn : node = none := hn
  subst hn
  unfold readNode at h4
  unfold Name.key
  cases ho : o (lit "node_id") with
  | none => rfl
  | some t =>
    rw [ho] at h4
    obtain ⟨m, g1, g2⟩ := bind_inv h4
    simp at g2

end Verif.Config.Args
