import Verif.Config.DaemonsSpec
import Verif.Config.FileProps
/-!
# Lemmas about the programs
-/
namespace Verif.Config.Daemon

open Verif.Evm (Outcome)
open Verif.Hex (Text)
open Verif.Http (stoull)

/-- What the lists of an accepted configuration have to do with each other. -/
structure Shape (o : FullOptions) : Prop where
  two : o.twoPhase = true → o.shardNodes.length = o.shards.length ∧ ∀ s ∈ o.shards, s.place = none
  one : o.twoPhase = false → o.shardNodes = [] ∧ ∀ s ∈ o.shards, s.place ≠ none
  archivers : o.twoPhase = false → o.archivers ≠ []
  coordinators : o.twoPhase = true → o.coordinators ≠ []

theorem shape {p : Platform} {file : Text} {o : FullOptions} (h : loadOptions p file = .ok o) :
    Shape o := by
  obtain ⟨h, hu⟩ := (C108_accepted p file o).mp h
  unfold readOptions at h
  obtain ⟨l, _, h⟩ := bind_inv h
  have hp := readAll_inv h
  have hplace : ∀ s ∈ o.shards, (o.twoPhase = true → s.place = none) ∧
      (o.twoPhase = false → s.place ≠ none) := by
    intro s hs
    obtain ⟨i, hi⟩ := List.getElem?_of_mem hs
    have hx := hp.shard i s hi
    unfold readShard at hx
    obtain ⟨pl, h1, hx⟩ := bind_inv hx
    obtain ⟨_, _, hx⟩ := bind_inv hx
    obtain ⟨_, _, hx⟩ := bind_inv hx
    obtain ⟨_, _, hx⟩ := bind_inv hx
    simp only [Outcome.ok.injEq] at hx
    subst hx
    unfold readPlace at h1
    refine ⟨fun ht => ?_, fun ht => ?_⟩
    · rw [if_pos ht, Outcome.ok.injEq] at h1
      exact h1.symm
    · rw [if_neg (by simp [ht])] at h1
      obtain ⟨ep, _, h1⟩ := bind_inv h1
      obtain ⟨db, _, h1⟩ := bind_inv h1
      simp only [Outcome.ok.injEq] at h1
      rw [← h1]
      simp
  refine ⟨fun ht => ⟨?_, fun s hs => (hplace s hs).1 ht⟩, fun ht => ⟨?_, fun s hs => (hplace s hs).2 ht⟩,
    fun ht => ?_, fun ht => ?_⟩
  · have h1 := hp.shardNodes
    unfold readShardNodes at h1
    obtain ⟨n, hn, h1⟩ := bind_inv h1
    rw [if_pos ht] at h1
    have h2 := (readFrom_inv _ _ _ _ h1).1
    obtain ⟨m, hm, h3⟩ := hp.shardCount
    rw [hn, Outcome.ok.injEq] at hm
    subst hm
    rw [h2, h3]
  · have h1 := hp.shardNodes
    unfold readShardNodes at h1
    obtain ⟨n, hn, h1⟩ := bind_inv h1
    rw [if_neg (by simp [ht]), Outcome.ok.injEq] at h1
    exact h1.symm
  · exact (hu.atomizer ht).2.1
  · exact (hu.twoPhase ht).2.2.2

theorem places_two {o : FullOptions} (hs : ∀ s ∈ o.shards, s.place = none) : places o = [] := by
  unfold places
  rw [List.filterMap_eq_nil_iff]
  exact hs

theorem places_get (l : List Shard) (h : ∀ s ∈ l, s.place ≠ none) (i : Nat) :
    (l.filterMap (·.place))[i]? = l[i]?.bind (·.place) := by
  induction l generalizing i with
  | nil => simp
  | cons s l ih =>
    have hs := h s (by simp)
    cases hq : s.place with
    | none => exact absurd hq hs
    | some q =>
      rw [List.filterMap_cons_some hq]
      cases i with
      | zero => simp [hq]
      | succ i => simpa using ih (fun t ht => h t (by simp [ht])) i

theorem small_id {n : Nat} {id : UInt64} (h : id.toNat < n) (hn : n < 2 ^ 32) :
    id.toUInt32.toNat = id.toNat := by
  rw [UInt64.toNat_toUInt32]
  exact Nat.mod_eq_of_lt (by omega)

theorem of_get {α : Type} {l : List α} {i : Nat} {a : α} (h : l[i]? = some a) : i < l.length :=
  (List.getElem?_eq_some_iff.mp h).1

theorem client_called (es : List Endpoint) (f : Endpoint → Act) (hf : ∀ x, (f x).called = [x])
    (e : Endpoint) : (∃ a ∈ client es f, e ∈ a.called) ↔ e ∈ es := by
  unfold client
  split
  · simp only [List.mem_map]
    constructor
    · rintro ⟨a, ⟨x, hx, rfl⟩, he⟩
      rw [hf, List.mem_singleton] at he
      exact he ▸ hx
    · exact fun h => ⟨_, ⟨e, h, rfl⟩, by simp [hf]⟩
  · simp [Act.called]

theorem client_not (es : List Endpoint) (f : Endpoint → Act) (a : Act) (hf : ∀ x, f x ≠ a)
    (hc : ∀ l, Act.contact l ≠ a) : a ∉ client es f := by
  unfold client
  split
  · simpa using fun x _ => hf x
  · simpa using fun h => hc es h.symm

theorem sentinel_right {o : FullOptions} {id : UInt32} {level : Level} {r : Role}
    (h : sentinelControl o id level = .ok r) : ∃ s, o.sentinels[id.toNat]? = some s ∧
      r.id = id.toNat ∧ Right o .sentinel { level, takes := [s.endpoint] } r := by
  unfold sentinelControl at h
  cases hs : o.sentinels[id.toNat]? with
  | none => simp [hs] at h
  | some s =>
    simp only [hs] at h
    cases hk : s.priv with
    | none => simp [hk] at h
    | some k =>
      simp only [hk, Outcome.ok.injEq] at h
      subst h
      refine ⟨s, rfl, rfl, rfl, rfl, fun e => ?_, fun e => ?_, fun t => ?_, fun m es => ?_⟩
      · simp
      · simp only [Partner, hs, Option.some.injEq, forall_eq', places]
        simp only [List.append_nil, List.mem_append, List.mem_map, List.mem_filterMap,
          List.mem_filter, List.mem_singleton]
        constructor
        · rintro ⟨a, (⟨q, ⟨x, hx, hq⟩, rfl⟩ | ⟨x, ⟨⟨y, hy, rfl⟩, hne⟩, rfl⟩) | rfl, he⟩
          · simp only [Act.called, List.mem_singleton] at he
            exact .inl ⟨x, hx, q, hq, he⟩
          · simp only [Act.called, List.mem_singleton] at he
            subst he
            exact .inr ⟨⟨y, hy, rfl⟩, by simpa using hne⟩
          · simp [Act.called] at he
        · rintro (⟨x, hx, q, hq, rfl⟩ | ⟨⟨y, hy, rfl⟩, hne⟩)
          · exact ⟨_, .inl (.inl ⟨q, ⟨x, hx, hq⟩, rfl⟩), by simp [Act.called]⟩
          · exact ⟨_, .inl (.inr ⟨y.endpoint, ⟨⟨y, hy, rfl⟩, by simpa using hne⟩, rfl⟩),
              by simp [Act.called]⟩
      · simp
      · simp

theorem sentinelTwo_right {o : FullOptions} {id : UInt32} {level : Level} {r : Role}
    (hc : o.coordinators.length < 2 ^ 32) (h : sentinelTwoControl o id level = .ok r) :
    ∃ s, o.sentinels[id.toNat]? = some s ∧
      r.id = id.toNat ∧ Right o .sentinelTwo { level, takes := [s.endpoint] } r := by
  unfold sentinelTwoControl at h
  split at h
  · exact nomatch h
  have e : (id % o.coordinators.length.toUInt32).toNat = id.toNat % o.coordinators.length := by
    rw [UInt32.toNat_mod]
    congr 1
    exact Nat.mod_eq_of_lt hc
  rw [e] at h
  cases hd : o.coordinators[id.toNat % o.coordinators.length]? with
  | none => simp [hd] at h
  | some c =>
    simp only [hd] at h
    cases hs : o.sentinels[id.toNat]? with
    | none => simp [hs] at h
    | some s =>
      simp only [hs] at h
      split at h
      · exact nomatch h
      simp only [Outcome.ok.injEq] at h
      subst h
      have hn : ∀ a : Act, (∀ l, a ≠ .contact l) → (∀ l, a ≠ .row l) →
          a ∉ client (c.nodes.map (·.2)) (fun e => .row [e]) := fun a h1 h2 =>
        client_not _ _ _ (fun x => (h2 _).symm) fun l => (h1 l).symm
      refine ⟨s, rfl, rfl, rfl, rfl, fun e => ?_, fun e => ?_, fun t => ?_, fun m es => ?_⟩
      · simp [hn (.serve e) (by simp) (by simp)]
      · simp only [Partner, hs, Option.some.injEq, forall_eq', hd]
        have hcl := client_called (c.nodes.map (·.2)) (fun e => .row [e]) (fun _ => rfl) e
        simp only [List.append_nil, List.mem_append, List.mem_map, List.mem_filter,
          List.mem_singleton]
        constructor
        · rintro ⟨a, (ha | ⟨x, ⟨⟨y, hy, rfl⟩, hne⟩, rfl⟩) | rfl, he⟩
          · have := hcl.mp ⟨a, ha, he⟩
            obtain ⟨n, hn, rfl⟩ := List.mem_map.mp this
            exact .inl ⟨c, rfl, n, hn, rfl⟩
          · simp only [Act.called, List.mem_singleton] at he
            subst he
            exact .inr ⟨⟨y, hy, rfl⟩, by simpa using hne⟩
          · simp [Act.called] at he
        · rintro (⟨_, rfl, n, hn, rfl⟩ | ⟨⟨y, hy, rfl⟩, hne⟩)
          · obtain ⟨a, ha, he⟩ := hcl.mpr (List.mem_map.mpr ⟨n, hn, rfl⟩)
            exact ⟨a, .inl (.inl ha), he⟩
          · exact ⟨_, .inl (.inr ⟨y.endpoint, ⟨⟨y, hy, rfl⟩, by simpa using hne⟩, rfl⟩),
              by simp [Act.called]⟩
      · simp [hn (.store t) (by simp) (by simp)]
      · simp [hn (.join m es) (by simp) (by simp)]

theorem shard_right {o : FullOptions} {id : UInt32} {level : Level} {r : Role}
    (h : shardControl o id level = .ok r) : ∃ q, (places o)[id.toNat]? = some q ∧
      r.id = id.toNat ∧ Right o .shard { level, takes := [q.1], store := some q.2 } r := by
  unfold shardControl at h
  split at h
  · next s a q _ ha hq =>
    simp only [Outcome.ok.injEq] at h
    subst h
    refine ⟨q, hq, rfl, rfl, rfl, fun e => ?_, fun e => ?_, fun t => ?_, fun m es => ?_⟩
    · simp
    · have ha : o.archivers.head? = some a := by rw [List.head?_eq_getElem?]; exact ha
      simp [Partner, Act.called, ha, eq_comm]
    · simp [eq_comm]
    · simp
  · exact nomatch h

theorem archiver_right {o : FullOptions} {id : UInt32} {level : Level} {n : UInt64} {r : Role}
    (h : archiverControl o id level n = .ok r) : ∃ a, o.archivers[id.toNat]? = some a ∧
      r.id = id.toNat ∧ r.samples = n ∧
      Right o .archiver { level, takes := [a.endpoint], store := some a.db } r := by
  unfold archiverControl at h
  cases ha : o.archivers[id.toNat]? with
  | none => simp [ha] at h
  | some a =>
    simp only [ha, Outcome.ok.injEq] at h
    subst h
    refine ⟨a, rfl, rfl, rfl, rfl, rfl, fun e => ?_, fun e => ?_, fun t => ?_, fun m es => ?_⟩
    · simp
    · simp [Partner, Act.called, eq_comm]
    · simp [eq_comm]
    · simp

theorem watchtower_right {o : FullOptions} {id : UInt32} {level : Level} {r : Role}
    (h : watchtowerControl o id level = .ok r) : ∃ w, o.watchtowers[id.toNat]? = some w ∧
      r.id = id.toNat ∧ Right o .watchtower { level, takes := [w.client, w.internal] } r := by
  unfold watchtowerControl at h
  split at h
  · next a w ha hw =>
    simp only [Outcome.ok.injEq] at h
    subst h
    refine ⟨w, hw, rfl, rfl, rfl, fun e => ?_, fun e => ?_, fun t => ?_, fun m es => ?_⟩
    · simp [or_comm]
    · have ha : o.archivers.head? = some a := by rw [List.head?_eq_getElem?]; exact ha
      simp [Partner, Act.called, ha, eq_comm]
    · simp
    · simp
  · exact nomatch h

theorem atomizer_right {o : FullOptions} {id : UInt32} {level : Level} {r : Role}
    (h : atomizerControl o id level = .ok r) : ∃ a, o.atomizers[id.toNat]? = some a ∧
      r.id = id.toNat ∧ Right o .atomizer
        { level, takes := [a.endpoint], cluster := o.atomizers.map (·.raft), place := id.toNat } r := by
  unfold atomizerControl at h
  cases ha : o.atomizers[id.toNat]? with
  | none => simp [ha] at h
  | some a =>
    simp only [ha, Outcome.ok.injEq] at h
    subst h
    refine ⟨a, rfl, rfl, rfl, rfl, fun e => ?_, fun e => ?_, fun t => ?_, fun m es => ?_⟩
    · simp
    · simp [Partner, Act.called, eq_comm]
    · simp
    · simp

theorem lockingShard_right {o : FullOptions} {id node : UInt64} {level : Level} {r : Role}
    (h : lockingShardControl o id node level = .ok r) : ∃ v n, o.shardNodes[id.toNat]? = some v ∧
      v[node.toNat]? = some n ∧ r.id = id.toNat ∧ r.node = node.toNat ∧ Right o .lockingShard
        { level, takes := [n.endpoint, n.readonly], cluster := v.map (·.raft),
          place := node.toNat } r := by
  unfold lockingShardControl at h
  split at h
  · exact nomatch h
  split at h
  · exact nomatch h
  split at h
  · exact nomatch h
  cases hv : o.shardNodes[id.toNat]? with
  | none => simp [hv] at h
  | some v =>
    simp only [hv] at h
    cases hn : v[node.toNat]? with
    | none => simp [hn] at h
    | some n =>
      simp only [hn, Outcome.ok.injEq] at h
      subst h
      refine ⟨v, n, rfl, hn, rfl, rfl, rfl, rfl, fun e => ?_, fun e => ?_, fun t => ?_, fun m es => ?_⟩
      · simp [or_comm]
      · simp [Partner, Act.called]
      · simp
      · simp

theorem coordinator_right {o : FullOptions} {id node : UInt64} {level : Level} {r : Role}
    (h : coordinatorControl o id node level = .ok r) : ∃ v n, o.coordinators[id.toNat]? = some v ∧
      v.nodes[node.toNat]? = some n ∧ r.id = id.toNat ∧ r.node = node.toNat ∧ Right o .coordinator
        { level, takes := [n.2], cluster := v.nodes.map (·.1), place := node.toNat } r := by
  unfold coordinatorControl at h
  split at h
  · exact nomatch h
  split at h
  · exact nomatch h
  cases hv : o.coordinators[id.toNat]? with
  | none => simp [hv] at h
  | some v =>
    simp only [hv] at h
    cases hn : v.nodes[node.toNat]? with
    | none => simp [hn] at h
    | some n =>
      simp only [hn, Outcome.ok.injEq] at h
      subst h
      have hnot : ∀ a : Act, (∀ l, a ≠ .contact l) → (∀ e, a ≠ .demand e) → ∀ c : List ShardNode,
          a ∉ client (c.map (·.endpoint)) .demand := fun a h1 h2 c =>
        client_not _ _ _ (fun x => (h2 x).symm) fun l => (h1 l).symm
      refine ⟨v, n, rfl, hn, rfl, rfl, rfl, rfl, fun e => ?_, fun e => ?_, fun t => ?_, fun m es => ?_⟩
      · simp [hnot (.serve e) (by simp) (by simp)]
      · simp only [Partner, List.mem_append, List.mem_singleton, List.mem_flatMap]
        constructor
        · rintro ⟨a, rfl | (⟨c, hc, ha⟩ | rfl), he⟩
          · simp [Act.called] at he
          · have := (client_called _ _ (fun _ => rfl) e).mp ⟨a, ha, he⟩
            obtain ⟨x, hx, rfl⟩ := List.mem_map.mp this
            exact ⟨c, hc, x, hx, rfl⟩
          · simp [Act.called] at he
        · rintro ⟨c, hc, x, hx, rfl⟩
          obtain ⟨a, ha, he⟩ := (client_called (c.map (·.endpoint)) .demand (fun _ => rfl) x.endpoint).mpr
            (List.mem_map.mpr ⟨x, hx, rfl⟩)
          exact ⟨a, .inr (.inl ⟨c, hc, ha⟩), he⟩
      · simp [hnot (.store t) (by simp) (by simp)]
      · simp [hnot (.join m es) (by simp) (by simp)]

end Verif.Config.Daemon
