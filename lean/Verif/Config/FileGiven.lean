import Verif.Config.FileAll
/-!
# Lemmas about where the options come from
-/
namespace Verif.Config

open Verif.Evm (Outcome)
open Verif.Hex (Text HashRes hashFromHex toHex)
open Verif.Http (lit stoull)
open Verif.Serial (Bytes)

/-- The pieces that `readAll` put together. -/
structure Pieces (src : Source) (o : FullOptions) : Prop where
  sentinel : ∀ (i : Nat) (x : Sentinel), o.sentinels[i]? = some x →
    readSentinel src o.threshold i = .ok x
  shardNodes : readShardNodes src o.twoPhase = .ok o.shardNodes
  shard : ∀ (i : Nat) (x : Shard), o.shards[i]? = some x → readShard src o.twoPhase i = .ok x
  shardCount : ∃ n, numOr src .shards 0 = .ok n ∧ o.shards.length = n.toNat
  seeds : readSeeds src = .ok ((o.seedFrom, o.seedTo), o.seedKey, o.seedValue)
  atomizer : ∀ (i : Nat) (x : Atomizer), o.atomizers[i]? = some x → readAtomizer src i = .ok x
  archiver : ∀ (i : Nat) (x : Archiver), o.archivers[i]? = some x → readArchiver src i = .ok x
  watchtower : ∀ (i : Nat) (x : Watchtower), o.watchtowers[i]? = some x →
    readWatchtower src i = .ok x
  coordinator : ∀ (i : Nat) (x : Coordinator), o.coordinators[i]? = some x →
    readCoordinator src i = .ok x

theorem readFrom_each {α : Type} {f : Nat → Outcome α} {n : Nat} {l : List α}
    (h : readFrom f n 0 = .ok l) (i : Nat) (a : α) (hi : l[i]? = some a) : f i = .ok a := by
  simpa using (readFrom_inv f n 0 l h).2 i a hi

theorem readAll_inv {src : Source} {o : FullOptions} (h : readAll src = .ok o) :
    Pieces src o := by
  unfold readAll at h
  obtain ⟨tp, _, h⟩ := bind_inv h
  obtain ⟨th, _, h⟩ := bind_inv h
  obtain ⟨n1, _, h⟩ := bind_inv h
  obtain ⟨ss, hss, h⟩ := bind_inv h
  obtain ⟨sn, hsn, h⟩ := bind_inv h
  obtain ⟨n2, hn2, h⟩ := bind_inv h
  obtain ⟨sh, hsh, h⟩ := bind_inv h
  obtain ⟨_, _, h⟩ := bind_inv h
  obtain ⟨sd, hsd, h⟩ := bind_inv h
  obtain ⟨n3, _, h⟩ := bind_inv h
  obtain ⟨at', hat, h⟩ := bind_inv h
  obtain ⟨_, _, h⟩ := bind_inv h
  obtain ⟨_, _, h⟩ := bind_inv h
  obtain ⟨n4, _, h⟩ := bind_inv h
  obtain ⟨ar, har, h⟩ := bind_inv h
  obtain ⟨n5, _, h⟩ := bind_inv h
  obtain ⟨wt, hwt, h⟩ := bind_inv h
  obtain ⟨_, _, h⟩ := bind_inv h
  obtain ⟨_, _, h⟩ := bind_inv h
  obtain ⟨n6, _, h⟩ := bind_inv h
  obtain ⟨co, hco, h⟩ := bind_inv h
  obtain ⟨_, _, h⟩ := bind_inv h
  obtain ⟨_, _, h⟩ := bind_inv h
  obtain ⟨_, _, h⟩ := bind_inv h
  obtain ⟨_, _, h⟩ := bind_inv h
  obtain ⟨_, _, h⟩ := bind_inv h
  obtain ⟨_, _, h⟩ := bind_inv h
  obtain ⟨_, _, h⟩ := bind_inv h
  obtain ⟨_, _, h⟩ := bind_inv h
  obtain ⟨_, _, h⟩ := bind_inv h
  obtain ⟨_, _, h⟩ := bind_inv h
  obtain ⟨_, _, h⟩ := bind_inv h
  obtain ⟨_, _, h⟩ := bind_inv h
  obtain ⟨_, _, h⟩ := bind_inv h
  obtain ⟨_, _, h⟩ := bind_inv h
  obtain ⟨_, _, h⟩ := bind_inv h
  simp only [Outcome.ok.injEq] at h
  subst h
  exact ⟨readFrom_each hss, hsn, readFrom_each hsh, ⟨n2, hn2, (readFrom_inv _ _ _ _ hsh).1⟩, hsd,
    readFrom_each hat, readFrom_each har, readFrom_each hwt, readFrom_each hco⟩

theorem has_endpoint {src : Source} {k : Text} {e : Endpoint}
    (h : need (getEndpoint src k) = .ok e) : Has src k :=
  let ⟨t, ht, _⟩ := getEndpoint_inv h
  ⟨_, ht⟩

theorem has_num {src : Source} {k : Text} {n : UInt64}
    (h : need (getNum src k) = .ok n) : Has src k := ⟨_, getNum_inv h⟩

theorem has_str {src : Source} {k : Text} {t : Text}
    (h : need (getStr src k) = .ok t) : Has src k := ⟨_, getStr_inv (need_inv h)⟩

section
variable {src : Source} {o : FullOptions}

theorem has_sentinel (hp : Pieces src o) (i : Nat) (f : Field) (x : Sentinel)
    (hx : o.sentinels[i]? = some x) (v : Said) (hv : x.says f = some v) (hf : f ≠ .loglevel) :
    Has src (Setting.item .sentinel i f).key := by
  have h := hp.sentinel i x hx
  unfold readSentinel at h
  obtain ⟨ep, h1, h⟩ := bind_inv h
  obtain ⟨lv, h2, h⟩ := bind_inv h
  obtain ⟨pr, h3, h⟩ := bind_inv h
  obtain ⟨pu, h4, h⟩ := bind_inv h
  simp only [Outcome.ok.injEq] at h
  subst h
  unfold readPriv at h3
  unfold readPub at h4
  obtain ⟨a, h3, h3'⟩ := bind_inv h3
  obtain ⟨b, h4, h4'⟩ := bind_inv h4
  cases f <;> simp only [Sentinel.says, reduceCtorEq] at hv
  · exact has_endpoint h1
  · exact absurd rfl hf
  · cases a with
    | none =>
      simp only [Outcome.ok.injEq] at h3'
      subst h3'
      simp at hv
    | some t => exact ⟨_, getStr_inv h3⟩
  · cases b with
    | none =>
      dsimp only at h4'
      by_cases ht : o.threshold = 0
      · rw [if_pos ht, Outcome.ok.injEq] at h4'
        subst h4'
        simp at hv
      · rw [if_neg ht] at h4'
        exact nomatch h4'
    | some t => exact ⟨_, getStr_inv h4⟩

theorem has_shard (hp : Pieces src o) (i : Nat) (f : Field) (x : Shard)
    (hx : o.shards[i]? = some x) (v : Said) (hv : x.says f = some v) (hf : f ≠ .loglevel) :
    Has src (Setting.item .shard i f).key := by
  have h := hp.shard i x hx
  unfold readShard at h
  obtain ⟨pl, h1, h⟩ := bind_inv h
  obtain ⟨lv, h2, h⟩ := bind_inv h
  obtain ⟨a, h3, h⟩ := bind_inv h
  obtain ⟨b, h4, h⟩ := bind_inv h
  simp only [Outcome.ok.injEq] at h
  subst h
  have hpl : pl ≠ none → Has src (Setting.item .shard i .endpoint).key ∧
      Has src (Setting.item .shard i .db).key := by
    intro hn
    unfold readPlace at h1
    split at h1
    · simp only [Outcome.ok.injEq] at h1
      exact absurd h1.symm hn
    · obtain ⟨ep, h5, h1⟩ := bind_inv h1
      obtain ⟨db, h6, h1⟩ := bind_inv h1
      exact ⟨has_endpoint h5, has_str h6⟩
  cases f <;> simp only [Shard.says, reduceCtorEq] at hv
  · exact (hpl (by rintro rfl; simp at hv)).1
  · exact absurd rfl hf
  · exact (hpl (by rintro rfl; simp at hv)).2
  · exact has_num h3
  · exact has_num h4

theorem has_shardNodes (hp : Pieces src o) (i : Nat) (x : List ShardNode)
    (hx : o.shardNodes[i]? = some x) :
    Has src (Setting.item .shard i .count).key ∧
    ∀ (j : Nat) (y : ShardNode), x[j]? = some y → readShardNode src i j = .ok y := by
  have h := hp.shardNodes
  unfold readShardNodes at h
  obtain ⟨n, _, h⟩ := bind_inv h
  split at h
  · have h := readFrom_each h i x hx
    obtain ⟨k, h1, h⟩ := bind_inv h
    exact ⟨has_num h1, readFrom_each h⟩
  · simp only [Outcome.ok.injEq] at h
    rw [← h] at hx
    simp at hx

theorem has_shardNode {i j : Nat} {y : ShardNode} (h : readShardNode src i j = .ok y)
    (f : Field) (v : Said) (hv : y.says f = some v) :
    Has src (Setting.node .shard i j f).key := by
  unfold readShardNode at h
  obtain ⟨a, h1, h⟩ := bind_inv h
  obtain ⟨b, h2, h⟩ := bind_inv h
  obtain ⟨c, h3, h⟩ := bind_inv h
  cases f <;> simp only [ShardNode.says, reduceCtorEq] at hv
  · exact has_endpoint h2
  · exact has_endpoint h1
  · exact has_endpoint h3

theorem has_atomizer (hp : Pieces src o) (i : Nat) (f : Field) (x : Atomizer)
    (hx : o.atomizers[i]? = some x) (v : Said) (hv : x.says f = some v) (hf : f ≠ .loglevel) :
    Has src (Setting.item .atomizer i f).key := by
  have h := hp.atomizer i x hx
  unfold readAtomizer at h
  obtain ⟨a, h1, h⟩ := bind_inv h
  obtain ⟨b, h2, h⟩ := bind_inv h
  obtain ⟨c, h3, h⟩ := bind_inv h
  cases f <;> simp only [Atomizer.says, reduceCtorEq] at hv
  · exact has_endpoint h1
  · exact absurd rfl hf
  · exact has_endpoint h3

theorem has_archiver (hp : Pieces src o) (i : Nat) (f : Field) (x : Archiver)
    (hx : o.archivers[i]? = some x) (v : Said) (hv : x.says f = some v) (hf : f ≠ .loglevel) :
    Has src (Setting.item .archiver i f).key := by
  have h := hp.archiver i x hx
  unfold readArchiver at h
  obtain ⟨a, h1, h⟩ := bind_inv h
  obtain ⟨b, h2, h⟩ := bind_inv h
  obtain ⟨c, h3, h⟩ := bind_inv h
  cases f <;> simp only [Archiver.says, reduceCtorEq] at hv
  · exact has_endpoint h1
  · exact absurd rfl hf
  · exact has_str h3

theorem has_watchtower (hp : Pieces src o) (i : Nat) (f : Field) (x : Watchtower)
    (hx : o.watchtowers[i]? = some x) (v : Said) (hv : x.says f = some v) (hf : f ≠ .loglevel) :
    Has src (Setting.item .watchtower i f).key := by
  have h := hp.watchtower i x hx
  unfold readWatchtower at h
  obtain ⟨a, h1, h⟩ := bind_inv h
  obtain ⟨b, h2, h⟩ := bind_inv h
  obtain ⟨c, h3, h⟩ := bind_inv h
  cases f <;> simp only [Watchtower.says, reduceCtorEq] at hv
  · exact absurd rfl hf
  · exact has_endpoint h1
  · exact has_endpoint h2

theorem has_coordinator (hp : Pieces src o) (i : Nat) (x : Coordinator)
    (hx : o.coordinators[i]? = some x) :
    Has src (Setting.item .coordinator i .count).key ∧
    ∀ (j : Nat) (y : Endpoint × Endpoint), x.nodes[j]? = some y →
      Has src (Setting.node .coordinator i j .raftEndpoint).key ∧
      Has src (Setting.node .coordinator i j .endpoint).key := by
  have h := hp.coordinator i x hx
  unfold readCoordinator at h
  obtain ⟨a, h1, h⟩ := bind_inv h
  obtain ⟨b, h2, h⟩ := bind_inv h
  obtain ⟨c, h3, h⟩ := bind_inv h
  simp only [Outcome.ok.injEq] at h
  subst h
  refine ⟨has_num h2, fun j y hy => ?_⟩
  have h := readFrom_each h3 j y hy
  obtain ⟨r, h4, h⟩ := bind_inv h
  obtain ⟨e, h5, h⟩ := bind_inv h
  exact ⟨has_endpoint h4, has_endpoint h5⟩

theorem has_seedKey (hp : Pieces src o) (k : Bytes) (hk : o.seedKey = some k) :
    Has src Scalar.seedKey.name := by
  have h := hp.seeds
  unfold readSeeds at h
  obtain ⟨a, _, h⟩ := bind_inv h
  obtain ⟨b, _, h⟩ := bind_inv h
  split at h
  · simp only [Outcome.ok.injEq, Prod.mk.injEq] at h
    rw [← h.2.1] at hk
    simp at hk
  · obtain ⟨t, h1, h⟩ := bind_inv h
    exact has_str h1

theorem has_setting (h : readAll src = .ok o) (s : Setting) (v : Said) (hv : o.says s = some v)
    (hd : s.default = none) : Has src s.key := by
  have hp := readAll_inv h
  cases s with
  | scalar s =>
    cases s <;> simp only [Setting.default, reduceCtorEq] at hd
    cases hk : o.seedKey with
    | none => simp [FullOptions.says, FullOptions.scalar, hk] at hv
    | some k => exact has_seedKey hp k hk
  | item c i f =>
    have hf : f ≠ .loglevel := by rintro rfl; simp [Setting.default] at hd
    cases c <;> simp only [FullOptions.says, FullOptions.item] at hv
    · obtain ⟨x, hx, hv⟩ := Option.bind_eq_some_iff.mp hv
      exact has_sentinel hp i f x hx v hv hf
    · split at hv
      · rename_i he
        subst he
        obtain ⟨x, hx, _⟩ := Option.map_eq_some_iff.mp hv
        exact (has_shardNodes hp i x hx).1
      · obtain ⟨x, hx, hv⟩ := Option.bind_eq_some_iff.mp hv
        exact has_shard hp i f x hx v hv hf
    · obtain ⟨x, hx, hv⟩ := Option.bind_eq_some_iff.mp hv
      exact has_atomizer hp i f x hx v hv hf
    · obtain ⟨x, hx, hv⟩ := Option.bind_eq_some_iff.mp hv
      exact has_archiver hp i f x hx v hv hf
    · obtain ⟨x, hx, hv⟩ := Option.bind_eq_some_iff.mp hv
      exact has_watchtower hp i f x hx v hv hf
    · obtain ⟨x, hx, hv⟩ := Option.bind_eq_some_iff.mp hv
      cases f <;> simp only [Coordinator.says, reduceCtorEq] at hv
      · exact absurd rfl hf
      · exact (has_coordinator hp i x hx).1
  | node c i j f =>
    cases c <;> simp only [FullOptions.says, FullOptions.node, reduceCtorEq] at hv
    · obtain ⟨y, hy, hv⟩ := Option.bind_eq_some_iff.mp hv
      obtain ⟨x, hx, hy⟩ := Option.bind_eq_some_iff.mp hy
      exact has_shardNode ((has_shardNodes hp i x hx).2 j y hy) f v hv
    · obtain ⟨y, hy, hv⟩ := Option.bind_eq_some_iff.mp hv
      obtain ⟨n, hn, hy⟩ := Option.bind_eq_some_iff.mp hy
      obtain ⟨x, hx, rfl⟩ := Option.map_eq_some_iff.mp hn
      have h := (has_coordinator hp i x hx).2 j y hy
      cases f <;> simp only [nodeSays, reduceCtorEq] at hv
      · exact h.2
      · exact h.1

end

/-! ### Lines -/

theorem entry_inv {line k v : Text} (h : entry line = some (k, v)) : line = k ++ [61] ++ v := by
  unfold entry at h
  split at h
  · rename_i c d r heq
    simp only [Option.some.injEq, Prod.mk.injEq] at h
    have h1 : c = 61 := by
      have : ∀ l : Text, l.dropWhile (· ≠ 61) = c :: d :: r → c = 61 := by
        intro l
        induction l with
        | nil => simp
        | cons a l ih =>
          intro h
          by_cases ha : a = 61
          · simp [List.dropWhile, ha] at h; exact h.1.symm
          · simp [List.dropWhile, ha] at h; exact ih (by simpa using h)
      exact this _ heq
    have h2 := List.takeWhile_append_dropWhile (p := fun x : UInt8 => decide (x ≠ 61)) (l := line)
    rw [heq, h1] at h2
    rw [← h.1, ← h.2]
    simpa using h2.symm
  · exact nomatch h

theorem parseLines_inv (p : Platform) (ls : List Text) (acc r : List (Text × Val))
    (h : parseLines p ls acc = .ok r) (k : Text) (v : Val) (hk : (k, v) ∈ r) :
    (k, v) ∈ acc ∨ ∃ t, k ++ [61] ++ t ∈ ls ∧ parseValue p t = .ok v := by
  induction ls generalizing acc with
  | nil =>
    simp only [parseLines, Outcome.ok.injEq] at h
    subst h
    exact .inl hk
  | cons x ls ih =>
    rw [parseLines] at h
    split at h
    · rcases ih _ h with h | ⟨t, h1, h2⟩
      · exact .inl h
      · exact .inr ⟨t, List.mem_cons_of_mem _ h1, h2⟩
    · rename_i a b he
      obtain ⟨y, h1, h⟩ := bind_inv h
      rcases ih _ h with h | ⟨t, h1, h2⟩
      · split at h
        · exact .inl h
        · simp only [List.mem_append, List.mem_singleton, Prod.mk.injEq] at h
          rcases h with h | ⟨rfl, rfl⟩
          · exact .inl h
          · exact .inr ⟨b, by rw [entry_inv he]; exact List.mem_cons_self, h1⟩
      · exact .inr ⟨t, List.mem_cons_of_mem _ h1, h2⟩

theorem splitLines_mem (file acc line : Text) (h : line ∈ splitLines file acc) (ha : 10 ∉ acc) :
    10 ∉ line ∧ ∃ a b, acc ++ file = a ++ line ++ b ∧ (a = [] ∨ a.getLast? = some 10) ∧
      (b = [] ∨ b.head? = some 10) := by
  induction file generalizing acc with
  | nil =>
    rw [splitLines] at h
    split at h
    · simp at h
    · simp only [List.mem_singleton] at h
      subst h
      exact ⟨ha, [], [], by simp, .inl rfl, .inl rfl⟩
  | cons c r ih =>
    rw [splitLines] at h
    split at h
    · rename_i hc
      subst hc
      simp only [List.mem_cons] at h
      rcases h with h | h
      · subst h
        exact ⟨ha, [], 10 :: r, by simp, .inl rfl, .inr rfl⟩
      · obtain ⟨h1, a, b, h2, h3, h4⟩ := ih [] h (by simp)
        refine ⟨h1, acc ++ [10] ++ a, b, ?_, .inr ?_, h4⟩
        · simp only [List.nil_append] at h2
          simp [h2]
        · rcases h3 with h3 | h3
          · subst h3; simp
          · rw [List.getLast?_append, h3]; rfl
    · rename_i hc
      obtain ⟨h1, a, b, h2, h3⟩ := ih _ h (by
        simp only [List.mem_append, List.mem_singleton, not_or]
        exact ⟨ha, fun e => hc e.symm⟩)
      exact ⟨h1, a, b, by rw [← h2]; simp, h3⟩

end Verif.Config
