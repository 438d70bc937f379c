import Verif.Config.FileGiven
/-!
# Lemmas about files in which settings are missing
-/
namespace Verif.Config

open Verif.Evm (Outcome)
open Verif.Hex (Text HashRes hashFromHex toHex)
open Verif.Http (lit stoull)
open Verif.Serial (Bytes)

/-- A result or an error message. -/
def Either {α : Type} (x : Outcome α) (a : α) : Prop := x = .ok a ∨ x = .refused

theorem Either.bind {α β : Type} {x : Outcome α} {a : α} {f : α → Outcome β} {b : β}
    (h1 : Either x a) (h2 : Either (f a) b) : Either (x >>= f) b := by
  rcases h1 with h1 | h1
  · rw [h1]; exact h2
  · rw [h1]; exact .inr rfl

theorem Either.ok {α : Type} (a : α) : Either (.ok a) a := .inl rfl

section
variable {src : Source} {l : List (Setting × Said)} {o : FullOptions}

/-- A setting that is not required is told. -/
theorem mostly_told (ha : Answers src l) (hs : Mostly o l) (s : Setting) (v : Said)
    (h : o.says s = some v) (hr : ¬ Required o s) : Told src s v := by
  unfold Told
  rw [ha s]
  cases hl : l.lookup s with
  | some v' =>
    rw [hs.right s v' v (lookup_some hl) h]
    exact .inl rfl
  | none =>
    rcases hs.whole s v h hr with h | h
    · exact absurd h (lookup_none hl v)
    · exact .inr ⟨rfl, h⟩

/-- A setting that is required is told or missing. -/
theorem mostly (ha : Answers src l) (hs : Mostly o l) (s : Setting) (v : Said)
    (h : o.says s = some v) : src s.key = .ok (some v.val) ∨ src s.key = .ok none := by
  rw [ha s]
  cases hl : l.lookup s with
  | some v' =>
    rw [hs.right s v' v (lookup_some hl) h]
    exact .inl rfl
  | none => exact .inr rfl

theorem num_either {s : Setting} {n : UInt64}
    (h : src s.key = .ok (some (Said.num n).val) ∨ src s.key = .ok none) :
    Either (need (getNum src s.key)) n := by
  unfold getNum
  rcases h with h | h <;> rw [h]
  · exact .inl rfl
  · exact .inr rfl

theorem str_either {s : Setting} {t : Text}
    (h : src s.key = .ok (some (Said.text t).val) ∨ src s.key = .ok none) :
    Either (need (getStr src s.key)) t := by
  unfold getStr
  rcases h with h | h <;> rw [h]
  · exact .inl rfl
  · exact .inr rfl

theorem endpoint_either {s : Setting} {e : Endpoint}
    (h : src s.key = .ok (some (Said.text e.shown).val) ∨ src s.key = .ok none) (hf : e.Fits) :
    Either (need (getEndpoint src s.key)) e := by
  unfold getEndpoint getStr
  rcases h with h | h <;> rw [h]
  · left
    simp only [Outcome.bind_ok, Said.val, parseIpPort_shown e hf]
    rfl
  · exact .inr rfl

theorem readFrom_either {α : Type} (f : Nat → Outcome α) (l : List α) (k : Nat)
    (h : ∀ (i : Nat) (a : α), l[i]? = some a → Either (f (k + i)) a) :
    Either (readFrom f l.length k) l := by
  induction l generalizing k with
  | nil => exact .inl rfl
  | cons a l ih =>
    have h0 : Either (f k) a := h 0 a rfl
    have ih := ih (k + 1) fun i b hb => by
      have := h (i + 1) b (by simpa using hb)
      rw [show k + 1 + i = k + (i + 1) by omega]
      exact this
    exact h0.bind (ih.bind (.ok _))

theorem count_either {α : Type} (f : Nat → Outcome α) (l : List α) (hl : l.length < 2 ^ 64)
    (h : ∀ (i : Nat) (a : α), l[i]? = some a → Either (f i) a) :
    Either (readFrom f l.length.toUInt64.toNat 0) l := by
  have : l.length.toUInt64.toNat = l.length := by
    simp [Nat.toUInt64]; omega
  rw [this]
  exact readFrom_either f l 0 fun i a ha => by simpa using h i a ha

theorem level_mostly (ha : Answers src l) (hs : Mostly o l) {c : Kind} {i : Nat} {lv : Level}
    (h : o.says (.item c i .loglevel) = some (.text lv.shown)) :
    Either (getLevel src (Setting.item c i .loglevel).key) lv :=
  .inl (getLevel_told (mostly_told ha hs _ _ h (by
    cases c <;> simp [Required, Setting.default])))

theorem sentinel_either (ha : Answers src l) (hs : Mostly o l) (hf : o.Fits) (i : Nat)
    (x : Sentinel) (hx : o.sentinels[i]? = some x) :
    Either (readSentinel src o.threshold i) x := by
  have hsy : ∀ f, o.says (.item .sentinel i f) = x.says f := fun f => by
    simp [FullOptions.says, FullOptions.item, hx]
  obtain ⟨f1, f2, f3, f4⟩ := hf.sentinel x (List.mem_of_getElem? hx)
  have h1 := endpoint_either (mostly ha hs (.item .sentinel i .endpoint) _ (hsy _)) f1
  have h2 := level_mostly ha hs (hsy .loglevel)
  obtain ⟨k1, k2⟩ := hs.keys i x hx
  have quiet : ∀ f, (∀ v, (Setting.item .sentinel i f, v) ∉ l) →
      getStr src (Setting.item .sentinel i f).key = .ok none := by
    intro f h
    unfold getStr
    rw [ha]
    cases hl : l.lookup (Setting.item .sentinel i f) with
    | none => rfl
    | some v => exact absurd (lookup_some hl) (h v)
  have h3 : Either (readPriv src i) x.priv := by
    unfold readPriv
    cases hp : x.priv with
    | none => rw [quiet _ (k1 hp)]; exact .inl rfl
    | some k =>
      have t := mostly_told ha hs (.item .sentinel i .privateKey) (.text (toHex k))
        (by rw [hsy]; simp [Sentinel.says, hp]) (fun h => h)
      rw [getStr_told' t rfl]
      simp only [Outcome.bind_ok, readKey_toHex k (f2 k hp)]
      exact .inl rfl
  have h4 : Either (readPub src o.threshold i) x.pub := by
    unfold readPub
    cases hp : x.pub with
    | none => rw [quiet _ (k2 hp)]; simp only [Outcome.bind_ok, f4 hp]; exact .inl rfl
    | some k =>
      have hsay : o.says (.item .sentinel i .publicKey) = some (.text (toHex k)) := by
        rw [hsy]; simp [Sentinel.says, hp]
      by_cases ht : o.threshold = 0
      · have t := mostly_told ha hs _ _ hsay (fun h => h ht)
        rw [getStr_told' t rfl]
        simp only [Outcome.bind_ok, readKey_toHex k (f3 k hp)]
        exact .inl rfl
      · unfold getStr
        rcases mostly ha hs _ _ hsay with h | h <;> rw [h]
        · simp only [Outcome.bind_ok, Said.val, readKey_toHex k (f3 k hp)]
          exact .inl rfl
        · simp only [Outcome.bind_ok, if_neg ht]
          exact .inr rfl
  exact h1.bind (h2.bind (h3.bind (h4.bind (.ok _))))

theorem num_mostly (ha : Answers src l) (hs : Mostly o l) (s : Scalar) (n d : UInt64)
    (h : o.scalar s = some (.num n)) (hd : (Setting.scalar s).default = some (.num d)) :
    Either (numOr src s d) n :=
  .inl (numOr_told (mostly_told ha hs (.scalar s) _ h (by simp [Required, hd])) hd)

theorem shardNodes_either (ha : Answers src l) (hs : Mostly o l) (hf : o.Fits) :
    Either (readShardNodes src o.twoPhase) o.shardNodes := by
  refine (num_mostly ha hs .shards _ 0 rfl rfl).bind ?_
  have hn := hf.shardNodes
  cases ht : o.twoPhase with
  | false =>
    simp only [ht, Bool.false_eq_true, if_false] at hn
    left
    simp [List.eq_nil_of_length_eq_zero hn]
  | true =>
    simp only [ht, if_true] at hn
    rw [if_pos rfl, ← hn]
    refine count_either _ _ (by rw [hn]; exact hf.shards) fun i x hx => ?_
    obtain ⟨g1, g2⟩ := hf.shardNode x (List.mem_of_getElem? hx)
    have t1 : o.says (.item .shard i .count) = some (.num x.length.toUInt64) := by
      simp [FullOptions.says, FullOptions.item, hx, count]
    refine (num_either (mostly ha hs _ _ t1)).bind ?_
    refine count_either _ _ g1 fun j y hy => ?_
    obtain ⟨e1, e2, e3⟩ := g2 y (List.mem_of_getElem? hy)
    have hsy : ∀ f, o.says (.node .shard i j f) = y.says f := fun f => by
      simp [FullOptions.says, FullOptions.node, hx, hy]
    exact (endpoint_either (mostly ha hs _ _ (hsy .raftEndpoint)) e1).bind
      ((endpoint_either (mostly ha hs _ _ (hsy .endpoint)) e2).bind
        ((endpoint_either (mostly ha hs _ _ (hsy .readonly)) e3).bind (.ok _)))

theorem shard_either (ha : Answers src l) (hs : Mostly o l) (hf : o.Fits) (i : Nat)
    (x : Shard) (hx : o.shards[i]? = some x) : Either (readShard src o.twoPhase i) x := by
  have hsy : ∀ f, f ≠ .count → o.says (.item .shard i f) = x.says f := fun f hc => by
    simp [FullOptions.says, FullOptions.item, hx, hc]
  obtain ⟨f1, f2⟩ := hf.shard x (List.mem_of_getElem? hx)
  have h1 : Either (readPlace src o.twoPhase i) x.place := by
    unfold readPlace
    cases hp : x.place with
    | none =>
      have : o.twoPhase = true := by simpa [hp] using f1
      rw [if_pos this]
      exact .inl rfl
    | some y =>
      have : o.twoPhase = false := by simpa [hp] using f1
      rw [if_neg (by simp [this])]
      have s1 : o.says (.item .shard i .endpoint) = some (.text (Endpoint.shown y.1)) := by
        rw [hsy _ (by decide)]; simp [Shard.says, hp]
      have s2 : o.says (.item .shard i .db) = some (.text y.2) := by
        rw [hsy _ (by decide)]; simp [Shard.says, hp]
      exact (endpoint_either (mostly ha hs _ _ s1) (f2 y hp)).bind
        ((str_either (mostly ha hs _ _ s2)).bind (.ok _))
  have h2 := level_mostly ha hs (hsy .loglevel (by decide))
  have h3 := num_either (mostly ha hs _ _ (hsy .start (by decide)))
  have h4 := num_either (mostly ha hs _ _ (hsy .stop (by decide)))
  have hr : readRange x.range.1.toUInt64 x.range.2.toUInt64 = x.range := by simp [readRange]
  refine h1.bind (h2.bind (h3.bind (h4.bind (.inl ?_))))
  rw [hr]

theorem seeds_either (ha : Answers src l) (hs : Mostly o l) (hf : o.Fits) :
    Either (readSeeds src) ((o.seedFrom, o.seedTo), o.seedKey, o.seedValue) := by
  refine (num_mostly ha hs .seedFrom _ 0 rfl rfl).bind
    ((num_mostly ha hs .seedTo _ 0 rfl rfl).bind ?_)
  have hk := hf.seeds
  by_cases he : o.seedFrom = o.seedTo
  · have : o.seedKey = none := by simpa [he] using hk
    left
    simp [he, this, hf.seedValue he]
  · have : o.seedKey.isSome := by simpa [he] using hk
    obtain ⟨k, hk⟩ := Option.isSome_iff_exists.mp this
    have hlen := hf.seedKey k hk
    have s1 : o.says (.scalar .seedKey) = some (.text (toHex k)) := by
      simp [FullOptions.says, FullOptions.scalar, hk]
    have s2 : o.scalar .seedValue = some (.num o.seedValue) := by
      simp [FullOptions.scalar, he]
    rw [if_neg he]
    refine (str_either (mostly ha hs _ _ s1)).bind ?_
    have h5 : (toHex k).length = 64 := by
      have : ∀ b : Bytes, (toHex b).length = 2 * b.length := by
        intro b
        induction b with
        | nil => rfl
        | cons a b ih => simp [toHex, Verif.Hex.hexByte] at ih ⊢; omega
      rw [this]; omega
    rw [if_neg (by simp [h5]), readKey_toHex k hlen, hk]
    exact (num_mostly ha hs .seedValue _ 0 s2 rfl).bind (.ok _)

theorem atomizer_either (ha : Answers src l) (hs : Mostly o l) (hf : o.Fits) (i : Nat)
    (x : Atomizer) (hx : o.atomizers[i]? = some x) : Either (readAtomizer src i) x := by
  have hsy : ∀ f, o.says (.item .atomizer i f) = x.says f := fun f => by
    simp [FullOptions.says, FullOptions.item, hx]
  obtain ⟨f1, f2⟩ := hf.atomizer x (List.mem_of_getElem? hx)
  exact (endpoint_either (mostly ha hs _ _ (hsy .endpoint)) f1).bind
    ((level_mostly ha hs (hsy .loglevel)).bind
      ((endpoint_either (mostly ha hs _ _ (hsy .raftEndpoint)) f2).bind (.ok _)))

theorem archiver_either (ha : Answers src l) (hs : Mostly o l) (hf : o.Fits) (i : Nat)
    (x : Archiver) (hx : o.archivers[i]? = some x) : Either (readArchiver src i) x := by
  have hsy : ∀ f, o.says (.item .archiver i f) = x.says f := fun f => by
    simp [FullOptions.says, FullOptions.item, hx]
  have f1 := hf.archiver x (List.mem_of_getElem? hx)
  exact (endpoint_either (mostly ha hs _ _ (hsy .endpoint)) f1).bind
    ((level_mostly ha hs (hsy .loglevel)).bind
      ((str_either (mostly ha hs _ _ (hsy .db))).bind (.ok _)))

theorem watchtower_either (ha : Answers src l) (hs : Mostly o l) (hf : o.Fits) (i : Nat)
    (x : Watchtower) (hx : o.watchtowers[i]? = some x) : Either (readWatchtower src i) x := by
  have hsy : ∀ f, o.says (.item .watchtower i f) = x.says f := fun f => by
    simp [FullOptions.says, FullOptions.item, hx]
  obtain ⟨f1, f2⟩ := hf.watchtower x (List.mem_of_getElem? hx)
  exact (endpoint_either (mostly ha hs _ _ (hsy .clientEndpoint)) f1).bind
    ((endpoint_either (mostly ha hs _ _ (hsy .internalEndpoint)) f2).bind
      ((level_mostly ha hs (hsy .loglevel)).bind (.ok _)))

theorem coordinator_either (ha : Answers src l) (hs : Mostly o l) (hf : o.Fits) (i : Nat)
    (x : Coordinator) (hx : o.coordinators[i]? = some x) : Either (readCoordinator src i) x := by
  have hsy : ∀ f, o.says (.item .coordinator i f) = x.says f := fun f => by
    simp [FullOptions.says, FullOptions.item, hx]
  obtain ⟨f1, f2⟩ := hf.coordinator x (List.mem_of_getElem? hx)
  refine (level_mostly ha hs (hsy .loglevel)).bind
    ((num_either (mostly ha hs _ _ (hsy .count))).bind
      ((count_either _ _ f1 fun j y hy => ?_).bind (.ok _)))
  have hsy : ∀ f, o.says (.node .coordinator i j f) = nodeSays y f := fun f => by
    simp [FullOptions.says, FullOptions.node, hx, hy]
  obtain ⟨g1, g2⟩ := f2 y (List.mem_of_getElem? hy)
  exact (endpoint_either (mostly ha hs _ _ (hsy .raftEndpoint)) g1).bind
    ((endpoint_either (mostly ha hs _ _ (hsy .endpoint)) g2).bind (.ok _))

theorem readAll_either (ha : Answers src l) (hs : Mostly o l) (hf : o.Fits) :
    Either (readAll src) o := by
  have num := num_mostly ha hs
  have dbl : ∀ (s : Scalar) (n d : UInt64), o.scalar s = some (.rate n) →
      (Setting.scalar s).default = some (.rate d) → Either (dblOr src s d) n := fun s n d h hd =>
    .inl (dblOr_told (mostly_told ha hs (.scalar s) _ h (by simp [Required, hd])) hd)
  have tp : decide ((if o.twoPhase then (1 : UInt64) else 0) ≠ 0) = o.twoPhase := by
    cases o.twoPhase <;> decide
  obtain ⟨r1, r2, r3, r4, r5⟩ := hf.raft
  unfold readAll
  refine (num .twoPhase _ _ rfl rfl).bind ?_
  rw [tp]
  refine (num .threshold _ _ rfl rfl).bind ?_
  refine (num .sentinels _ _ rfl rfl).bind ?_
  refine (count_either _ _ hf.sentinels (sentinel_either ha hs hf)).bind ?_
  refine (shardNodes_either ha hs hf).bind ?_
  refine (num .shards _ _ rfl rfl).bind ?_
  refine (count_either _ _ hf.shards (shard_either ha hs hf)).bind ?_
  refine (num .completedTxs _ _ rfl rfl).bind ?_
  refine (seeds_either ha hs hf).bind ?_
  refine (num .atomizers _ _ rfl rfl).bind ?_
  refine (count_either _ _ hf.atomizers (atomizer_either ha hs hf)).bind ?_
  refine (num .blockInterval _ _ rfl rfl).bind ?_
  refine (num .stxoDepth _ _ rfl rfl).bind ?_
  refine (num .archivers _ _ rfl rfl).bind ?_
  refine (count_either _ _ hf.archivers (archiver_either ha hs hf)).bind ?_
  refine (num .watchtowers _ _ rfl rfl).bind ?_
  refine (count_either _ _ hf.watchtowers (watchtower_either ha hs hf)).bind ?_
  refine (num .blockCache _ _ rfl rfl).bind ?_
  refine (num .errorCache _ _ rfl rfl).bind ?_
  refine (num .coordinators _ _ rfl rfl).bind ?_
  refine (count_either _ _ hf.coordinators (coordinator_either ha hs hf)).bind ?_
  refine (num .threads _ _ rfl rfl).bind ?_
  refine (num .electionUpper _ _ rfl rfl).bind ?_
  refine (num .electionLower _ _ rfl rfl).bind ?_
  refine (num .heartbeat _ _ rfl rfl).bind ?_
  refine (num .snapshotDistance _ _ rfl rfl).bind ?_
  refine (num .raftBatch _ _ rfl rfl).bind ?_
  refine (num .batchSize _ _ rfl rfl).bind ?_
  refine (num .inputCount _ _ rfl rfl).bind ?_
  refine (num .outputCount _ _ rfl rfl).bind ?_
  refine (dbl .invalidRate _ _ rfl rfl).bind ?_
  refine (dbl .fixedRate _ _ rfl rfl).bind ?_
  refine (num .windowSize _ _ rfl rfl).bind ?_
  refine (num .mintCount _ _ rfl rfl).bind ?_
  refine (num .mintValue _ _ rfl rfl).bind ?_
  refine (num .loadgens _ _ rfl rfl).bind ?_
  left
  simp only [toInt32_signed _ r1, toInt32_signed _ r2, toInt32_signed _ r3,
    toInt32_signed _ r4, toInt32_signed _ r5]

end

end Verif.Config
