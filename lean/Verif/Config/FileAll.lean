import Verif.Config.FileRead
/-!
# Lemmas about reading all options
-/
namespace Verif.Config

open Verif.Evm (Outcome)
open Verif.Hex (Text HashRes hashFromHex toHex)
open Verif.Http (lit stoull)
open Verif.Serial (Bytes)

section
variable {src : Source} {l : List (Setting × Said)} {o : FullOptions}

theorem readSentinel_told (ha : Answers src l) (hs : States o l) (hf : o.Fits) (i : Nat)
    (x : Sentinel) (hx : o.sentinels[i]? = some x) :
    readSentinel src o.threshold i = .ok x := by
  have tell : ∀ f v, x.says f = some v → Told src (.item .sentinel i f) v := fun f v h =>
    told src l o ha hs _ _ (by simp [FullOptions.says, FullOptions.item, hx, h])
  obtain ⟨f1, f2, f3, f4⟩ := hf.sentinel x (List.mem_of_getElem? hx)
  have h1 := getEndpoint_told (tell .endpoint _ rfl) rfl f1
  have h2 := getLevel_told (tell .loglevel _ rfl)
  obtain ⟨k1, k2⟩ := hs.keys i x hx
  have quiet : ∀ f, (∀ v, (Setting.item .sentinel i f, v) ∉ l) →
      getStr src (Setting.item .sentinel i f).key = .ok none := by
    intro f h
    unfold getStr
    rw [ha]
    cases hl : l.lookup (Setting.item .sentinel i f) with
    | none => rfl
    | some v => exact absurd (lookup_some hl) (h v)
  obtain ⟨ep, lv, priv, pub⟩ := x
  simp only [readSentinel, readPriv, readPub, h1, h2, Outcome.bind_ok]
  cases priv with
  | none =>
    rw [quiet .privateKey (k1 rfl)]
    simp only [Outcome.bind_ok]
    cases pub with
    | none =>
      rw [quiet .publicKey (k2 rfl)]
      simp [f4 rfl]
    | some b =>
      rw [getStr_told' (tell .publicKey _ rfl) rfl]
      simp [readKey_toHex b (f3 b rfl)]
  | some a =>
    rw [getStr_told' (tell .privateKey _ rfl) rfl]
    simp only [Outcome.bind_ok, readKey_toHex a (f2 a rfl)]
    cases pub with
    | none =>
      rw [quiet .publicKey (k2 rfl)]
      simp [f4 rfl]
    | some b =>
      rw [getStr_told' (tell .publicKey _ rfl) rfl]
      simp [readKey_toHex b (f3 b rfl)]

theorem readShardNode_told (ha : Answers src l) (hs : States o l) (hf : o.Fits) (i j : Nat)
    (x : List ShardNode) (y : ShardNode) (hx : o.shardNodes[i]? = some x)
    (hy : x[j]? = some y) : readShardNode src i j = .ok y := by
  have tell : ∀ f v, y.says f = some v → Told src (.node .shard i j f) v := fun f v h =>
    told src l o ha hs _ _ (by simp [FullOptions.says, FullOptions.node, hx, hy, h])
  obtain ⟨f1, f2, f3⟩ := (hf.shardNode x (List.mem_of_getElem? hx)).2 y (List.mem_of_getElem? hy)
  unfold readShardNode
  rw [getEndpoint_told (tell .raftEndpoint _ rfl) rfl f1]
  simp only [Outcome.bind_ok]
  rw [getEndpoint_told (tell .endpoint _ rfl) rfl f2]
  simp only [Outcome.bind_ok]
  rw [getEndpoint_told (tell .readonly _ rfl) rfl f3]
  rfl

theorem shards_told (ha : Answers src l) (hs : States o l) :
    numOr src .shards 0 = .ok o.shards.length.toUInt64 :=
  numOr_told (told src l o ha hs (.scalar .shards) _ rfl) rfl

theorem readShardNodes_told (ha : Answers src l) (hs : States o l) (hf : o.Fits) :
    readShardNodes src o.twoPhase = .ok o.shardNodes := by
  unfold readShardNodes
  rw [shards_told ha hs]
  simp only [Outcome.bind_ok]
  have hn := hf.shardNodes
  cases ht : o.twoPhase with
  | false =>
    simp only [ht, Bool.false_eq_true, if_false] at hn
    simp [List.eq_nil_of_length_eq_zero hn]
  | true =>
    simp only [ht, if_true] at hn
    rw [if_pos rfl, ← hn]
    refine readCount _ _ (by rw [hn]; exact hf.shards) fun i x hx => ?_
    have t1 : Told src (.item .shard i .count) (count x) :=
      told src l o ha hs _ _ (by simp [FullOptions.says, FullOptions.item, hx])
    rw [getNum_told t1 rfl]
    simp only [Outcome.bind_ok]
    exact readCount _ _ (hf.shardNode x (List.mem_of_getElem? hx)).1 fun j y hy =>
      readShardNode_told ha hs hf i j x y hx hy

theorem readShard_told (ha : Answers src l) (hs : States o l) (hf : o.Fits) (i : Nat)
    (x : Shard) (hx : o.shards[i]? = some x) : readShard src o.twoPhase i = .ok x := by
  have tell : ∀ f v, f ≠ .count → x.says f = some v → Told src (.item .shard i f) v :=
    fun f v hc h => told src l o ha hs _ _ (by
      simp [FullOptions.says, FullOptions.item, hx, h, hc])
  obtain ⟨f1, f2⟩ := hf.shard x (List.mem_of_getElem? hx)
  have h3 := getLevel_told (tell .loglevel _ (by decide) rfl)
  have h4 := getNum_told (tell .start _ (by decide) rfl) rfl
  have h5 := getNum_told (tell .stop _ (by decide) rfl) rfl
  have hr : readRange x.range.1.toUInt64 x.range.2.toUInt64 = x.range := by
    simp [readRange]
  obtain ⟨place, lv, range⟩ := x
  unfold readShard readPlace
  cases place with
  | none =>
    have : o.twoPhase = true := by simpa using f1
    simp only [this, if_true, Outcome.bind_ok, h3, h4, h5, hr]
  | some y =>
    have : o.twoPhase = false := by simpa using f1
    simp only [this, Bool.false_eq_true, if_false]
    rw [getEndpoint_told (tell .endpoint _ (by decide) rfl) rfl (f2 y rfl)]
    simp only [Outcome.bind_ok]
    rw [getStr_told (tell .db _ (by decide) rfl) rfl]
    simp only [Outcome.bind_ok, h3, h4, h5, hr]

theorem readSeeds_told (ha : Answers src l) (hs : States o l) (hf : o.Fits) :
    readSeeds src = .ok ((o.seedFrom, o.seedTo), o.seedKey, o.seedValue) := by
  have h1 : numOr src .seedFrom 0 = .ok o.seedFrom :=
    numOr_told (told src l o ha hs (.scalar .seedFrom) _ rfl) rfl
  have h2 : numOr src .seedTo 0 = .ok o.seedTo :=
    numOr_told (told src l o ha hs (.scalar .seedTo) _ rfl) rfl
  have hk := hf.seeds
  unfold readSeeds
  simp only [h1, h2, Outcome.bind_ok]
  by_cases he : o.seedFrom = o.seedTo
  · have : o.seedKey = none := by simpa [he] using hk
    simp [he, this, hf.seedValue he]
  · have : o.seedKey.isSome := by simpa [he] using hk
    obtain ⟨k, hk⟩ := Option.isSome_iff_exists.mp this
    have hlen := hf.seedKey k hk
    have t1 : Told src (.scalar .seedKey) (.text (toHex k)) :=
      told src l o ha hs _ _ (by simp [FullOptions.says, FullOptions.scalar, hk])
    have t2 : Told src (.scalar .seedValue) (.num o.seedValue) :=
      told src l o ha hs _ _ (by simp [FullOptions.says, FullOptions.scalar, he])
    have h3 : need (getStr src Scalar.seedKey.name) = .ok (toHex k) := getStr_told t1 rfl
    have h4 : numOr src .seedValue 0 = .ok o.seedValue := numOr_told t2 rfl
    have h5 : (toHex k).length = 64 := by
      have : ∀ b : Bytes, (toHex b).length = 2 * b.length := by
        intro b
        induction b with
        | nil => rfl
        | cons a b ih => simp [toHex, Verif.Hex.hexByte] at ih ⊢; omega
      rw [this]; omega
    simp [he, h3, h4, h5, hk, readKey_toHex k hlen]

theorem readAtomizer_told (ha : Answers src l) (hs : States o l) (hf : o.Fits) (i : Nat)
    (x : Atomizer) (hx : o.atomizers[i]? = some x) : readAtomizer src i = .ok x := by
  have tell : ∀ f v, x.says f = some v → Told src (.item .atomizer i f) v := fun f v h =>
    told src l o ha hs _ _ (by simp [FullOptions.says, FullOptions.item, hx, h])
  obtain ⟨f1, f2⟩ := hf.atomizer x (List.mem_of_getElem? hx)
  simp only [readAtomizer, getEndpoint_told (tell .endpoint _ rfl) rfl f1,
    getLevel_told (tell .loglevel _ rfl), getEndpoint_told (tell .raftEndpoint _ rfl) rfl f2,
    Outcome.bind_ok]

theorem readArchiver_told (ha : Answers src l) (hs : States o l) (hf : o.Fits) (i : Nat)
    (x : Archiver) (hx : o.archivers[i]? = some x) : readArchiver src i = .ok x := by
  have tell : ∀ f v, x.says f = some v → Told src (.item .archiver i f) v := fun f v h =>
    told src l o ha hs _ _ (by simp [FullOptions.says, FullOptions.item, hx, h])
  have f1 := hf.archiver x (List.mem_of_getElem? hx)
  simp only [readArchiver, getEndpoint_told (tell .endpoint _ rfl) rfl f1,
    getLevel_told (tell .loglevel _ rfl), getStr_told (tell .db _ rfl) rfl, Outcome.bind_ok]

theorem readWatchtower_told (ha : Answers src l) (hs : States o l) (hf : o.Fits) (i : Nat)
    (x : Watchtower) (hx : o.watchtowers[i]? = some x) : readWatchtower src i = .ok x := by
  have tell : ∀ f v, x.says f = some v → Told src (.item .watchtower i f) v := fun f v h =>
    told src l o ha hs _ _ (by simp [FullOptions.says, FullOptions.item, hx, h])
  obtain ⟨f1, f2⟩ := hf.watchtower x (List.mem_of_getElem? hx)
  simp only [readWatchtower, getEndpoint_told (tell .clientEndpoint _ rfl) rfl f1,
    getEndpoint_told (tell .internalEndpoint _ rfl) rfl f2,
    getLevel_told (tell .loglevel _ rfl), Outcome.bind_ok]

theorem readCoordinator_told (ha : Answers src l) (hs : States o l) (hf : o.Fits) (i : Nat)
    (x : Coordinator) (hx : o.coordinators[i]? = some x) : readCoordinator src i = .ok x := by
  have tell : ∀ f v, x.says f = some v → Told src (.item .coordinator i f) v := fun f v h =>
    told src l o ha hs _ _ (by simp [FullOptions.says, FullOptions.item, hx, h])
  obtain ⟨f1, f2⟩ := hf.coordinator x (List.mem_of_getElem? hx)
  simp only [readCoordinator, getLevel_told (tell .loglevel _ rfl),
    getNum_told (tell .count _ rfl) rfl, Outcome.bind_ok]
  rw [readCount _ _ f1 fun j y hy => ?_]
  · rfl
  · have t : ∀ f v, nodeSays y f = some v → Told src (.node .coordinator i j f) v := fun f v h =>
      told src l o ha hs _ _ (by simp [FullOptions.says, FullOptions.node, hx, hy, h])
    obtain ⟨g1, g2⟩ := f2 y (List.mem_of_getElem? hy)
    simp only [getEndpoint_told (t .raftEndpoint _ rfl) rfl g1,
      getEndpoint_told (t .endpoint _ rfl) rfl g2, Outcome.bind_ok]

theorem readAll_told (ha : Answers src l) (hs : States o l) (hf : o.Fits) :
    readAll src = .ok o := by
  have num : ∀ (s : Scalar) (n d : UInt64), o.scalar s = some (.num n) →
      (Setting.scalar s).default = some (.num d) → numOr src s d = .ok n := fun s n d h hd =>
    numOr_told (told src l o ha hs (.scalar s) _ h) hd
  have dbl : ∀ (s : Scalar) (n d : UInt64), o.scalar s = some (.rate n) →
      (Setting.scalar s).default = some (.rate d) → dblOr src s d = .ok n := fun s n d h hd =>
    dblOr_told (told src l o ha hs (.scalar s) _ h) hd
  have tp : decide ((if o.twoPhase then (1 : UInt64) else 0) ≠ 0) = o.twoPhase := by
    cases o.twoPhase <;> decide
  obtain ⟨r1, r2, r3, r4, r5⟩ := hf.raft
  unfold readAll
  rw [num .twoPhase _ _ rfl rfl]; simp only [Outcome.bind_ok, tp]
  rw [num .threshold _ _ rfl rfl]; simp only [Outcome.bind_ok]
  rw [num .sentinels _ _ rfl rfl]; simp only [Outcome.bind_ok]
  rw [readCount _ _ hf.sentinels (readSentinel_told ha hs hf)]; simp only [Outcome.bind_ok]
  rw [readShardNodes_told ha hs hf]; simp only [Outcome.bind_ok]
  rw [shards_told ha hs]; simp only [Outcome.bind_ok]
  rw [readCount _ _ hf.shards (readShard_told ha hs hf)]; simp only [Outcome.bind_ok]
  rw [num .completedTxs _ _ rfl rfl]; simp only [Outcome.bind_ok]
  rw [readSeeds_told ha hs hf]; simp only [Outcome.bind_ok]
  rw [num .atomizers _ _ rfl rfl]; simp only [Outcome.bind_ok]
  rw [readCount _ _ hf.atomizers (readAtomizer_told ha hs hf)]; simp only [Outcome.bind_ok]
  rw [num .blockInterval _ _ rfl rfl]; simp only [Outcome.bind_ok]
  rw [num .stxoDepth _ _ rfl rfl]; simp only [Outcome.bind_ok]
  rw [num .archivers _ _ rfl rfl]; simp only [Outcome.bind_ok]
  rw [readCount _ _ hf.archivers (readArchiver_told ha hs hf)]; simp only [Outcome.bind_ok]
  rw [num .watchtowers _ _ rfl rfl]; simp only [Outcome.bind_ok]
  rw [readCount _ _ hf.watchtowers (readWatchtower_told ha hs hf)]; simp only [Outcome.bind_ok]
  rw [num .blockCache _ _ rfl rfl]; simp only [Outcome.bind_ok]
  rw [num .errorCache _ _ rfl rfl]; simp only [Outcome.bind_ok]
  rw [num .coordinators _ _ rfl rfl]; simp only [Outcome.bind_ok]
  rw [readCount _ _ hf.coordinators (readCoordinator_told ha hs hf)]; simp only [Outcome.bind_ok]
  rw [num .threads _ _ rfl rfl]; simp only [Outcome.bind_ok]
  rw [num .electionUpper _ _ rfl rfl]; simp only [Outcome.bind_ok]
  rw [num .electionLower _ _ rfl rfl]; simp only [Outcome.bind_ok]
  rw [num .heartbeat _ _ rfl rfl]; simp only [Outcome.bind_ok]
  rw [num .snapshotDistance _ _ rfl rfl]; simp only [Outcome.bind_ok]
  rw [num .raftBatch _ _ rfl rfl]; simp only [Outcome.bind_ok]
  rw [num .batchSize _ _ rfl rfl]; simp only [Outcome.bind_ok]
  rw [num .inputCount _ _ rfl rfl]; simp only [Outcome.bind_ok]
  rw [num .outputCount _ _ rfl rfl]; simp only [Outcome.bind_ok]
  rw [dbl .invalidRate _ _ rfl rfl]; simp only [Outcome.bind_ok]
  rw [dbl .fixedRate _ _ rfl rfl]; simp only [Outcome.bind_ok]
  rw [num .windowSize _ _ rfl rfl]; simp only [Outcome.bind_ok]
  rw [num .mintCount _ _ rfl rfl]; simp only [Outcome.bind_ok]
  rw [num .mintValue _ _ rfl rfl]; simp only [Outcome.bind_ok]
  rw [num .loadgens _ _ rfl rfl]; simp only [Outcome.bind_ok]
  simp only [toInt32_signed _ r1, toInt32_signed _ r2, toInt32_signed _ r3,
    toInt32_signed _ r4, toInt32_signed _ r5]

end

/-! ### What was read was there -/

theorem bind_inv {α β : Type} {x : Outcome α} {f : α → Outcome β} {b : β}
    (h : x >>= f = .ok b) : ∃ a, x = .ok a ∧ f a = .ok b := by
  cases x with
  | ok a => exact ⟨a, rfl, h⟩
  | refused => exact nomatch h
  | throws => exact nomatch h
  | undefined => exact nomatch h

theorem readFrom_inv {α : Type} (f : Nat → Outcome α) (n k : Nat) (l : List α)
    (h : readFrom f n k = .ok l) :
    l.length = n ∧ ∀ (i : Nat) (a : α), l[i]? = some a → f (k + i) = .ok a := by
  induction n generalizing k l with
  | zero =>
    simp only [readFrom, Outcome.ok.injEq] at h
    subst h
    simp
  | succ n ih =>
    rw [readFrom] at h
    obtain ⟨a, h1, h⟩ := bind_inv h
    obtain ⟨r, h2, h⟩ := bind_inv h
    simp only [Outcome.ok.injEq] at h
    subst h
    obtain ⟨h3, h4⟩ := ih _ _ h2
    refine ⟨by simp [h3], fun i b hb => ?_⟩
    cases i with
    | zero =>
      simp only [List.getElem?_cons_zero, Option.some.injEq] at hb
      subst hb
      exact h1
    | succ i =>
      have := h4 i b (by simpa using hb)
      rw [show k + (i + 1) = k + 1 + i by omega]
      exact this

theorem need_inv {α : Type} {x : Outcome (Option α)} {a : α} (h : need x = .ok a) :
    x = .ok (some a) := by
  unfold need at h
  obtain ⟨y, h1, h⟩ := bind_inv h
  cases y with
  | none => exact nomatch h
  | some b =>
    simp only [Outcome.ok.injEq] at h
    rw [h1, h]

/-- The source has a value for the key. -/
def Has (src : Source) (k : Text) : Prop := ∃ v, src k = .ok (some v)

theorem getNum_inv {src : Source} {k : Text} {n : UInt64} (h : need (getNum src k) = .ok n) :
    src k = .ok (some (.num n)) := by
  have h := need_inv h
  unfold getNum at h
  obtain ⟨v, h1, h⟩ := bind_inv h
  rcases v with _ | v | v | v
  · simp at h
  · simp at h
  · simp only [Outcome.ok.injEq, Option.some.injEq] at h; rw [h1, h]
  · simp at h

theorem getStr_inv {src : Source} {k : Text} {t : Text} (h : getStr src k = .ok (some t)) :
    src k = .ok (some (.str t)) := by
  unfold getStr at h
  obtain ⟨v, h1, h⟩ := bind_inv h
  rcases v with _ | v | v | v
  · simp at h
  · simp only [Outcome.ok.injEq, Option.some.injEq] at h; rw [h1, h]
  · simp at h
  · simp at h

theorem getEndpoint_inv {src : Source} {k : Text} {e : Endpoint}
    (h : need (getEndpoint src k) = .ok e) :
    ∃ t, src k = .ok (some (.str t)) ∧ parseIpPort t = .ok e := by
  have h := need_inv h
  unfold getEndpoint at h
  obtain ⟨v, h1, h⟩ := bind_inv h
  cases v with
  | none => exact nomatch h
  | some t =>
    obtain ⟨e', h2, h⟩ := bind_inv h
    simp only [Outcome.ok.injEq, Option.some.injEq] at h
    subst h
    exact ⟨t, getStr_inv h1, h2⟩

end Verif.Config
