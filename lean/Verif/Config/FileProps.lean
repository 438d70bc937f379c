import Verif.Config.FileMissing
import Verif.Config.Props
import Verif.Util.CacheSet
/-!
# C108: what a configuration file says is what the system does
-/
namespace Verif.Config

open Verif.Evm (Outcome)
open Verif.Hex (Text HashRes hashFromHex toHex)
open Verif.Http (lit stoull)
open Verif.Serial (Bytes)

deriving instance DecidableEq for Outcome

/-! ### No two settings are confused -/

/-- A character that is the same after it was put into upper case and back. -/
def lowChar (c : UInt8) : Bool := decide (c < 65) || decide (90 < c)

/-- Back to lower case. -/
def lower (t : Text) : Text := t.map fun c => if 65 ≤ c ∧ c ≤ 90 then c + 32 else c

theorem lower_upper_char : ∀ c : UInt8, lowChar c = true →
    (fun c : UInt8 => if 65 ≤ c ∧ c ≤ 90 then c + 32 else c)
      ((fun c : UInt8 => if 97 ≤ c ∧ c ≤ 122 then c - 32 else c) c) = c := by
  have h : ∀ n : Fin 256, lowChar (UInt8.ofNat n) = true →
      (fun c : UInt8 => if 65 ≤ c ∧ c ≤ 90 then c + 32 else c)
        ((fun c : UInt8 => if 97 ≤ c ∧ c ≤ 122 then c - 32 else c) (UInt8.ofNat n)) =
          UInt8.ofNat n := by decide +kernel
  intro c hc
  have := h ⟨c.toNat, c.toNat_lt⟩
  simp only [UInt8.ofNat_toNat] at this
  exact this hc

theorem lower_upper (t : Text) (h : t.all lowChar = true) : lower (upper t) = t := by
  induction t with
  | nil => rfl
  | cons c t ih =>
    simp only [List.all_cons, Bool.and_eq_true] at h
    have h1 := lower_upper_char c h.1
    have h2 := ih h.2
    unfold lower upper at h2 ⊢
    simp only [List.map_cons]
    rw [h2]
    exact congrArg (· :: t) h1

theorem key_low (s : Setting) : s.key.all lowChar = true := by
  have hd : ∀ n, (dec n).all lowChar = true := by
    intro n
    rw [List.all_eq_true]
    intro c hc
    have : c < 65 := by
      have := (dec_digits n c hc).2
      rw [UInt8.lt_iff_toNat_lt]
      have : (65 : UInt8).toNat = 65 := rfl
      omega
    simp [lowChar, this]
  have hk : ∀ c : Kind, c.name.all lowChar = true := by intro c; cases c <;> decide +kernel
  have hf : ∀ f : Field, f.name.all lowChar = true := by intro c; cases c <;> decide +kernel
  have h95 : lowChar 95 = true := by decide
  cases s with
  | scalar s => cases s <;> decide +kernel
  | item c i f => rw [item_key]; simp only [List.all_append, List.all_cons, hk, hd, hf, h95]; rfl
  | node c i j f => rw [node_key]; simp only [List.all_append, List.all_cons, hk, hd, hf, h95]; rfl

/-- **C108.** No two settings have the same name, neither in a file nor in the
environment. -/
theorem C108_names (s t : Setting) (h : s.key = t.key ∨ upper s.key = upper t.key) : s = t := by
  rcases h with h | h
  · exact key_inj h
  · refine key_inj ?_
    rw [← lower_upper _ (key_low s), h, lower_upper _ (key_low t)]

/-! ### What is said is what is read -/

/-- The environment says `e` and nothing else about settings. -/
def EnvSays (p : Platform) (w : UInt64 → Text) (e : List (Setting × Said)) : Prop :=
  ∀ s : Setting, p.getenv (upper s.key) = (e.lookup s).map (·.written w)

/-- What is said in `e` replaces what is said in `l`. -/
def override (e l : List (Setting × Said)) : List (Setting × Said) :=
  e ++ l.filter fun x => decide (∀ y ∈ e, y.1 ≠ x.1)

theorem override_lookup (e l : List (Setting × Said)) (s : Setting) :
    (override e l).lookup s = (e.lookup s).or (l.lookup s) := by
  have h1 : ∀ a b : List (Setting × Said), (a ++ b).lookup s = (a.lookup s).or (b.lookup s) := by
    intro a b
    induction a with
    | nil => simp
    | cons x a ih =>
      obtain ⟨k, v⟩ := x
      simp only [List.cons_append, List.lookup]
      split
      · simp
      · exact ih
  unfold override
  rw [h1]
  cases he : e.lookup s with
  | some v => simp
  | none =>
    simp only [Option.none_or]
    have hn := lookup_none he
    induction l with
    | nil => rfl
    | cons x l ih =>
      obtain ⟨k, v⟩ := x
      by_cases hk : s = k
      · subst hk
        have : ∀ y ∈ e, y.1 ≠ s := fun y hy h => hn y.2 (h ▸ hy)
        rw [List.filter_cons_of_pos (by simpa using this)]
        simp [List.lookup]
      · have hk' : (s == k) = false := by simpa using hk
        rw [List.filter_cons]
        split
        · simp only [List.lookup, hk']; exact ih
        · simp only [List.lookup, hk']; exact ih

/-- **C108.** A file whose lines, together with the environment, describe options
is read as these options: in whatever order the lines are, with remarks between
them, and with what is not said being the default. -/
theorem C108_read (p : Platform) (w : UInt64 → Text) (e : List (Setting × Said)) (l : List Line)
    (o : FullOptions) (he : EnvSays p w e) (hpe : ∀ x ∈ e, x.2.Plain p w)
    (hl : ∀ x ∈ l, x.Plain p w) (hs : States o (override e (settings l))) (hf : o.Fits) :
    readOptions p (fileText w l) = .ok o := by
  obtain ⟨r, h1, h2⟩ := parse_file p w l hl
  unfold readOptions
  rw [h1]
  simp only [Outcome.bind_ok]
  refine readAll_told (l := override e (settings l)) (fun s => ?_) hs hf
  unfold findOrEnv
  rw [he s, override_lookup]
  cases hk : e.lookup s with
  | none => simp [h2 s]
  | some v =>
    have hv : v.Plain p w := hpe (s, v) (lookup_some hk)
    simp [parseValue_written p w v hv]

/-- **C108.** Without settings in the environment it is the file alone that counts. -/
theorem C108_file (p : Platform) (w : UInt64 → Text) (l : List Line) (o : FullOptions)
    (he : ∀ s : Setting, p.getenv (upper s.key) = none) (hl : ∀ x ∈ l, x.Plain p w)
    (hs : States o (settings l)) (hf : o.Fits) : readOptions p (fileText w l) = .ok o := by
  refine C108_read p w [] l o (fun s => by simp [he s]) (by simp) hl ?_ hf
  have : override [] (settings l) = settings l := by simp [override]
  rw [this]
  exact hs

/-! ### All options can be described -/

/-- The number of all components and nodes. -/
def FullOptions.bound (o : FullOptions) : Nat :=
  o.sentinels.length + o.shards.length + o.shardNodes.length + o.atomizers.length +
  o.archivers.length + o.watchtowers.length + o.coordinators.length +
  (o.shardNodes.map List.length).sum + (o.coordinators.map (·.nodes.length)).sum

/-- All settings that might concern the options. -/
def FullOptions.all (o : FullOptions) : List Setting :=
  allScalars.map .scalar ++
  allKinds.flatMap fun c => (List.range o.bound).flatMap fun i =>
    allFields.flatMap fun f =>
      .item c i f :: (List.range o.bound).map fun j => .node c i j f

/-- Everything that is to be said. -/
def FullOptions.describe (o : FullOptions) : List (Setting × Said) :=
  o.all.filterMap fun s => (o.says s).map fun v => (s, v)

theorem mem_describe {o : FullOptions} {s : Setting} {v : Said} (h : (s, v) ∈ o.describe) :
    o.says s = some v := by
  simp only [FullOptions.describe, List.mem_filterMap, Option.map_eq_some_iff, Prod.mk.injEq] at h
  obtain ⟨t, _, u, hu, rfl, rfl⟩ := h
  exact hu

theorem getElem?_lt {α : Type} {l : List α} {i : Nat} {a : α} (h : l[i]? = some a) :
    i < l.length := (List.getElem?_eq_some_iff.mp h).1

theorem le_sum {α : Type} (f : α → Nat) {l : List α} {a : α} (h : a ∈ l) : f a ≤ (l.map f).sum := by
  induction l with
  | nil => simp at h
  | cons b l ih =>
    simp only [List.mem_cons] at h
    simp only [List.map_cons, List.sum_cons]
    rcases h with rfl | h
    · omega
    · have := ih h; omega

theorem says_all (o : FullOptions) (s : Setting) (v : Said) (h : o.says s = some v) :
    s ∈ o.all := by
  have hsc : ∀ s : Scalar, s ∈ allScalars := by intro s; cases s <;> decide
  have hki : ∀ s : Kind, s ∈ allKinds := by intro s; cases s <;> decide
  have hfi : ∀ s : Field, s ∈ allFields := by intro s; cases s <;> decide
  unfold FullOptions.all
  cases s with
  | scalar s => exact List.mem_append_left _ (List.mem_map_of_mem (hsc s))
  | item c i f =>
    have hi : i < o.bound := by
      unfold FullOptions.bound
      cases c <;> simp only [FullOptions.says, FullOptions.item] at h
      case shard =>
        split at h
        · obtain ⟨x, hx, _⟩ := Option.map_eq_some_iff.mp h
          have := getElem?_lt hx; omega
        · obtain ⟨x, hx, _⟩ := Option.bind_eq_some_iff.mp h
          have := getElem?_lt hx; omega
      all_goals
        obtain ⟨x, hx, _⟩ := Option.bind_eq_some_iff.mp h
        have := getElem?_lt hx
        omega
    refine List.mem_append_right _ ?_
    simp only [List.mem_flatMap, List.mem_range]
    exact ⟨c, hki c, i, hi, f, hfi f, List.mem_cons_self⟩
  | node c i j f =>
    have hij : i < o.bound ∧ j < o.bound := by
      unfold FullOptions.bound
      cases c <;> simp only [FullOptions.says, FullOptions.node, reduceCtorEq] at h
      · obtain ⟨y, hy, _⟩ := Option.bind_eq_some_iff.mp h
        obtain ⟨x, hx, hy⟩ := Option.bind_eq_some_iff.mp hy
        have h1 := getElem?_lt hx
        have h2 := getElem?_lt hy
        have h3 := le_sum List.length (List.mem_of_getElem? hx)
        omega
      · obtain ⟨y, hy, _⟩ := Option.bind_eq_some_iff.mp h
        obtain ⟨n, hn, hy⟩ := Option.bind_eq_some_iff.mp hy
        obtain ⟨x, hx, rfl⟩ := Option.map_eq_some_iff.mp hn
        have h1 := getElem?_lt hx
        have h2 := getElem?_lt hy
        have h3 := le_sum (fun x : Coordinator => x.nodes.length) (List.mem_of_getElem? hx)
        omega
    refine List.mem_append_right _ ?_
    simp only [List.mem_flatMap, List.mem_range]
    exact ⟨c, hki c, i, hij.1, f, hfi f,
      List.mem_cons_of_mem _ (List.mem_map.mpr ⟨j, List.mem_range.mpr hij.2, rfl⟩)⟩

/-- **C108.** All options can be described by settings. -/
theorem C108_describe (o : FullOptions) : States o o.describe where
  right s v v' h h' := by
    have := mem_describe h
    rw [this] at h'
    exact Option.some.inj h'
  whole s v h := by
    left
    simp only [FullOptions.describe, List.mem_filterMap]
    exact ⟨s, says_all o s v h, by simp [h]⟩
  keys i x hx := by
    constructor
    · intro hn v hv
      have := mem_describe hv
      simp [FullOptions.says, FullOptions.item, hx, Sentinel.says, hn] at this
    · intro hn v hv
      have := mem_describe hv
      simp [FullOptions.says, FullOptions.item, hx, Sentinel.says, hn] at this

/-! ### Nothing is made up -/

/-- The file has a line. -/
def HasLine (file line : Text) : Prop :=
  10 ∉ line ∧ ∃ a b, file = a ++ line ++ b ∧ (a = [] ∨ a.getLast? = some 10) ∧
    (b = [] ∨ b.head? = some 10)

/-- Something is said about a setting: in the environment, or in a line of the file. -/
def Given (p : Platform) (file : Text) (s : Setting) : Prop :=
  (p.getenv (upper s.key)).isSome ∨ ∃ t, HasLine file (s.key ++ [61] ++ t)

/-- **C108.** Whatever has no default is in the options only if the file or the
environment says it: there is no component whose endpoint, range, directory or
key was not given. -/
theorem C108_given (p : Platform) (file : Text) (o : FullOptions)
    (h : readOptions p file = .ok o) (s : Setting) (v : Said) (hv : o.says s = some v)
    (hd : s.default = none) : Given p file s := by
  unfold readOptions at h
  obtain ⟨r, h1, h⟩ := bind_inv h
  obtain ⟨x, hx⟩ := has_setting h s v hv hd
  unfold findOrEnv at hx
  split at hx
  · rename_i e he
    exact .inl (by simp [he])
  · right
    simp only [Outcome.ok.injEq] at hx
    rcases parseLines_inv p _ _ _ h1 _ _ (lookup_some hx) with h2 | ⟨t, h2, _⟩
    · simp at h2
    · have := splitLines_mem file [] _ h2 (by simp)
      simp only [List.nil_append] at this
      exact ⟨t, this⟩

/-- **C108.** If a setting is missing that is required, the file is refused with a
message. -/
theorem C108_missing (p : Platform) (w : UInt64 → Text) (e : List (Setting × Said))
    (l : List Line) (o : FullOptions) (he : EnvSays p w e) (hpe : ∀ x ∈ e, x.2.Plain p w)
    (hl : ∀ x ∈ l, x.Plain p w) (hs : Mostly o (override e (settings l))) (hf : o.Fits)
    (s : Setting) (v : Said) (hv : o.says s = some v) (hr : Required o s)
    (hm : ∀ u, (s, u) ∉ override e (settings l)) :
    readOptions p (fileText w l) = .refused := by
  obtain ⟨r, h1, h2⟩ := parse_file p w l hl
  have ha : Answers (findOrEnv p r) (override e (settings l)) := by
    intro s
    unfold findOrEnv
    rw [he s, override_lookup]
    cases hk : e.lookup s with
    | none => simp [h2 s]
    | some v =>
      have hv : v.Plain p w := hpe (s, v) (lookup_some hk)
      simp [parseValue_written p w v hv]
  unfold readOptions
  rw [h1]
  simp only [Outcome.bind_ok]
  rcases readAll_either ha hs hf with h | h
  · have hd : s.default = none := by
      unfold Required at hr
      split at hr
      · exact absurd hr id
      · rfl
      · exact hr
    obtain ⟨x, hx⟩ := has_setting h s v hv hd
    rw [ha s] at hx
    cases hk : (override e (settings l)).lookup s with
    | none => rw [hk] at hx; simp at hx
    | some u => exact absurd (lookup_some hk) (hm u)
  · exact h

/-! ### What is accepted -/

theorem distinct_nodup (l : List Bytes) : (distinct l).Nodup ∧ ∀ x, x ∈ distinct l ↔ x ∈ l := by
  induction l with
  | nil => simp [distinct]
  | cons a l ih =>
    unfold distinct
    split
    · rename_i ha
      refine ⟨ih.1, fun x => ?_⟩
      rw [ih.2 x]
      constructor
      · exact List.mem_cons_of_mem _
      · intro h
        rcases List.mem_cons.mp h with rfl | h
        · exact ha
        · exact h
    · rename_i ha
      refine ⟨List.nodup_cons.mpr ⟨fun h => ha ((ih.2 a).mp h), ih.1⟩, fun x => ?_⟩
      simp [ih.2 x]

/-- What a system needs: the components of its architecture, seeds in order and
worth something, and at least as many different public keys as attestations are
required. -/
structure Usable (o : FullOptions) : Prop where
  twoPhase : o.twoPhase = true → o.sentinels ≠ [] ∧ o.threshold.toNat ≤ o.sentinels.length ∧
    o.shards ≠ [] ∧ o.coordinators ≠ []
  atomizer : o.twoPhase = false → o.watchtowers ≠ [] ∧ o.archivers ≠ [] ∧ o.atomizers ≠ [] ∧
    (o.sentinels ≠ [] → o.shards ≠ [])
  seeds : o.seedFrom ≤ o.seedTo ∧ (o.seedFrom ≠ o.seedTo → o.seedValue ≠ 0)
  keys : ∃ ks : List Bytes, ks.Nodup ∧ ks.length = o.threshold.toNat ∧
    ∀ k ∈ ks, ∃ x ∈ o.sentinels, x.pub = some k

theorem keys_iff (o : FullOptions) :
    ¬ (distinct (o.sentinels.filterMap (·.pub))).length < o.threshold.toNat ↔
    ∃ ks : List Bytes, ks.Nodup ∧ ks.length = o.threshold.toNat ∧
      ∀ k ∈ ks, ∃ x ∈ o.sentinels, x.pub = some k := by
  obtain ⟨hn, hm⟩ := distinct_nodup (o.sentinels.filterMap (·.pub))
  constructor
  · intro h
    refine ⟨(distinct (o.sentinels.filterMap (·.pub))).take o.threshold.toNat,
      hn.sublist (List.take_sublist _ _), by rw [List.length_take]; omega, fun k hk => ?_⟩
    have := (hm k).mp (List.mem_of_mem_take hk)
    simpa [List.mem_filterMap] using this
  · rintro ⟨ks, h1, h2, h3⟩
    have : ks.length ≤ (distinct (o.sentinels.filterMap (·.pub))).length :=
      Verif.Util.length_le_of_subset h1 fun k hk =>
        (hm k).mpr (by simpa [List.mem_filterMap] using h3 k hk)
    omega

theorem shards_read {src : Source} {o : FullOptions} (h : readAll src = .ok o) :
    (o.twoPhase = true → (o.shardNodes.length = 0 ↔ o.shards = [])) ∧
    (o.twoPhase = false → ((o.shards.filterMap (·.place)).length = 0 ↔ o.shards = [])) := by
  have hp := readAll_inv h
  refine ⟨fun ht => ?_, fun ht => ?_⟩
  · have h1 := hp.shardNodes
    unfold readShardNodes at h1
    obtain ⟨n, hn, h1⟩ := bind_inv h1
    rw [if_pos ht] at h1
    have h2 := (readFrom_inv _ _ _ _ h1).1
    obtain ⟨m, hm, h3⟩ := hp.shardCount
    rw [hn, Outcome.ok.injEq] at hm
    subst hm
    rw [h2, ← h3, List.length_eq_zero_iff]
  · constructor
    · intro h0
      cases hs : o.shards with
      | nil => rfl
      | cons x r =>
        have hx := hp.shard 0 x (by simp [hs])
        unfold readShard at hx
        obtain ⟨pl, h1, hx⟩ := bind_inv hx
        obtain ⟨_, _, hx⟩ := bind_inv hx
        obtain ⟨_, _, hx⟩ := bind_inv hx
        obtain ⟨_, _, hx⟩ := bind_inv hx
        simp only [Outcome.ok.injEq] at hx
        subst hx
        unfold readPlace at h1
        rw [if_neg (by simp [ht])] at h1
        obtain ⟨ep, _, h1⟩ := bind_inv h1
        obtain ⟨db, _, h1⟩ := bind_inv h1
        simp only [Outcome.ok.injEq] at h1
        subst h1
        rw [hs] at h0
        simp at h0
    · intro h0; simp [h0]

/-- **C108.** A file is accepted exactly if it can be read and the options are
usable. -/
theorem C108_accepted (p : Platform) (file : Text) (o : FullOptions) :
    loadOptions p file = .ok o ↔ readOptions p file = .ok o ∧ Usable o := by
  have key : ∀ o', readOptions p file = .ok o' → (checkOptions o'.summary = none ↔ Usable o') := by
    intro o' h
    unfold readOptions at h
    obtain ⟨r, _, h⟩ := bind_inv h
    obtain ⟨s1, s2⟩ := shards_read h
    rw [check_iff]
    simp only [FullOptions.summary]
    rw [keys_iff]
    constructor
    · rintro ⟨h1, h2, h3, h4, h5⟩
      refine ⟨fun t => ?_, fun t => ?_, ⟨?_, ?_⟩, h5⟩
      · obtain ⟨a, b, c, d⟩ := h1 t
        exact ⟨fun e => a (by simp [e]), by omega, fun e => c ((s1 t).mpr e), fun e => d (by simp [e])⟩
      · obtain ⟨a, b, c, d⟩ := h2 t
        rw [s2 t] at c
        exact ⟨fun e => a (by simp [e]), fun e => b (by simp [e]), fun e => d (by simp [e]),
          fun hs e => c ⟨e, by simpa using hs⟩⟩
      · apply Classical.byContradiction
        intro hn
        have hn := UInt64.not_le.mp hn
        exact h3 ⟨fun e => UInt64.lt_irrefl _ (e ▸ hn), hn⟩
      · exact fun hne e => h4 ⟨hne, e⟩
    · rintro ⟨h1, h2, ⟨h3, h4⟩, h5⟩
      refine ⟨fun t => ?_, fun t => ?_, fun x => UInt64.not_lt.mpr h3 x.2, fun x => h4 x.1 x.2, h5⟩
      · obtain ⟨a, b, c, d⟩ := h1 t
        exact ⟨by simpa using a, by omega, fun e => c ((s1 t).mp e), by simpa using d⟩
      · obtain ⟨a, b, c, d⟩ := h2 t
        rw [s2 t]
        exact ⟨by simpa using a, by simpa using b, fun x => d (by simpa using x.2) x.1,
          by simpa using c⟩
  unfold loadOptions
  constructor
  · intro h
    obtain ⟨o', h1, h⟩ := bind_inv h
    cases hc : checkOptions o'.summary with
    | none =>
      simp only [hc, Outcome.ok.injEq] at h
      subst h
      exact ⟨h1, (key o' h1).mp hc⟩
    | some n =>
      simp only [hc] at h
      exact nomatch h
  · rintro ⟨h1, h2⟩
    rw [h1]
    simp only [Outcome.bind_ok, (key o h1).mpr h2]

/-! ### What goes wrong -/

/-- A platform without environment. -/
def bare : Platform := ⟨fun _ => none, fun _ => none⟩

/-- **C108 is violated**: a number that is written with spaces around the equals
sign, in quotes, or with a decimal point is ignored without a message.  Here two
attestations were asked for and one is required. -/
theorem C108_ignored_violated :
    readOptions bare (lit "attestation_threshold = 2\n") = .ok {} ∧
    readOptions bare (lit "attestation_threshold=\"2\"\n") = .ok {} ∧
    readOptions ⟨fun _ => none, fun _ => some 0x4000000000000000⟩
      (lit "attestation_threshold=2.0\n") = .ok {} ∧
    readOptions bare (lit "attestation_threshold=2\n") = .ok { threshold := 2 } := by
  decide +kernel

/-- **C108 is violated**: a rate that is a whole number is ignored without a
message.  Here no transaction was to have a fixed size and all of them have. -/
theorem C108_rate_violated :
    readOptions bare (lit "loadgen_fixed_tx_rate=0\n") = .ok {} ∧
    readOptions ⟨fun _ => none, fun _ => some 0⟩ (lit "loadgen_fixed_tx_rate=0.0\n") =
      .ok { fixedRate := 0 } := by
  decide +kernel

/-- **C108 is violated**: numbers that are too large are cut without a message:
the port 70000 is 4464, the range 0 to 256 is 0 to 0, a heartbeat of 2^32 - 1 is
-1. -/
theorem C108_cut_violated :
    readOptions bare (lit
      "shard_count=1\nshard0_endpoint=\"h:70000\"\nshard0_db=\"d\"\nshard0_start=0\nshard0_end=256\nheartbeat=4294967295\n") =
      .ok { shards := [⟨some ((lit "h", 4464), lit "d"), .warn, (0, 0)⟩], heartbeat := -1 } := by
  decide +kernel

/-- **C108 is violated**: a remark with an equals sign in it ends the program with
an exception, and a variable of the environment that is set to nothing makes it
read outside of a string. -/
theorem C108_remark_violated :
    readOptions bare (lit "# mode = atomizer\n") = .throws ∧
    readOptions ⟨fun _ => some [], fun _ => none⟩ [] = .undefined := by
  decide +kernel

/-- A file with one sentinel whose private key has 64 digits. -/
def keyFile (ending : Text) : Text :=
  lit "attestation_threshold=0" ++ ending ++ lit "sentinel_count=1" ++ ending ++
  lit "sentinel0_endpoint=\"h:5\"" ++ ending ++
  lit "sentinel0_private_key=\"0000000000000000000000000000000000000000000000000000000000000001\"" ++
  ending

/-- **C108 is violated**: in a file with the line ends of Windows the closing quote
stays part of a text.  The private key of a sentinel has 65 digits then, and more
bytes are written than a key has. -/
theorem C108_windows_violated :
    readOptions bare (keyFile [10]) =
      .ok { threshold := 0, sentinels :=
        [⟨(lit "h", 5), .warn, some (List.replicate 31 0 ++ [1]), none⟩] } ∧
    readOptions bare (keyFile [13, 10]) = .undefined := by
  decide +kernel

/-! ### The files that are shipped -/

/-- 2pc-compose.cfg. -/
def shippedTwoPhase : Text :=
  lit "2pc=1\n" ++
  lit "sentinel_count=1\n" ++
  lit "sentinel0_endpoint=\"sentinel0:5555\"\n" ++
  lit "sentinel0_loglevel=\"WARN\"\n" ++
  lit "sentinel0_private_key=\"0000000000000001000000000000000000000000000000000000000000000000\"\n" ++
  lit "sentinel0_public_key=\"eaa649f21f51bdbae7be4ae34ce6e5217a58fdce7f47f9aa7f3b58fa2120e2b3\"\n" ++
  lit "coordinator_count=1\n" ++
  lit "coordinator0_count=1\n" ++
  lit "coordinator0_loglevel=\"INFO\"\n" ++
  lit "coordinator0_0_endpoint=\"coordinator0:7777\"\n" ++
  lit "coordinator0_0_raft_endpoint=\"coordinator0:7778\"\n" ++
  lit "coordinator_max_threads=100\n" ++
  lit "shard_count=1\n" ++
  lit "shard0_start=0\n" ++
  lit "shard0_end=255\n" ++
  lit "shard0_count=1\n" ++
  lit "shard0_loglevel=\"INFO\"\n" ++
  lit "shard0_0_endpoint=\"shard0:6666\"\n" ++
  lit "shard0_0_raft_endpoint=\"shard0:6667\"\n" ++
  lit "shard0_0_readonly_endpoint=\"shard0:6767\"\n"

/-- atomizer-compose.cfg. -/
def shippedAtomizer : Text :=
  lit "atomizer_count=1\n" ++
  lit "atomizer0_endpoint=\"atomizer0:5555\"\n" ++
  lit "atomizer0_raft_endpoint=\"atomizer0:6666\"\n" ++
  lit "archiver_count=1\n" ++
  lit "archiver0_endpoint=\"archiver0:4555\"\n" ++
  lit "archiver0_db=\"archiver0_db\"\n" ++
  lit "shard_count=1\n" ++
  lit "shard0_endpoint=\"shard0:6555\"\n" ++
  lit "shard0_start=0\n" ++
  lit "shard0_end=255\n" ++
  lit "shard0_db=\"shard0\"\n" ++
  lit "sentinel_count=1\n" ++
  lit "sentinel0_endpoint=\"sentinel0:7555\"\n" ++
  lit "sentinel0_loglevel=\"INFO\"\n" ++
  lit "sentinel0_private_key=\"0000000000000001000000000000000000000000000000000000000000000000\"\n" ++
  lit "sentinel0_public_key=\"eaa649f21f51bdbae7be4ae34ce6e5217a58fdce7f47f9aa7f3b58fa2120e2b3\"\n" ++
  lit "watchtower_count=1\n" ++
  lit "watchtower0_client_endpoint=\"watchtower0:8555\"\n" ++
  lit "watchtower0_internal_endpoint=\"watchtower0:8556\"\n" ++
  lit "watchtower_block_cache_size=50\n" ++
  lit "target_block_interval=3000\n"

/-- The private key of the sentinel in the files that are shipped. -/
def shippedPriv : Bytes := List.replicate 7 0 ++ [1] ++ List.replicate 24 0

/-- The public key of the sentinel in the files that are shipped. -/
def shippedPub : Bytes :=
  [0xea, 0xa6, 0x49, 0xf2, 0x1f, 0x51, 0xbd, 0xba, 0xe7, 0xbe, 0x4a, 0xe3, 0x4c, 0xe6, 0xe5,
   0x21, 0x7a, 0x58, 0xfd, 0xce, 0x7f, 0x47, 0xf9, 0xaa, 0x7f, 0x3b, 0x58, 0xfa, 0x21, 0x20, 0xe2, 0xb3]

/-- **C108.** The files that are shipped are accepted and mean what they say.  (A
check of the names of the settings, not a general statement.) -/
theorem C108_shipped :
    loadOptions bare shippedTwoPhase = .ok {
      twoPhase := true
      sentinels := [⟨(lit "sentinel0", 5555), .warn, some shippedPriv, some shippedPub⟩]
      coordinators := [⟨.info, [((lit "coordinator0", 7778), (lit "coordinator0", 7777))]⟩]
      threads := 100
      shards := [⟨none, .info, (0, 255)⟩]
      shardNodes := [[⟨(lit "shard0", 6667), (lit "shard0", 6666), (lit "shard0", 6767)⟩]] } ∧
    loadOptions bare shippedAtomizer = .ok {
      atomizers := [⟨(lit "atomizer0", 5555), .warn, (lit "atomizer0", 6666)⟩]
      archivers := [⟨(lit "archiver0", 4555), .warn, lit "archiver0_db"⟩]
      shards := [⟨some ((lit "shard0", 6555), lit "shard0"), .warn, (0, 255)⟩]
      sentinels := [⟨(lit "sentinel0", 7555), .info, some shippedPriv, some shippedPub⟩]
      watchtowers := [⟨(lit "watchtower0", 8555), (lit "watchtower0", 8556), .warn⟩]
      blockCache := 50
      blockInterval := 3000 } := by
  decide +kernel

/-! ### The hypotheses are met -/

/-- Two sentinels, a locking shard with a node, a coordinator with a node. -/
def sampleOptions : FullOptions where
  twoPhase := true
  threshold := 2
  sentinels := [⟨(lit "a", 5001), .debug, some (List.replicate 32 1), some (List.replicate 32 2)⟩,
    ⟨(lit "b", 5002), .warn, none, some (List.replicate 32 3)⟩]
  shardNodes := [[⟨(lit "c", 1), (lit "c", 2), (lit "c", 3)⟩]]
  shards := [⟨none, .warn, (0, 255)⟩]
  coordinators := [⟨.info, [((lit "d", 1), (lit "d", 2))]⟩]
  seedFrom := 0
  seedTo := 10
  seedKey := some (List.replicate 32 7)
  seedValue := 1000
  heartbeat := 500

/-- The options of the sample can be described. -/
theorem sample_fits : sampleOptions.Fits := by
  constructor <;> first
    | decide +kernel
    | (simp only [sampleOptions, Endpoint.Fits, Positive32]; decide +kernel)

/-- The lines of a file that say what is to be said, but for what is the default. -/
def sampleLines : List Line :=
  .remark (lit "# a remark") ::
    (sampleOptions.describe.filter fun x => decide (x.1.default ≠ some x.2)).map
      fun x => .set x.1 x.2

theorem sample_settings : settings sampleLines =
    sampleOptions.describe.filter fun x => decide (x.1.default ≠ some x.2) := by
  have : ∀ l : List (Setting × Said), settings (l.map fun x => Line.set x.1 x.2) = l := by
    intro l
    induction l with
    | nil => rfl
    | cons a l ih => simp only [settings, List.map_cons, List.filterMap_cons] at ih ⊢; rw [ih]
  exact this _

/-- A line without rates that can be written. -/
def simple : Line → Bool
  | .set _ (.num _) => true
  | .set _ (.text t) => decide (10 ∉ t)
  | .set _ (.rate _) => false
  | .remark t => decide (10 ∉ t ∧ 61 ∉ t)

theorem simple_plain (p : Platform) (w : UInt64 → Text) (x : Line) (h : simple x = true) :
    x.Plain p w := by
  cases x with
  | set s v => cases v <;> simp_all [simple, Line.Plain, Said.Plain]
  | remark t => simpa [simple, Line.Plain] using h

/-- The hypotheses of `C108_file` are met. -/
theorem sample_read (p : Platform) (w : UInt64 → Text)
    (he : ∀ s : Setting, p.getenv (upper s.key) = none) :
    readOptions p (fileText w sampleLines) = .ok sampleOptions := by
  refine C108_file p w sampleLines sampleOptions he ?_ ?_ sample_fits
  · have : sampleLines.all simple = true := by decide +kernel
    rw [List.all_eq_true] at this
    exact fun x hx => simple_plain p w x (this x hx)
  · rw [sample_settings]
    have h := C108_describe sampleOptions
    refine ⟨fun s v v' hv => h.right s v v' (List.mem_filter.mp hv).1, fun s v hv => ?_,
      fun i x hx => ⟨fun hn v hv => (h.keys i x hx).1 hn v (List.mem_filter.mp hv).1,
        fun hn v hv => (h.keys i x hx).2 hn v (List.mem_filter.mp hv).1⟩⟩
    by_cases hd : s.default = some v
    · exact .inr hd
    · rcases h.whole s v hv with h | h
      · exact .inl (List.mem_filter.mpr ⟨h, by simpa using hd⟩)
      · exact .inr h

/-- The hypotheses of `C108_given` are met: the endpoint of the second sentinel. -/
example : sampleOptions.says (.item .sentinel 1 .endpoint) =
      some (.text (lit "b:5002")) ∧
    (Setting.item .sentinel 1 .endpoint).default = none := by decide +kernel

/-- The hypotheses of `C108_missing` are met: the readonly endpoint of the shard is
left out. -/
example (p : Platform) (w : UInt64 → Text)
    (he : ∀ s : Setting, p.getenv (upper s.key) = none) :
    readOptions p (fileText w ((sampleOptions.describe.filter fun x =>
        decide (x.1.default ≠ some x.2 ∧ x.1 ≠ .node .shard 0 0 .readonly)).map
      fun x => .set x.1 x.2)) = .refused := by
  have hset : ∀ l : List (Setting × Said), settings (l.map fun x => Line.set x.1 x.2) = l := by
    intro l
    induction l with
    | nil => rfl
    | cons a l ih => simp only [settings, List.map_cons, List.filterMap_cons] at ih ⊢; rw [ih]
  have ho : ∀ l, override [] l = l := by intro l; simp [override]
  refine C108_missing p w [] _ sampleOptions (fun s => by simp [he s]) (by simp) ?_ ?_ sample_fits
    (.node .shard 0 0 .readonly) (.text (lit "c:3")) (by decide +kernel) rfl ?_
  · have : ((sampleOptions.describe.filter fun x =>
        decide (x.1.default ≠ some x.2 ∧ x.1 ≠ .node .shard 0 0 .readonly)).map
      fun x => Line.set x.1 x.2).all simple = true := by decide +kernel
    rw [List.all_eq_true] at this
    exact fun x hx => simple_plain p w x (this x hx)
  · rw [hset, ho]
    have h := C108_describe sampleOptions
    refine ⟨fun s v v' hv => h.right s v v' (List.mem_filter.mp hv).1, fun s v hv hr => ?_,
      fun i x hx => ⟨fun hn v hv => (h.keys i x hx).1 hn v (List.mem_filter.mp hv).1,
        fun hn v hv => (h.keys i x hx).2 hn v (List.mem_filter.mp hv).1⟩⟩
    by_cases hd : s.default = some v
    · exact .inr hd
    · rcases h.whole s v hv with h | h
      · refine .inl (List.mem_filter.mpr ⟨h, ?_⟩)
        have : s ≠ .node .shard 0 0 .readonly := fun e => hr (by rw [e]; rfl)
        simpa using ⟨hd, this⟩
      · exact .inr h
  · rw [hset, ho]
    intro u hu
    have := (List.mem_filter.mp hu).2
    simp at this

/-- The sample is accepted. -/
example : loadOptions bare (fileText (fun _ => []) sampleLines) = .ok sampleOptions := by
  rw [C108_accepted]
  refine ⟨sample_read bare _ fun _ => rfl, ⟨fun _ => by decide, fun h => (nomatch h), by decide,
    ⟨[List.replicate 32 2, List.replicate 32 3], by decide, rfl, by decide⟩⟩⟩

/-- The environment has another heartbeat. -/
def sampleEnv : Platform :=
  ⟨fun k => if k = upper (Setting.scalar .heartbeat).key then some (lit "500") else none,
    fun _ => none⟩

/-- The hypotheses of `C108_read` are met: the heartbeat of the environment
counts, not the one of the file. -/
example : readOptions sampleEnv (fileText (fun _ => [])
      [.set (.scalar .heartbeat) (.num 700), .set (.scalar .threads) (.num 8)]) =
    .ok { heartbeat := 500, threads := 8 } := by
  refine C108_read sampleEnv _ [(.scalar .heartbeat, .num 500)] _ _ (fun s => ?_) ?_ ?_ ?_ ?_
  · by_cases hs : s = .scalar .heartbeat
    · subst hs; decide +kernel
    · have h1 : upper s.key ≠ upper (Setting.scalar .heartbeat).key := fun e =>
        hs (C108_names _ _ (.inr e))
      have h2 : (s == Setting.scalar .heartbeat) = false := by simpa using hs
      simp [sampleEnv, h1, List.lookup, h2]
  · intro x hx
    simp only [List.mem_singleton] at hx
    subst hx
    trivial
  · intro x hx
    simp only [List.mem_cons, List.not_mem_nil, or_false] at hx
    rcases hx with rfl | rfl <;> trivial
  · have e : override [(.scalar .heartbeat, .num 500)] (settings
        [.set (.scalar .heartbeat) (.num 700), .set (.scalar .threads) (.num 8)]) =
        [(.scalar .heartbeat, .num 500), (.scalar .threads, .num 8)] := by decide
    rw [e]
    refine ⟨fun s v v' h h' => ?_, fun s v h => ?_, fun i x hx => by simp at hx⟩
    · simp only [List.mem_cons, Prod.mk.injEq, List.not_mem_nil, or_false] at h
      rcases h with ⟨rfl, rfl⟩ | ⟨rfl, rfl⟩
      · exact Option.some.inj h'
      · exact Option.some.inj h'
    · cases s with
      | scalar s =>
        cases s <;> simp [FullOptions.says, FullOptions.scalar, count, signed] at h <;>
          subst h <;> simp [Setting.default]
      | item c i f => cases c <;> simp [FullOptions.says, FullOptions.item] at h
      | node c i j f => cases c <;> simp [FullOptions.says, FullOptions.node] at h
  · constructor <;> first
      | decide +kernel
      | simp [Positive32]

end Verif.Config
