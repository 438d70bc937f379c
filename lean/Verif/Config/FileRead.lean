import Verif.Config.FileLemmas
import Verif.Config.FileSpec
/-!
# Lemmas about reading a configuration file
-/
namespace Verif.Config

open Verif.Evm (Outcome)
open Verif.Hex (Text HashRes hashFromHex toHex)
open Verif.Http (lit stoull)
open Verif.Serial (Bytes)

/-- The value behind what is said. -/
def Said.val : Said → Val
  | .num n => .num n
  | .text t => .str t
  | .rate d => .dbl d

/-! ### The file is taken apart as it was put together -/

theorem parseValue_written (p : Platform) (w : UInt64 → Text) (v : Said) (h : v.Plain p w) :
    parseValue p (v.written w) = .ok v.val := by
  have open' : ∀ t : Text, t ≠ [] → 34 ∉ t → parseValue p t =
      if 46 ∉ t then do
        let n ← stoull t
        .ok (.num n)
      else
        match p.stod t with
        | some d => .ok (.dbl d)
        | none => .throws := by
    intro t hne hq
    cases t with
    | nil => exact absurd rfl hne
    | cons c r =>
      have h1 : c ≠ 34 := fun e => hq (by simp [e])
      have h2 : (c :: r).getLast? ≠ some 34 := fun e => hq (List.mem_of_getLast? e)
      simp only [parseValue, h1, h2, ne_eq, not_false_eq_true, and_self, if_true]
      rcases p.stod (c :: r) with _ | d <;> rfl
  cases v with
  | num n =>
    have hd := dec_digits n.toNat
    simp only [Said.written]
    rw [open' _ (dec_ne_nil _) (fun e => absurd (hd _ e) (by decide)),
      if_pos (fun e => absurd (hd _ e) (by decide)), stoull_dec _ n.toNat_lt]
    simp [Said.val]
  | text t =>
    simp [Said.written, parseValue, Said.val]
  | rate d =>
    have h : Writes p w d := h
    simp only [Said.written]
    rw [open' _ (List.ne_nil_of_mem h.point) h.quote, if_neg (fun e => e h.point), h.value]
    rfl

theorem written_line (p : Platform) (w : UInt64 → Text) (v : Said) (h : v.Plain p w) :
    10 ∉ v.written w ∧ v.written w ≠ [] := by
  cases v with
  | num n => exact ⟨fun e => absurd (dec_digits _ _ e) (by decide), dec_ne_nil _⟩
  | text t =>
    have h : 10 ∉ t := h
    simp [Said.written, h]
  | rate d =>
    have h : Writes p w d := h
    exact ⟨h.line, List.ne_nil_of_mem h.point⟩

theorem splitLines_line (t r acc : Text) (h : 10 ∉ t) :
    splitLines (t ++ 10 :: r) acc = (acc ++ t) :: splitLines r [] := by
  induction t generalizing acc with
  | nil => simp [splitLines]
  | cons c t ih =>
    have hc : c ≠ 10 := fun e => h (by simp [e])
    rw [List.cons_append, splitLines, if_neg hc, ih _ (fun e => h (by simp [e]))]
    simp

theorem line_no_end (p : Platform) (w : UInt64 → Text) (x : Line) (h : x.Plain p w) :
    10 ∉ x.text w := by
  cases x with
  | set s v =>
    have h1 := (key_plain s).2
    have h2 := (written_line p w v h).1
    simp [Line.text, h1, h2]
  | remark t => exact h.1

theorem splitLines_file (p : Platform) (w : UInt64 → Text) (l : List Line)
    (h : ∀ x ∈ l, x.Plain p w) : splitLines (fileText w l) [] = l.map (·.text w) := by
  induction l with
  | nil => rfl
  | cons x l ih =>
    have e : fileText w (x :: l) = x.text w ++ 10 :: fileText w l := by simp [fileText]
    rw [e, splitLines_line _ _ _ (line_no_end p w x (h x (by simp))),
      ih fun y hy => h y (by simp [hy])]
    simp

theorem dropWhile_key (k r : Text) (h : 61 ∉ k) :
    (k ++ 61 :: r).dropWhile (· ≠ 61) = 61 :: r ∧ (k ++ 61 :: r).takeWhile (· ≠ 61) = k := by
  induction k with
  | nil => simp
  | cons c k ih =>
    have hc : c ≠ 61 := fun e => h (by simp [e])
    have := ih fun e => h (by simp [e])
    simp_all

theorem entry_set (k v : Text) (h : 61 ∉ k) (hv : v ≠ []) :
    entry (k ++ [61] ++ v) = some (k, v) := by
  obtain ⟨c, r, rfl⟩ := List.exists_cons_of_ne_nil hv
  have e : k ++ [61] ++ (c :: r) = k ++ 61 :: c :: r := by simp
  have := dropWhile_key k (c :: r) h
  rw [e]
  unfold entry
  rw [this.1, this.2]

theorem entry_remark (t : Text) (h : 61 ∉ t) : entry t = none := by
  unfold entry
  have : t.dropWhile (· ≠ 61) = [] := by
    induction t with
    | nil => rfl
    | cons c t ih =>
      have hc : c ≠ 61 := fun e => h (by simp [e])
      have := ih fun e => h (by simp [e])
      simp_all
  rw [this]

theorem lookup_snoc {α β : Type} [BEq α] (l : List (α × β)) (k k' : α) (v : β) :
    (l ++ [(k, v)]).lookup k' = (l.lookup k').or (if k' == k then some v else none) := by
  induction l with
  | nil => simp [List.lookup]; split <;> simp_all
  | cons x l ih =>
    obtain ⟨a, b⟩ := x
    simp only [List.cons_append, List.lookup]
    split
    · simp
    · exact ih

theorem parseLines_file (p : Platform) (w : UInt64 → Text) (l : List Line)
    (h : ∀ x ∈ l, x.Plain p w) (acc : List (Text × Val)) :
    ∃ r, parseLines p (l.map (·.text w)) acc = .ok r ∧
      ∀ s : Setting, r.lookup s.key =
        (acc.lookup s.key).or (((settings l).lookup s).map Said.val) := by
  induction l generalizing acc with
  | nil => exact ⟨acc, rfl, fun s => by simp [settings]⟩
  | cons x l ih =>
    have ih := ih fun y hy => h y (by simp [hy])
    have hx := h x (by simp)
    cases x with
    | remark t =>
      obtain ⟨r, h1, h2⟩ := ih acc
      refine ⟨r, ?_, fun s => by rw [h2 s]; rfl⟩
      simp only [List.map_cons, parseLines, Line.text, entry_remark t hx.2]
      exact h1
    | set s v =>
      have e : entry ((Line.set s v).text w) = some (s.key, v.written w) :=
        entry_set _ _ (key_plain s).1 (written_line p w v hx).2
      obtain ⟨r, h1, h2⟩ := ih (if (acc.lookup s.key).isSome then acc else acc ++ [(s.key, v.val)])
      refine ⟨r, ?_, fun u => ?_⟩
      · simp only [List.map_cons, parseLines, e, parseValue_written p w v hx, Outcome.bind_ok]
        exact h1
      · rw [h2 u]
        have hs : settings (Line.set s v :: l) = (s, v) :: settings l := rfl
        rw [hs]
        by_cases hu : u = s
        · subst hu
          simp only [List.lookup, beq_self_eq_true]
          cases ha : acc.lookup u.key with
          | none => simp [lookup_snoc, ha]
          | some b => simp [ha]
        · have hk : (u.key == s.key) = false := by
            simp only [beq_eq_false_iff_ne]; exact fun e => hu (key_inj e)
          have hu' : (u == s) = false := by simpa using hu
          simp only [List.lookup, hu']
          split
          · rfl
          · rw [lookup_snoc, hk]; simp

/-- The source answers for every setting what the list says. -/
def Answers (src : Source) (l : List (Setting × Said)) : Prop :=
  ∀ s : Setting, src s.key = .ok ((l.lookup s).map Said.val)

theorem parse_file (p : Platform) (w : UInt64 → Text) (l : List Line)
    (h : ∀ x ∈ l, x.Plain p w) :
    ∃ r, parse p (fileText w l) = .ok r ∧
      ∀ s : Setting, r.lookup s.key = ((settings l).lookup s).map Said.val := by
  obtain ⟨r, h1, h2⟩ := parseLines_file p w l h []
  refine ⟨r, ?_, fun s => by simpa using h2 s⟩
  rw [parse, splitLines_file p w l h]
  exact h1

/-! ### One setting -/

/-- The source answers what is said about a setting, or nothing if that is the default. -/
def Told (src : Source) (s : Setting) (v : Said) : Prop :=
  src s.key = .ok (some v.val) ∨ (src s.key = .ok none ∧ s.default = some v)

theorem lookup_none {α β : Type} [BEq α] [LawfulBEq α] {l : List (α × β)} {k : α}
    (h : l.lookup k = none) : ∀ v, (k, v) ∉ l := by
  induction l with
  | nil => simp
  | cons x l ih =>
    obtain ⟨a, b⟩ := x
    simp only [List.lookup] at h
    split at h
    · simp at h
    · rename_i hk
      intro v hv
      simp only [List.mem_cons, Prod.mk.injEq] at hv
      rcases hv with hv | hv
      · rw [hv.1] at hk; simp at hk
      · exact ih h v hv

theorem lookup_some {α β : Type} [BEq α] [LawfulBEq α] {l : List (α × β)} {k : α} {v : β}
    (h : l.lookup k = some v) : (k, v) ∈ l := by
  induction l with
  | nil => simp at h
  | cons x l ih =>
    obtain ⟨a, b⟩ := x
    simp only [List.lookup] at h
    split at h
    · rename_i hk
      have hk : k = a := by simpa using hk
      simp at h
      simp [hk, h]
    · exact List.mem_cons_of_mem _ (ih h)

theorem told (src : Source) (l : List (Setting × Said)) (o : FullOptions) (ha : Answers src l)
    (hs : States o l) (s : Setting) (v : Said) (h : o.says s = some v) : Told src s v := by
  unfold Told
  rw [ha s]
  cases hl : l.lookup s with
  | some v' =>
    rw [hs.right s v' v (lookup_some hl) h]
    exact .inl rfl
  | none =>
    rcases hs.whole s v h with h | h
    · exact absurd h (lookup_none hl v)
    · exact .inr ⟨rfl, h⟩

theorem numOr_told {src : Source} {s : Scalar} {n d : UInt64}
    (h : Told src (.scalar s) (.num n)) (hd : (Setting.scalar s).default = some (.num d)) :
    numOr src s d = .ok n := by
  unfold numOr getNum
  rcases h with h | ⟨h, h'⟩
  · have h : src s.name = .ok (some (.num n)) := h
    rw [h]; rfl
  · have h : src s.name = .ok none := h
    rw [hd] at h'
    simp only [Option.some.injEq, Said.num.injEq] at h'
    rw [h, h']; rfl

theorem dblOr_told {src : Source} {s : Scalar} {n d : UInt64}
    (h : Told src (.scalar s) (.rate n)) (hd : (Setting.scalar s).default = some (.rate d)) :
    dblOr src s d = .ok n := by
  unfold dblOr getDbl
  rcases h with h | ⟨h, h'⟩
  · have h : src s.name = .ok (some (.dbl n)) := h
    rw [h]; rfl
  · have h : src s.name = .ok none := h
    rw [hd] at h'
    simp only [Option.some.injEq, Said.rate.injEq] at h'
    rw [h, h']; rfl

theorem getNum_told {src : Source} {s : Setting} {n : UInt64} (h : Told src s (.num n))
    (hd : s.default = none) : need (getNum src s.key) = .ok n := by
  rcases h with h | ⟨_, h⟩
  · unfold getNum; rw [h]; rfl
  · rw [hd] at h; simp at h

theorem getStr_told' {src : Source} {s : Setting} {t : Text} (h : Told src s (.text t))
    (hd : s.default = none) : getStr src s.key = .ok (some t) := by
  rcases h with h | ⟨_, h⟩
  · unfold getStr; rw [h]; rfl
  · rw [hd] at h; simp at h

theorem getStr_told {src : Source} {s : Setting} {t : Text} (h : Told src s (.text t))
    (hd : s.default = none) : need (getStr src s.key) = .ok t := by
  rw [getStr_told' h hd]; rfl

theorem parseIpPort_shown (e : Endpoint) (h : e.Fits) : parseIpPort e.shown = .ok e := by
  obtain ⟨host, port⟩ := e
  have h : 58 ∉ host := h
  have key : ∀ (k r : Text), 58 ∉ k →
      (k ++ 58 :: r).dropWhile (· ≠ 58) = 58 :: r ∧ (k ++ 58 :: r).takeWhile (· ≠ 58) = k := by
    intro k r
    induction k with
    | nil => simp
    | cons c k ih =>
      intro h
      have hc : c ≠ 58 := fun e => h (by simp [e])
      have := ih fun e => h (by simp [e])
      simp_all
  have e1 : Endpoint.shown (host, port) = host ++ 58 :: dec port.toNat := by
    simp [Endpoint.shown]
  have e2 : (dec port.toNat).takeWhile (· ≠ 58) = dec port.toNat := by
    have hd : 58 ∉ dec port.toNat := fun e => absurd (dec_digits _ _ e) (by decide)
    generalize dec port.toNat = t at hd
    induction t with
    | nil => rfl
    | cons c t ih =>
      have hc : c ≠ 58 := fun e => hd (by simp [e])
      have := ih fun e => hd (by simp [e])
      simp_all
  have hp : port.toNat < 2 ^ 16 := port.toNat_lt
  unfold parseIpPort
  rw [e1, (key host _ h).1, (key host _ h).2, List.drop_one, List.tail_cons, e2,
    stoull_dec _ (by omega)]
  simp [Nat.toUInt64]

theorem getEndpoint_told {src : Source} {s : Setting} {e : Endpoint}
    (h : Told src s (.text e.shown)) (hd : s.default = none) (hf : e.Fits) :
    need (getEndpoint src s.key) = .ok e := by
  unfold getEndpoint
  rw [getStr_told' h hd]
  simp only [Outcome.bind_ok, parseIpPort_shown e hf]
  rfl

theorem parseLevel_shown (l : Level) : parseLevel l.shown = some l := by
  cases l <;> decide +kernel

theorem getLevel_told {src : Source} {c : Kind} {i : Nat} {l : Level}
    (h : Told src (.item c i .loglevel) (.text l.shown)) :
    getLevel src (Setting.item c i .loglevel).key = .ok l := by
  unfold getLevel getStr
  rcases h with h | ⟨h, h'⟩
  · rw [h]
    simp only [Outcome.bind_ok, Said.val, parseLevel_shown]
    rfl
  · rw [h]
    have h' : lit "WARN" = l.shown := by simpa [Setting.default] using h'
    have : parseLevel (lit "WARN") = some l := by rw [h']; exact parseLevel_shown l
    have hw : parseLevel (lit "WARN") = some .warn := by decide +kernel
    rw [hw] at this
    simp only [Option.some.injEq] at this
    simp [this]

theorem mapM_id_some (l : Bytes) : (l.map some).mapM id = some l := by
  induction l with
  | nil => rfl
  | cons a l ih => simp [List.mapM_cons, ih]

theorem readKey_toHex (k : Bytes) (h : k.length = 32) : readKey (toHex k) = .ok k := by
  unfold readKey
  rw [Verif.Hex.C37_hash k h]
  simp only [mapM_id_some]

theorem readFrom_list {α : Type} (f : Nat → Outcome α) (l : List α) (k : Nat)
    (h : ∀ (i : Nat) (a : α), l[i]? = some a → f (k + i) = .ok a) :
    readFrom f l.length k = .ok l := by
  induction l generalizing k with
  | nil => rfl
  | cons a l ih =>
    have h0 : f k = .ok a := h 0 a rfl
    have ih := ih (k + 1) fun i b hb => by
      have := h (i + 1) b (by simpa using hb)
      rw [show k + 1 + i = k + (i + 1) by omega]
      exact this
    simp only [List.length_cons, readFrom, h0, Outcome.bind_ok, ih]

theorem readCount {α : Type} (f : Nat → Outcome α) (l : List α) (hl : l.length < 2 ^ 64)
    (h : ∀ (i : Nat) (a : α), l[i]? = some a → f i = .ok a) :
    readFrom f l.length.toUInt64.toNat 0 = .ok l := by
  have : l.length.toUInt64.toNat = l.length := by
    simp [Nat.toUInt64]; omega
  rw [this]
  exact readFrom_list f l 0 fun i a ha => by simpa using h i a ha

theorem toInt32_signed (x : Int) (h : Positive32 x) : toInt32 x.toNat.toUInt64 = x := by
  unfold Positive32 at h
  unfold toInt32
  have : x.toNat.toUInt64.toNat = x.toNat := by
    simp [Nat.toUInt64]; omega
  rw [this, Int.bmod_def]
  omega

end Verif.Config
