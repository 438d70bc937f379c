import Verif.Http.Client
/-!
# Invariant of the client for JSON-RPC over HTTP
-/
namespace Verif.Http.Client

variable {P J : Type}

/-- The attempts made for a call, in order. -/
def attempts (past : List (Attempt P)) (i : Nat) : List (Attempt P) := past.filter (·.call == i)

/-- What came back for a call, in all attempts. -/
def bytes (as : List (Attempt P)) : List UInt8 := as.flatMap (·.bytes)

/-- Why a callback was called with `v`: the last attempt for the call brought a reply, after
attempts that failed; or the client was destroyed. -/
def Explained (parse : List UInt8 → Option J) (s : State P J) (i : Nat) (v : Option J) : Prop :=
  (∃ before last c, attempts s.past i = before ++ [last] ∧ (∀ a ∈ before, a.result = .failed) ∧
    last.result = .code c ∧
    v = if c / 100 = 2 then parse (bytes before ++ last.bytes) else none) ∨
  (v = none ∧ s.closing = true ∧ ∀ a ∈ attempts s.past i, a.result = .failed)

/-- A transfer that waits. -/
def Live (s : State P J) (e : Nat × Transfer) : Prop :=
  ∃ x, s.handles[e.1]? = some x ∧ x.target = e.2.call ∧ s.calls[e.2.call]? = some x.post ∧
    e.2.result = bytes (attempts s.past e.2.call) ++ x.got ∧
    ∀ a ∈ attempts s.past e.2.call, a.result = .failed

/-- What is true of every state that can be reached. -/
structure Inv (parse : List UInt8 → Option J) (s : State P J) : Prop where
  ids : (s.told.map (·.1) ++ s.transfers.map (·.2.call)).Nodup
  all : ∀ i, i < s.calls.length ↔ i ∈ s.told.map (·.1) ++ s.transfers.map (·.2.call)
  keys : (s.idle ++ s.cb.toList ++ s.transfers.map (·.1)).Nodup
  made : ∀ h ∈ s.idle ++ s.cb.toList, h < s.handles.length
  live : ∀ e ∈ s.transfers, Live s e
  posts : ∀ a ∈ s.past, s.calls[a.call]? = some a.post
  out : ∀ t ∈ s.told, Explained parse s t.1 t.2
  urls : 0 < s.endpoints → s.lb = s.handles.length % s.endpoints
  url : ∀ h x, s.handles[h]? = some x → x.url = h % s.endpoints
  past_url : ∀ a ∈ s.past, ∃ h, a.url = h % s.endpoints
  some_ : s.endpoints = 0 → s.handles = []

theorem attempts_append (past : List (Attempt P)) (a : Attempt P) (i : Nat) :
    attempts (past ++ [a]) i = if a.call = i then attempts past i ++ [a] else attempts past i := by
  unfold attempts
  by_cases h : a.call = i <;> simp [h]

theorem inv_start (parse : List UInt8 → Option J) (n : Nat) : Inv parse (start P J n) := by
  constructor <;> simp [start]

theorem inv_flags {parse : List UInt8 → Option J} {s : State P J} (hs : Inv parse s) :
    Inv parse { s with broken := true } :=
  ⟨hs.ids, hs.all, hs.keys, hs.made, hs.live, hs.posts, hs.out, hs.urls, hs.url, hs.past_url,
    hs.some_⟩

/-- A new call on a handle that is not in use. -/
theorem inv_put {parse : List UInt8 → Option J} {s : State P J} (hs : Inv parse s)
    {handles : List (Handle P)} {idle : List Nat} {lb h : Nat} {p : P} {u : Nat}
    (hkeys : (idle ++ s.cb.toList ++ (s.transfers.map (·.1) ++ [h])).Nodup)
    (hmade : ∀ k ∈ idle ++ s.cb.toList, k < handles.length)
    (hh : handles[h]? = some ⟨u, p, s.calls.length, []⟩)
    (hold : ∀ k, k ≠ h → ∀ x, s.handles[k]? = some x → handles[k]? = some x)
    (hlb : 0 < s.endpoints → lb = handles.length % s.endpoints)
    (hurl : ∀ k x, handles[k]? = some x → x.url = k % s.endpoints)
    (hsome : s.endpoints = 0 → handles = []) :
    Inv parse { s with
      handles := handles
      idle := idle
      lb := lb
      transfers := s.transfers ++ [(h, ⟨s.calls.length, []⟩)]
      calls := s.calls ++ [p] } := by
  have hnew : ∀ i ∈ s.told.map (·.1) ++ s.transfers.map (·.2.call), i < s.calls.length :=
    fun i hi => (hs.all i).mpr hi
  have hcall : ∀ (i : Nat) (q : P), s.calls[i]? = some q → (s.calls ++ [p])[i]? = some q := by
    intro i q hq
    obtain ⟨hi, -⟩ := List.getElem?_eq_some_iff.mp hq
    rw [List.getElem?_append_left hi]; exact hq
  have hnone : attempts s.past s.calls.length = [] := by
    unfold attempts
    rw [List.filter_eq_nil_iff]
    intro a ha
    obtain ⟨hi, -⟩ := List.getElem?_eq_some_iff.mp (hs.posts a ha)
    simp only [beq_iff_eq]; omega
  refine ⟨?_, ?_, ?_, hmade, ?_, ?_, hs.out, hlb, hurl, hs.past_url, hsome⟩
  · simp only [List.map_append, List.map_cons, List.map_nil]
    rw [← List.append_assoc, List.nodup_append]
    refine ⟨hs.ids, by simp, ?_⟩
    intro a ha b hb hab
    simp only [List.mem_singleton] at hb
    subst hb; subst hab
    exact Nat.lt_irrefl _ (hnew _ ha)
  · intro i
    simp only [List.map_append, List.map_cons, List.map_nil, List.length_append,
      List.length_singleton]
    rw [← List.append_assoc, List.mem_append, ← hs.all i]
    simp only [List.mem_singleton]; omega
  · simpa using hkeys
  · intro e he
    rcases List.mem_append.mp he with he₁ | he₁
    · obtain ⟨x, h1, h2, h3, h4, h5⟩ := hs.live e he₁
      refine ⟨x, ?_, h2, hcall _ _ h3, h4, h5⟩
      refine hold e.1 ?_ x h1
      intro hc
      rw [← List.append_assoc, List.nodup_append] at hkeys
      exact hkeys.2.2 e.1 (List.mem_append_right _ (List.mem_map.mpr ⟨e, he₁, rfl⟩)) h
        (by simp) hc
    · simp only [List.mem_singleton] at he₁
      subst he₁
      refine ⟨_, hh, rfl, by simp, ?_, ?_⟩
      · simp [hnone, bytes]
      · simp [hnone]
  · intro a ha; exact hcall _ _ (hs.posts a ha)

theorem inv_call {parse : List UInt8 → Option J} {s : State P J} (hs : Inv parse s) (p : P) :
    Inv parse (s.call p) := by
  unfold State.call
  split
  · exact inv_flags hs
  · split
    · next h rest hi =>
      have hk := hs.keys
      rw [hi] at hk
      have hnot : h ∉ s.transfers.map (·.1) := by
        intro hm
        rw [List.nodup_append] at hk
        exact hk.2.2 h (by simp) h hm rfl
      have hlt : h < s.handles.length := hs.made h (by simp [hi])
      unfold State.add
      rw [if_neg]
      · have hx : s.handles[h]? = some s.handles[h] := List.getElem?_eq_getElem hlt
        refine inv_put hs (u := s.handles[h].url) ?_ ?_ ?_ ?_ ?_ ?_ ?_
        · refine (List.Perm.nodup_iff ?_).mp hk
          rw [← List.append_assoc]
          simp only [List.cons_append]
          exact (List.perm_append_singleton _ _).symm
        · intro k hkm
          rw [List.length_modify]
          exact hs.made k (by rw [hi]; simpa using Or.inr (by simpa using hkm))
        · simp [hx]
        · intro k hne x hkx
          simp [Ne.symm hne, hkx]
        · intro h0; rw [List.length_modify]; exact hs.urls h0
        · intro k x hkx
          rw [List.getElem?_modify] at hkx
          cases hy : s.handles[k]? with
          | none => simp [hy] at hkx
          | some y =>
            have hu := hs.url k y hy
            rw [hy] at hkx
            by_cases hkh : h = k
            · simp [hkh] at hkx; subst hkx; exact hu
            · simp [hkh] at hkx; subst hkx; exact hu
        · intro h0; rw [hs.some_ h0] at hlt; simp at hlt
      · intro hc
        obtain ⟨e, he, hek⟩ := List.any_eq_true.mp hc
        exact hnot (List.mem_map.mpr ⟨e, he, by simpa using hek⟩)
    · next hi =>
      split
      · exact inv_flags hs
      next hpos =>
      have hpos : 0 < s.endpoints := Nat.pos_of_ne_zero hpos
      have hnot : ∀ k ∈ s.idle ++ s.cb.toList ++ s.transfers.map (·.1),
          k < s.handles.length := by
        intro k hk
        rcases List.mem_append.mp hk with hk | hk
        · exact hs.made k hk
        · obtain ⟨e, he, rfl⟩ := List.mem_map.mp hk
          obtain ⟨x, hx, _⟩ := hs.live e he
          exact (List.getElem?_eq_some_iff.mp hx).1
      unfold State.add
      rw [if_neg]
      · refine inv_put hs (u := s.lb) ?_ ?_ ?_ ?_ ?_ ?_ ?_
        · rw [← List.append_assoc, List.nodup_append]
          refine ⟨hs.keys, by simp, ?_⟩
          intro a ha b hb hab
          simp only [List.mem_singleton] at hb
          subst hb; subst hab
          exact Nat.lt_irrefl _ (hnot _ ha)
        · intro k hk
          rw [List.length_modify]
          have := hs.made k hk
          simp; omega
        · simp [List.getElem?_modify]
        · intro k hne x hkx
          obtain ⟨hlt, -⟩ := List.getElem?_eq_some_iff.mp hkx
          have : ¬ s.handles.length = k := by omega
          simp [List.getElem?_modify, this, List.getElem?_append_left hlt, hkx]
        · intro h0
          simp only [List.length_modify, List.length_append, List.length_singleton]
          rw [hs.urls h0, Nat.mod_add_mod]
        · intro k x hkx
          rw [List.getElem?_modify] at hkx
          by_cases hlt : k < s.handles.length
          · rw [List.getElem?_append_left hlt] at hkx
            cases hy : s.handles[k]? with
            | none => simp [hy] at hkx
            | some y =>
              have hu := hs.url k y hy
              have : ¬ s.handles.length = k := by omega
              rw [hy] at hkx
              simp [this] at hkx; subst hkx; exact hu
          · by_cases heq : k = s.handles.length
            · subst heq
              simp at hkx
              subst hkx
              exact hs.urls hpos
            · rw [List.getElem?_eq_none (by simp; omega)] at hkx
              simp at hkx
        · intro h0; omega
      · intro hc
        obtain ⟨e, he, hek⟩ := List.any_eq_true.mp hc
        have := hnot e.1 (List.mem_append_right _ (List.mem_map.mpr ⟨e, he, rfl⟩))
        simp only [beq_iff_eq] at hek
        omega

theorem nodup_eq {l : List (Nat × Transfer)} (f : Nat × Transfer → Nat) (hn : (l.map f).Nodup)
    {e e' : Nat × Transfer} (he : e ∈ l) (he' : e' ∈ l) (h : f e = f e') : e = e' := by
  induction l with
  | nil => cases he
  | cons x xs ih =>
    simp only [List.map_cons, List.nodup_cons] at hn
    rcases List.mem_cons.mp he with h1 | h1 <;> rcases List.mem_cons.mp he' with h2 | h2
    · rw [h1, h2]
    · exact absurd (List.mem_map.mpr ⟨e', h2, by rw [← h, h1]⟩) hn.1
    · exact absurd (List.mem_map.mpr ⟨e, h1, by rw [h, h2]⟩) hn.1
    · exact ih hn.2 h1 h2

theorem call_eq {s : State P J} (hn : (s.told.map (·.1) ++ s.transfers.map (·.2.call)).Nodup)
    {e e' : Nat × Transfer} (he : e ∈ s.transfers) (he' : e' ∈ s.transfers)
    (h : e.2.call = e'.2.call) : e = e' :=
  nodup_eq (·.2.call) (List.nodup_append.mp hn).2.1 he he' h

theorem key_eq {s : State P J} (hn : (s.idle ++ s.cb.toList ++ s.transfers.map (·.1)).Nodup)
    {e e' : Nat × Transfer} (he : e ∈ s.transfers) (he' : e' ∈ s.transfers)
    (h : e.1 = e'.1) : e = e' :=
  nodup_eq (·.1) (List.nodup_append.mp hn).2.1 he he' h

theorem find_key {l : List (Nat × Transfer)} {h : Nat} {e : Nat × Transfer}
    (hf : l.find? (·.1 == h) = some e) : e ∈ l ∧ e.1 = h :=
  ⟨List.mem_of_find?_eq_some hf, by simpa using List.find?_some hf⟩

theorem inv_data {parse : List UInt8 → Option J} {s s' : State P J} (hs : Inv parse s) {h : Nat}
    {b : List UInt8} (hd : s.data h b = some s') : Inv parse s' := by
  unfold State.data at hd
  split at hd
  case h_2 => cases hd
  next e x hf hx =>
  injection hd with hd; subst hd
  obtain ⟨he, rfl⟩ := find_key hf
  obtain ⟨y, h1, h2, h3, h4, h5⟩ := hs.live e he
  obtain rfl : x = y := by rw [hx] at h1; injection h1
  have hm1 : ∀ f : Nat × Transfer → Nat × Transfer,
      (∀ z, (f z).1 = z.1 ∧ (f z).2.call = z.2.call) →
      (s.transfers.map f).map (·.1) = s.transfers.map (·.1) ∧
      (s.transfers.map f).map (·.2.call) = s.transfers.map (·.2.call) := by
    intro f hfz
    simp only [List.map_map]
    exact ⟨List.map_congr_left fun z _ => (hfz z).1, List.map_congr_left fun z _ => (hfz z).2⟩
  obtain ⟨k1, k2⟩ := hm1 (fun z =>
    if z.2.call = x.target then (z.1, { z.2 with result := z.2.result ++ b }) else z)
    (by intro z; dsimp only; split <;> exact ⟨rfl, rfl⟩)
  refine ⟨?_, ?_, ?_, ?_, ?_, hs.posts, hs.out, ?_, ?_, hs.past_url, ?_⟩
  · dsimp only; rw [k2]; exact hs.ids
  · dsimp only; rw [k2]; exact hs.all
  · dsimp only; rw [k1]; exact hs.keys
  · intro k hk; dsimp only; rw [List.length_modify]; exact hs.made k hk
  · intro z hz
    obtain ⟨z, hz₁, rfl⟩ := List.mem_map.mp hz
    by_cases hc : z.2.call = x.target
    · obtain rfl : z = e := call_eq hs.ids hz₁ he (by rw [hc, h2])
      refine ⟨{ x with got := x.got ++ b }, ?_, ?_, ?_, ?_, ?_⟩
      · simp [hc, List.getElem?_modify, hx]
      · simp [hc]
      · simp only [hc, if_true]; rw [← hc]; exact h3
      · simp only [hc, if_true]; rw [h4, ← hc, List.append_assoc]
      · simp only [hc, if_true]; rw [← hc]; exact h5
    · obtain ⟨y, g1, g2, g3, g4, g5⟩ := hs.live z hz₁
      have hne : e.1 ≠ z.1 := by
        intro hk
        exact hc (by rw [key_eq hs.keys hz₁ he hk.symm, h2])
      simp only [hc, if_false]
      refine ⟨y, ?_, g2, g3, g4, g5⟩
      simp [List.getElem?_modify, hne, g1]
  · intro h0; dsimp only; rw [List.length_modify]; exact hs.urls h0
  · intro k y hy
    dsimp only at hy
    rw [List.getElem?_modify] at hy
    cases hz : s.handles[k]? with
    | none => simp [hz] at hy
    | some z =>
      have hu := hs.url k z hz
      rw [hz] at hy
      by_cases hkh : e.1 = k
      · simp [hkh] at hy; subst hy; exact hu
      · simp [hkh] at hy; subst hy; exact hu
  · intro h0
    dsimp only
    simp [hs.some_ h0]

/-- Whatever happens to one call leaves what is known about the others. -/
theorem attempts_other {s : State P J} (hn : (s.told.map (·.1) ++ s.transfers.map (·.2.call)).Nodup)
    {e : Nat × Transfer} (he : e ∈ s.transfers) {a : Attempt P} (ha : a.call = e.2.call)
    {t : Nat × Option J} (ht : t ∈ s.told) :
    attempts (s.past ++ [a]) t.1 = attempts s.past t.1 := by
  rw [attempts_append, if_neg]
  intro hc
  rw [List.nodup_append] at hn
  exact hn.2.2 t.1 (List.mem_map.mpr ⟨t, ht, rfl⟩) e.2.call (List.mem_map.mpr ⟨e, he, rfl⟩)
    (by rw [← hc, ha])

theorem explained_other {parse : List UInt8 → Option J} {s : State P J}
    (hn : (s.told.map (·.1) ++ s.transfers.map (·.2.call)).Nodup)
    {e : Nat × Transfer} (he : e ∈ s.transfers) {a : Attempt P} (ha : a.call = e.2.call)
    {t : Nat × Option J} (ht : t ∈ s.told) (h : Explained parse s t.1 t.2) {s' : State P J}
    (hp : s'.past = s.past ++ [a]) (hc : s'.closing = s.closing) :
    Explained parse s' t.1 t.2 := by
  unfold Explained at *
  rw [hp, hc, attempts_other hn he ha ht]
  exact h

/-- Taking a transfer out of the list, and telling its callback. -/
theorem ids_out {s : State P J} {e : Nat × Transfer} (he : e ∈ s.transfers)
    (hk : (s.idle ++ s.cb.toList ++ s.transfers.map (·.1)).Nodup) {v : Option J} :
    ((s.told ++ [(e.2.call, v)]).map (·.1) ++
      (s.transfers.filter (·.1 != e.1)).map (·.2.call)).Perm
    (s.told.map (·.1) ++ s.transfers.map (·.2.call)) := by
  replace hk := (List.nodup_append.mp hk).2.1
  have key : ([e.2.call] ++ (s.transfers.filter (·.1 != e.1)).map (·.2.call)).Perm
      (s.transfers.map (·.2.call)) := by
    clear v
    generalize s.transfers = l at *
    induction l with
    | nil => cases he
    | cons x xs ih =>
      simp only [List.map_cons, List.nodup_cons] at hk
      rcases List.mem_cons.mp he with rfl | he
      · have : xs.filter (·.1 != e.1) = xs := by
          rw [List.filter_eq_self]
          intro y hy
          simp only [bne_iff_ne, ne_eq]
          intro hc
          exact hk.1 (List.mem_map.mpr ⟨y, hy, hc⟩)
        simp [this]
      · have hne : x.1 ≠ e.1 := fun hc => hk.1 (List.mem_map.mpr ⟨e, he, hc.symm⟩)
        have := ih he hk.2
        simp only [List.filter_cons, bne_iff_ne, ne_eq, hne, not_false_eq_true, if_true,
          List.map_cons, List.singleton_append] at this ⊢
        exact (List.Perm.swap _ _ _).trans (this.cons _)
  simp only [List.map_append, List.map_cons, List.map_nil, List.append_assoc]
  exact key.append_left _

theorem keys_out {s : State P J} {e : Nat × Transfer} (he : e ∈ s.transfers) {i c : List Nat}
    (hk : (i ++ c ++ s.transfers.map (·.1)).Nodup) :
    (i ++ (c ++ [e.1]) ++ (s.transfers.filter (·.1 != e.1)).map (·.1)).Nodup := by
  have hk' := hk
  rw [List.nodup_append] at hk ⊢
  refine ⟨?_, List.Nodup.sublist (List.Sublist.map _ List.filter_sublist) hk.2.1, ?_⟩
  · rw [← List.append_assoc, List.nodup_append]
    refine ⟨hk.1, by simp, ?_⟩
    intro a ha b hb hab
    simp only [List.mem_singleton] at hb
    exact hk.2.2 a ha e.1 (List.mem_map.mpr ⟨e, he, rfl⟩) (by rw [hab, hb])
  · intro a ha b hb hab
    obtain ⟨z, hz, rfl⟩ := List.mem_map.mp hb
    have hz' := List.mem_filter.mp hz
    rw [← List.append_assoc] at ha
    rcases List.mem_append.mp ha with ha | ha
    · exact hk.2.2 a ha z.1 (List.mem_map.mpr ⟨z, hz'.1, rfl⟩) hab
    · simp only [List.mem_singleton] at ha
      have := hz'.2
      simp only [bne_iff_ne, ne_eq] at this
      exact this (by rw [← hab, ha])

theorem inv_finish {parse : List UInt8 → Option J} {s s' : State P J} (hs : Inv parse s)
    (hcb : s.cb = none) {h : Nat} {r : Result} (hd : s.finish parse h r = some s') :
    Inv parse s' := by
  unfold State.finish at hd
  split at hd
  case h_2 => cases hd
  next e x hf hx =>
  obtain ⟨he, rfl⟩ := find_key hf
  obtain ⟨y, h1, h2, h3, h4, h5⟩ := hs.live e he
  obtain rfl : x = y := by rw [hx] at h1; injection h1
  have hposts : ∀ a ∈ s.past ++ [⟨x.target, x.url, x.post, x.got, r⟩],
      s.calls[a.call]? = some a.post := by
    intro a ha
    rcases List.mem_append.mp ha with ha | ha
    · exact hs.posts a ha
    · simp only [List.mem_singleton] at ha
      subst ha
      rw [h2]; exact h3
  have hurls : ∀ a ∈ s.past ++ [⟨x.target, x.url, x.post, x.got, r⟩],
      ∃ h, a.url = h % s.endpoints := by
    intro a ha
    rcases List.mem_append.mp ha with ha | ha
    · exact hs.past_url a ha
    · simp only [List.mem_singleton] at ha
      subst ha
      exact ⟨_, hs.url _ _ hx⟩
  have hother : ∀ z ∈ s.transfers, z ≠ e →
      attempts (s.past ++ [⟨x.target, x.url, x.post, x.got, r⟩]) z.2.call =
        attempts s.past z.2.call := by
    intro z hz hne
    rw [attempts_append, if_neg]
    intro hc
    exact hne (call_eq hs.ids hz he (by rw [← h2]; exact hc.symm))
  cases r with
  | failed =>
    dsimp only at hd
    injection hd with hd; subst hd
    refine ⟨hs.ids, hs.all, hs.keys, ?_, ?_, hposts, ?_, ?_, ?_, hurls, ?_⟩
    · intro k hk; dsimp only; rw [List.length_modify]; exact hs.made k hk
    · intro z hz
      by_cases hze : z = e
      · subst hze
        refine ⟨{ x with got := [] }, ?_, h2, h3, ?_, ?_⟩
        · simp [hx]
        · dsimp only
          rw [attempts_append, if_pos h2, h4]
          simp [bytes]
        · dsimp only
          rw [attempts_append, if_pos h2]
          intro a ha
          rcases List.mem_append.mp ha with ha | ha
          · exact h5 a ha
          · simp only [List.mem_singleton] at ha; subst ha; rfl
      · obtain ⟨y, g1, g2, g3, g4, g5⟩ := hs.live z hz
        have hne : e.1 ≠ z.1 := fun hk => hze (key_eq hs.keys hz he hk.symm)
        refine ⟨y, ?_, g2, g3, ?_, ?_⟩
        · simp [List.getElem?_modify, hne, g1]
        · dsimp only; rw [hother z hz hze]; exact g4
        · dsimp only; rw [hother z hz hze]; exact g5
    · intro t ht
      exact explained_other hs.ids he (a := ⟨x.target, x.url, x.post, x.got, .failed⟩) h2 ht
        (hs.out t ht) rfl rfl
    · intro h0; dsimp only; rw [List.length_modify]; exact hs.urls h0
    · intro k y hy
      dsimp only at hy
      rw [List.getElem?_modify] at hy
      cases hz : s.handles[k]? with
      | none => simp [hz] at hy
      | some z =>
        have hu := hs.url k z hz
        rw [hz] at hy
        by_cases hkh : e.1 = k
        · simp [hkh] at hy; subst hy; exact hu
        · simp [hkh] at hy; subst hy; exact hu
    · intro h0
      dsimp only
      simp [hs.some_ h0]
  | code c =>
    dsimp only at hd
    injection hd with hd; subst hd
    have hperm := ids_out he hs.keys (v := if c / 100 = 2 then parse e.2.result else none)
    refine ⟨?_, ?_, ?_, ?_, ?_, hposts, ?_, hs.urls, hs.url, hurls, hs.some_⟩
    · exact hperm.nodup_iff.mpr hs.ids
    · intro i; rw [hs.all i]; exact hperm.mem_iff.symm
    · have := hs.keys
      rw [hcb] at this
      have := keys_out he (i := s.idle) (c := []) (by simpa using this)
      simpa using this
    · intro k hk
      have hk : k ∈ s.idle ++ [e.1] := hk
      rcases List.mem_append.mp hk with hk | hk
      · exact hs.made k (List.mem_append_left _ hk)
      · simp only [List.mem_singleton] at hk
        subst hk
        exact (List.getElem?_eq_some_iff.mp hx).1
    · intro z hz
      obtain ⟨hz, hne⟩ := List.mem_filter.mp hz
      have hze : z ≠ e := by
        rintro rfl
        simp at hne
      obtain ⟨y, g1, g2, g3, g4, g5⟩ := hs.live z hz
      refine ⟨y, g1, g2, g3, ?_, ?_⟩
      · dsimp only; rw [hother z hz hze]; exact g4
      · dsimp only; rw [hother z hz hze]; exact g5
    · intro t ht
      rcases List.mem_append.mp ht with ht | ht
      · exact explained_other hs.ids he (a := ⟨x.target, x.url, x.post, x.got, .code c⟩) h2 ht
          (hs.out t ht) rfl rfl
      · simp only [List.mem_singleton] at ht
        subst ht
        refine Or.inl ⟨attempts s.past e.2.call, ⟨x.target, x.url, x.post, x.got, .code c⟩, c,
          ?_, h5, rfl, ?_⟩
        · dsimp only
          rw [attempts_append, if_pos h2]
        · dsimp only
          rw [h4]

theorem inv_step {parse : List UInt8 → Option J} {s s' : State P J} {e : Event P}
    (hs : Inv parse s) (h : step parse s e = some s') : Inv parse s' := by
  cases e with
  | call p =>
    simp only [step] at h
    split at h
    · cases h
    · injection h with h; subst h; exact inv_call hs p
  | data k b =>
    simp only [step] at h
    split at h
    · cases h
    · exact inv_data hs h
  | finish k r =>
    simp only [step] at h
    split at h
    · cases h
    next hc =>
    have hcb : s.cb = none := by
      cases hx : s.cb with
      | none => rfl
      | some k => simp [hx] at hc
    exact inv_finish hs hcb h
  | ret =>
    simp only [step] at h
    split at h
    case h_2 => cases h
    next k hk =>
    split at h
    · cases h
    injection h with h; subst h
    refine ⟨hs.ids, hs.all, ?_, ?_, hs.live, hs.posts, hs.out, hs.urls, hs.url, hs.past_url,
      hs.some_⟩
    · have := hs.keys; rw [hk] at this; simpa using this
    · intro j hj
      have := hs.made j
      rw [hk] at this
      exact this (by simpa using hj)
  | destroy =>
    simp only [step] at h
    split at h
    · cases h
    injection h with h; subst h
    refine ⟨hs.ids, hs.all, hs.keys, hs.made, hs.live, hs.posts, ?_, hs.urls, hs.url,
      hs.past_url, hs.some_⟩
    intro t ht
    rcases hs.out t ht with h | ⟨h1, _, h3⟩
    · exact Or.inl h
    · exact Or.inr ⟨h1, rfl, h3⟩
  | drop k =>
    simp only [step] at h
    split at h
    · cases h
    next hc =>
    have hclosing : s.closing = true := by
      cases hx : s.closing with
      | true => rfl
      | false => simp [hx] at hc
    split at h
    case h_2 => cases h
    next e hf =>
    injection h with h; subst h
    obtain ⟨he, rfl⟩ := find_key hf
    have hperm := ids_out he hs.keys (v := none)
    refine ⟨?_, ?_, ?_, hs.made, ?_, hs.posts, ?_, hs.urls, hs.url, hs.past_url, hs.some_⟩
    · exact hperm.nodup_iff.mpr hs.ids
    · intro i; rw [hs.all i]; exact hperm.mem_iff.symm
    · exact List.Nodup.sublist (List.Sublist.append (List.Sublist.refl _)
        (List.Sublist.map _ List.filter_sublist)) hs.keys
    · intro z hz; exact hs.live z (List.mem_filter.mp hz).1
    · intro t ht
      rcases List.mem_append.mp ht with ht | ht
      · exact hs.out t ht
      · simp only [List.mem_singleton] at ht
        subst ht
        obtain ⟨x, -, -, -, -, h5⟩ := hs.live e he
        exact Or.inr ⟨rfl, hclosing, h5⟩

theorem inv_run {parse : List UInt8 → Option J} {s s' : State P J} {es : List (Event P)}
    (hs : Inv parse s) (h : run parse s es = some s') : Inv parse s' := by
  induction es generalizing s with
  | nil => simp [run] at h; exact h ▸ hs
  | cons e es ih =>
    simp only [run, Option.bind_eq_some_iff] at h
    obtain ⟨s₁, h1, h2⟩ := h
    exact ih (inv_step hs h1) h2

end Verif.Http.Client
