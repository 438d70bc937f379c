import Verif.Parsec.ReplInv
import Verif.Parsec.ReplWireSpec
import Verif.Serial.CatalogueLemmas

/-! Lemmas for C119. -/
namespace Verif.Parsec.Wire

open Verif.Serial Verif.Serial.Cat Verif.Serial.Codec

/-! ### The specification, one call at a time -/

theorem since_finish (h : List Call) (t : Nat) : since (h ++ [.finish t]) t = [] := by
  simp [since]

theorem since_snoc (h : List Call) (t : Nat) (c : Call) (hc : c ≠ .finish t) :
    since (h ++ [c]) t = since h t ++ [c] := by
  have : (c != .finish t) = true := by simpa using hc
  simp [since, this]

/-- `record` in terms of the calls that count. -/
def pick (t : Nat) (l : List Call) : Option RepTicket :=
  match l.dropWhile fun c => !c.prepares t with
  | .prepare _ b u :: rest =>
    if rest.contains (.commit t) then some ⟨1, b, u.map fun p => (p.1, [])⟩ else some ⟨0, b, u⟩
  | _ => none

theorem record_eq (h : List Call) (t : Nat) : record h t = pick t (since h t) := rfl

theorem pick_skip {t : Nat} {d : Call} {l : List Call} (h : d.prepares t = false) :
    pick t (d :: l) = pick t l := by
  simp [pick, h]

theorem pick_take {t b : Nat} {u : List (Key × Value)} {l : List Call} :
    pick t (.prepare t b u :: l) =
      if l.contains (.commit t) then some ⟨1, b, u.map fun p => (p.1, [])⟩ else some ⟨0, b, u⟩ := by
  simp [pick, Call.prepares]

/-- A ticket after its commit. -/
def done (r : RepTicket) : RepTicket := ⟨1, r.broker, r.updates.map fun p => (p.1, [])⟩

theorem prepares_iff {t : Nat} {d : Call} (h : d.prepares t = true) :
    ∃ b u, d = .prepare t b u := by
  cases d with
  | prepare t' b u =>
    have : t' = t := by simpa [Call.prepares] using h
    exact ⟨b, u, by rw [this]⟩
  | commit t' => exact nomatch h
  | finish t' => exact nomatch h
  | tickets => exact nomatch h

theorem pick_snoc_some {t : Nat} {l : List Call} {c : Call} {r : RepTicket} (h : pick t l = some r) :
    pick t (l ++ [c]) = if c = .commit t then some (done r) else some r := by
  induction l with
  | nil => exact nomatch h
  | cons d l ih =>
    rw [List.cons_append]
    cases hd : d.prepares t with
    | false =>
      rw [pick_skip hd] at h ⊢
      exact ih h
    | true =>
      obtain ⟨b, u, rfl⟩ := prepares_iff hd
      rw [pick_take] at h ⊢
      by_cases hl : l.contains (.commit t) = true
      · rw [if_pos hl] at h
        injection h with h
        subst h
        rw [if_pos (by simp at hl; simp [hl])]
        split
        · simp [done]
        · rfl
      · rw [if_neg hl] at h
        injection h with h
        subst h
        by_cases hc : c = .commit t
        · subst hc
          rw [if_pos (by simp), if_pos rfl]
          rfl
        · rw [if_neg hc, if_neg]
          simp at hl
          simpa [hl] using fun e => hc e.symm

theorem pick_snoc_none {t : Nat} {l : List Call} {c : Call} (h : pick t l = none) :
    pick t (l ++ [c]) = pick t [c] := by
  induction l with
  | nil => rfl
  | cons d l ih =>
    rw [List.cons_append]
    cases hd : d.prepares t with
    | false =>
      rw [pick_skip hd] at h ⊢
      exact ih h
    | true =>
      obtain ⟨b, u, rfl⟩ := prepares_iff hd
      rw [pick_take] at h
      split at h <;> exact nomatch h

theorem record_finish (h : List Call) (t : Nat) : record (h ++ [.finish t]) t = none := by
  rw [record_eq, since_finish]
  rfl

theorem record_some {h : List Call} {t : Nat} {c : Call} {r : RepTicket} (hr : record h t = some r)
    (hc : c ≠ .finish t) :
    record (h ++ [c]) t = if c = .commit t then some (done r) else some r := by
  rw [record_eq, since_snoc h t c hc]
  exact pick_snoc_some hr

theorem record_none {h : List Call} {t : Nat} {c : Call} (hr : record h t = none)
    (hc : c ≠ .finish t) : record (h ++ [c]) t = pick t [c] := by
  rw [record_eq, since_snoc h t c hc]
  exact pick_snoc_none hr

/-- A call that does not name `t` changes nothing about it. -/
theorem record_other {h : List Call} {t : Nat} {c : Call} (h1 : c.prepares t = false)
    (h2 : c ≠ .commit t) (h3 : c ≠ .finish t) : record (h ++ [c]) t = record h t := by
  cases hr : record h t with
  | none =>
    rw [record_none hr h3, pick_skip h1]
    rfl
  | some r => rw [record_some hr h3, if_neg h2]

/-! ### The invariant -/

/-- What a replica holds after the calls of the log. -/
structure Inv (h : List Call) (s : RState) : Prop where
  distinct : Distinct s.tickets
  known : ∀ t, (s.tickets.lookup t).map toWire = record h t
  fits : ∀ p ∈ s.tickets, u64.valid p.1 ∧ repTicket.valid (toWire p.2)
  few : s.tickets.length ≤ h.length

theorem Inv.empty : Inv [] {} where
  distinct := List.Pairwise.nil
  known _ := rfl
  fits _ hp := nomatch hp
  few := Nat.le_refl _

theorem Call.request_valid {c : Call} (hc : c.Fits) : repRequest.valid c.request := by
  cases c with
  | prepare t b u =>
    obtain ⟨h1, h2, h3, h4, h5⟩ := hc
    exact ⟨h1, h2, h3, h4, h5⟩
  | commit t => exact hc
  | finish t => exact hc
  | tickets => trivial

/-- What the machine does with the entry of a call. -/
theorem commit_entry (m : Machine) (idx : Nat) {c : Call} (hc : c.Fits) :
    m.commit idx c.entry =
      some (⟨(process m.shard c.request).1, idx⟩,
        some (repResponse.write (process m.shard c.request).2)) := by
  have h := repRequest_law c.request [] (Call.request_valid hc)
  rw [List.append_nil] at h
  rw [Machine.commit, Call.entry, h]

theorem toWire_moved (r : RTicket) : toWire r.moved = done (toWire r) := rfl

theorem lookup_mem {l : List (Nat × RTicket)} {t : Nat} {r : RTicket} (h : l.lookup t = some r) :
    (t, r) ∈ l := by
  induction l with
  | nil => exact nomatch h
  | cons p l ih =>
    obtain ⟨y, z⟩ := p
    rw [List.lookup_cons] at h
    by_cases hy : t = y
    · subst hy
      simp at h
      subst h
      exact List.mem_cons_self
    · have hb : (t == y) = false := by simpa using hy
      simp only [hb] at h
      exact List.mem_cons_of_mem _ (ih h)

theorem done_valid {r : RepTicket} (h : repTicket.valid r) : repTicket.valid (done r) := by
  obtain ⟨_, h2, h3, h4, h5⟩ := h
  refine ⟨(by decide : 1 < 256 ^ 1), h2, ?_, ?_, ?_⟩
  · simpa [done] using h3
  · simpa [done, List.map_map, Function.comp_def] using h4
  · intro p hp
    obtain ⟨q, hq, rfl⟩ := List.mem_map.mp hp
    exact ⟨(h5 q hq).1, Nat.zero_le _⟩

theorem Inv.next {h : List Call} {s : RState} (hi : Inv h s) {c : Call} (hc : c.Fits) :
    Inv (h ++ [c]) (process s c.request).1 := by
  have hlen : (h ++ [c]).length = h.length + 1 := by simp
  cases c with
  | tickets =>
    refine ⟨hi.distinct, fun t => ?_, hi.fits, by have := hi.few; simp only [process, Call.request]; omega⟩
    rw [record_other rfl (by simp) (by simp)]
    exact hi.known t
  | prepare t b u =>
    have hd := RState.apply_distinct hi.distinct (.prepare t b u)
    simp only [process, Call.request]
    cases hl : s.tickets.lookup t with
    | some r =>
      simp only [RState.apply, hl]
      refine ⟨hi.distinct, fun x => ?_, hi.fits, by have := hi.few; omega⟩
      have hx := hi.known x
      cases hr : record h x with
      | some r' => rw [record_some hr (by simp), if_neg (by simp), hx, hr]
      | none =>
        rw [record_none hr (by simp), hx, hr]
        have hne : x ≠ t := by
          rintro rfl
          rw [hl, hr] at hx
          exact nomatch hx
        rw [pick_skip (by simpa [Call.prepares] using fun e => hne e.symm)]
        rfl
    | none =>
      simp only [RState.apply, hl] at hd ⊢
      refine ⟨hd, fun x => ?_, fun p hp => ?_, by have := hi.few; simp only [List.length_cons]; omega⟩
      · have hx := hi.known x
        rw [List.lookup_cons]
        by_cases hxt : x = t
        · subst hxt
          rw [hl] at hx
          rw [record_none hx.symm (by simp), pick_take]
          simp [toWire]
        · have hb : (x == t) = false := by simpa using hxt
          simp only [hb]
          rw [record_other (by simpa [Call.prepares] using fun e => hxt e.symm) (by simp) (by simp)]
          exact hx
      · rcases List.mem_cons.mp hp with rfl | hp
        · obtain ⟨h1, h2, h3, h4, h5⟩ := hc
          exact ⟨h1, (by decide : 0 < 256 ^ 1), h2, h3, h4, h5⟩
        · exact hi.fits p hp
  | commit t =>
    have hd := RState.apply_distinct hi.distinct (.commit t)
    simp only [process, Call.request]
    cases hl : s.tickets.lookup t with
    | none =>
      simp only [RState.apply, hl]
      refine ⟨hi.distinct, fun x => ?_, hi.fits, by have := hi.few; omega⟩
      have hx := hi.known x
      cases hr : record h x with
      | some r' =>
        have hne : x ≠ t := by
          rintro rfl
          rw [hl, hr] at hx
          exact nomatch hx
        rw [record_some hr (by simp), if_neg (by simpa using fun e => hne e.symm), hx, hr]
      | none =>
        rw [record_none hr (by simp), hx, hr]
        rfl
    | some r =>
      simp only [RState.apply, hl] at hd ⊢
      refine ⟨hd, fun x => ?_, fun p hp => ?_, by have := hi.few; simp only [List.length_map]; omega⟩
      · have hx := hi.known x
        rw [lookup_map_set]
        by_cases hxt : x = t
        · subst hxt
          rw [hl, Option.map_some] at hx
          rw [if_pos rfl, hl, record_some hx.symm (by simp), if_pos rfl]
          rfl
        · rw [if_neg hxt, record_other rfl (by simpa using fun e => hxt e.symm) (by simp)]
          exact hx
      · obtain ⟨q, hq, rfl⟩ := List.mem_map.mp hp
        split
        · have := hi.fits _ (lookup_mem hl)
          exact ⟨this.1, done_valid this.2⟩
        · exact hi.fits q hq
  | finish t =>
    have hd := RState.apply_distinct hi.distinct (.finish t)
    simp only [process, Call.request]
    simp only [RState.apply] at hd ⊢
    refine ⟨hd, fun x => ?_, fun p hp => hi.fits p (List.mem_filter.mp hp).1, ?_⟩
    · rw [lookup_filter_ne]
      by_cases hxt : x = t
      · subst hxt
        rw [if_pos rfl, record_finish]
        rfl
      · rw [if_neg hxt, record_other rfl (by simp) (by simpa using fun e => hxt e.symm)]
        exact hi.known x
    · have := hi.few
      have := List.length_filter_le (fun p : Nat × RTicket => decide (p.1 ≠ t)) s.tickets
      dsimp only
      omega

theorem lookup_map_wire (l : List (Nat × RTicket)) (t : Nat) :
    (l.map fun p => (p.1, toWire p.2)).lookup t = (l.lookup t).map toWire := by
  induction l with
  | nil => rfl
  | cons p l ih =>
    rw [List.map_cons, List.lookup_cons, List.lookup_cons, ih]
    cases t == p.1 <;> rfl

/-- The response of the machine can be read back. -/
theorem Inv.response {h : List Call} {s : RState} (hi : Inv h s) (hn : h.length < 2 ^ 64) (c : Call) :
    repResponse.valid (process s c.request).2 := by
  cases c with
  | prepare t b u =>
    intro v hv
    simp only [process, Call.request, RState.apply] at hv
    cases hl : s.tickets.lookup t <;> simp [hl] at hv
  | commit t =>
    intro v hv
    simp only [process, Call.request, RState.apply] at hv
    cases hl : s.tickets.lookup t with
    | none =>
      simp [hl, codeNumber] at hv
      subst hv
      exact (by decide : 4 < 256 ^ 1)
    | some r => simp [hl] at hv
  | finish t =>
    intro v hv
    simp [process, Call.request, RState.apply] at hv
  | tickets =>
    refine ⟨?_, ?_, ?_⟩
    · have := hi.few
      rw [List.length_map]
      omega
    · rw [List.map_map]
      have := hi.distinct
      unfold Distinct at this
      exact List.pairwise_map.mpr this
    · intro p hp
      obtain ⟨q, hq, rfl⟩ := List.mem_map.mp hp
      exact hi.fits q hq

/-- What the callback is told is right. -/
theorem Inv.told {h : List Call} {s : RState} (hi : Inv h s) (hn : h.length < 2 ^ 64) (c : Call) :
    ∃ r, c.told (some (repResponse.write (process s c.request).2)) = some r ∧ Right h c r := by
  have hl := repResponse_law _ [] (hi.response hn c)
  rw [List.append_nil] at hl
  cases c with
  | prepare t b u =>
    refine ⟨.result none, ?_, rfl⟩
    simp only [Call.told, hl]
    simp only [process, Call.request, RState.apply]
    cases s.tickets.lookup t <;> rfl
  | commit t =>
    refine ⟨_, ?_, rfl⟩
    simp only [Call.told, hl]
    rw [← hi.known t]
    simp only [process, Call.request, RState.apply]
    cases s.tickets.lookup t <;> rfl
  | finish t =>
    refine ⟨.result none, ?_, rfl⟩
    simp only [Call.told, hl]
    rfl
  | tickets =>
    refine ⟨.tickets (.tickets (s.tickets.map fun p => (p.1, toWire p.2))), ?_, _, rfl, ?_, fun t => ?_⟩
    · simp only [Call.told, hl]
      rfl
    · rw [List.map_map]
      have := hi.distinct
      unfold Distinct at this
      exact List.pairwise_map.mpr this
    · rw [lookup_map_wire, hi.known]

/-- What the requests do to the replicated shard. -/
def Call.cmd : Call → Option Cmd
  | .prepare t b u => some (.prepare t b u)
  | .commit t => some (.commit t)
  | .finish t => some (.finish t)
  | .tickets => none

/-- Executing the log of some calls. -/
theorem exec_calls (cs : List Call) (h : List Call) (m : Machine) (idx : Nat) (hi : Inv h m.shard)
    (hc : ∀ c ∈ cs, c.Fits) (hn : h.length + cs.length < 2 ^ 64) :
    ∃ m' as, m.exec idx (cs.map Call.entry) = some (m', as) ∧ Inv (h ++ cs) m'.shard ∧
      as.length = cs.length ∧
      (∀ i (hi : i < cs.length), ∃ a r, as[i]? = some a ∧ cs[i].told a = some r ∧
        Right (h ++ cs.take i) cs[i] r) ∧
      m'.last = (if cs = [] then m.last else idx + cs.length - 1) ∧
      m'.shard = (cs.filterMap Call.cmd).foldl (fun s c => (s.apply c).1) m.shard := by
  induction cs generalizing h m idx with
  | nil => exact ⟨m, [], rfl, by simpa using hi, rfl, fun i hi => absurd hi (Nat.not_lt_zero _), rfl, rfl⟩
  | cons c cs ih =>
    have hf := hc c List.mem_cons_self
    have hcm := commit_entry m idx hf
    simp only [List.length_cons] at hn
    obtain ⟨m', as, he, hinv, hlen, htold, hlast, hsh⟩ := ih (h ++ [c])
      ⟨(process m.shard c.request).1, idx⟩ (idx + 1) (hi.next hf)
      (fun x hx => hc x (List.mem_cons_of_mem _ hx)) (by simp; omega)
    refine ⟨m', some (repResponse.write (process m.shard c.request).2) :: as, ?_, ?_, ?_, ?_, ?_, ?_⟩
    · rw [List.map_cons, Machine.exec, hcm]
      dsimp only
      rw [he]
    · simpa using hinv
    · simp [hlen]
    · intro i hlt
      cases i with
      | zero =>
        obtain ⟨r, hr, hR⟩ := hi.told (by omega) c
        exact ⟨_, r, rfl, hr, by simpa using hR⟩
      | succ i =>
        obtain ⟨a, r, h1, h2, h3⟩ := htold i (by simpa using hlt)
        exact ⟨a, r, by simpa using h1, by simpa using h2, by simpa using h3⟩
    · rw [hlast, if_neg (List.cons_ne_nil c cs)]
      split
      · rename_i h0
        simp [h0]
      · simp only [List.length_cons]
        omega
    · rw [hsh]
      cases c <;> rfl

end Verif.Parsec.Wire
