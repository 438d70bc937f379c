import Verif.Parsec.Ticket
/-!
# Properties of the ticket machine (C49, C69)
-/
namespace Verif.Parsec.Tickets

/-! ### Specification -/

/-- The numbers handed out, by any client. -/
def numbers (s : Sys) : List Nat := s.said.filterMap fun q => q.2.2

/-- The requests a client accepted, in order. -/
def askedOf (c : Nat) (s : Sys) : List Nat :=
  s.asked.filterMap fun q => if q.1 = c then some q.2 else none

/-- The callbacks a client called, in order. -/
def saidOf (c : Nat) (s : Sys) : List Nat :=
  s.said.filterMap fun q => if q.1 = c then some q.2.1 else none

/-! ### Where every number is -/

inductive Place
  | flying
  | held (c : Nat)
  | handed
  | other

structure Inv (range : Nat) (s : Sys) (place : Nat → Place) : Prop where
  next : s.machine.next = s.served * range % limit
  range_eq : s.machine.range = range
  small : ∀ x, place x ≠ .other → x < s.served * range
  apart : s.answers.Pairwise fun a b => ∀ x ∈ batch a.2, x ∉ batch b.2
  flying : ∀ a ∈ s.answers, ∀ x ∈ batch a.2, place x = .flying
  heldOnce : ∀ c, (s.clients c).tickets.Nodup
  held : ∀ c, ∀ x ∈ (s.clients c).tickets, place x = .held c
  handedOnce : (numbers s).Nodup
  handed : ∀ x ∈ numbers s, place x = .handed

theorem batch_nodup (r : Nat × Nat) : (batch r).Nodup := List.nodup_range'

theorem apart_erase {l : List (Nat × (Nat × Nat))} {i : Nat}
    {a : Nat × (Nat × Nat)}
    (h : l.Pairwise fun a b => ∀ x ∈ batch a.2, x ∉ batch b.2)
    (ha : l[i]? = some a) :
    ∀ b ∈ l.eraseIdx i, ∀ x ∈ batch a.2, x ∉ batch b.2 := by
  induction l generalizing i with
  | nil => simp at ha
  | cons y l ih =>
    rw [List.pairwise_cons] at h
    cases i with
    | zero =>
      simp only [List.getElem?_cons_zero, Option.some.injEq] at ha
      subst ha
      intro b hb
      exact h.1 b hb
    | succ i =>
      simp only [List.getElem?_cons_succ] at ha
      intro b hb x hx hxb
      rw [List.eraseIdx_cons_succ, List.mem_cons] at hb
      rcases hb with rfl | hb
      · exact h.1 a (List.mem_of_getElem? ha) x hxb hx
      · exact ih h.2 ha b hb x hx hxb

/-- Some numbers `l`, all at client `c` or in a batch delivered to it, are
divided between the callbacks called and the client's queue. -/
theorem Inv.move {range : Nat} {s : Sys} {place : Nat → Place}
    (inv : Inv range s place) {t : Sys} {c : Nat} {l : List Nat} (k : Nat)
    (hm : t.machine = s.machine) (hs : t.served = s.served)
    (ha : t.answers.Sublist s.answers)
    (hl : l.Nodup)
    (hp : ∀ x ∈ l, place x = .held c ∨
      (place x = .flying ∧ ∀ b ∈ t.answers, x ∉ batch b.2))
    (hc : (t.clients c).tickets = l.drop k)
    (ho : ∀ y, y ≠ c → t.clients y = s.clients y)
    (hn : numbers t = numbers s ++ l.take k) :
    ∃ place, Inv range t place := by
  have hd : (l.take k ++ l.drop k).Nodup := by rwa [List.take_append_drop]
  rw [List.nodup_append] at hd
  have ht : ∀ x ∈ l.take k, x ∈ l := fun x => List.mem_of_mem_take
  have hdr : ∀ x ∈ l.drop k, x ∈ l := fun x => List.mem_of_mem_drop
  refine ⟨fun x => if x ∈ l.take k then .handed else
    if x ∈ l.drop k then .held c else place x, ?_⟩
  have hnew : ∀ x ∈ l, place x ≠ .handed ∧ place x ≠ .other := by
    intro x hx
    rcases hp x hx with h | h
    · simp [h]
    · simp [h.1]
  constructor
  · rw [hm, hs]; exact inv.next
  · rw [hm]; exact inv.range_eq
  · intro x hx
    rw [hs]
    apply inv.small
    split at hx
    · next h => exact (hnew x (ht x h)).2
    · split at hx
      · next h => exact (hnew x (hdr x h)).2
      · exact hx
  · exact inv.apart.sublist ha
  · intro a haa x hx
    have hf := inv.flying a (ha.subset haa) x hx
    have hnl : x ∉ l := by
      intro hxl
      rcases hp x hxl with h | h
      · rw [hf] at h; cases h
      · exact h.2 a haa hx
    rw [if_neg (fun h => hnl (ht x h)), if_neg (fun h => hnl (hdr x h))]
    exact hf
  · intro y
    by_cases hy : y = c
    · rw [hy, hc]; exact hd.2.1
    · rw [ho y hy]; exact inv.heldOnce y
  · intro y x hx
    by_cases hy : y = c
    · rw [hy, hc] at hx
      rw [if_neg (fun h => hd.2.2 x h x hx rfl), if_pos hx, hy]
    · rw [ho y hy] at hx
      have hh := inv.held y x hx
      have hnl : x ∉ l := by
        intro hxl
        rcases hp x hxl with h | h
        · rw [hh] at h; cases h; exact hy rfl
        · rw [hh] at h; cases h.1
      rw [if_neg (fun h => hnl (ht x h)), if_neg (fun h => hnl (hdr x h))]
      exact hh
  · rw [hn, List.nodup_append]
    refine ⟨inv.handedOnce, hd.1, ?_⟩
    intro x hx y hy hxy
    subst hxy
    exact (hnew x (ht x hy)).1 (inv.handed x hx)
  · intro x hx
    rw [hn, List.mem_append] at hx
    by_cases h : x ∈ l.take k
    · rw [if_pos h]
    · rcases hx with hx | hx
      · have hh := inv.handed x hx
        rw [if_neg h, if_neg (fun h' => (hnew x (hdr x h')).1 hh)]
        exact hh
      · exact absurd hx h

theorem numbers_update (s : Sys) (c : Nat) (x : Client) (o : Out) :
    numbers (s.update c x o) =
      numbers s ++ o.calls.filterMap fun q => q.2 := by
  simp [numbers, Sys.update, List.filterMap_append, List.filterMap_map,
    Function.comp_def]

theorem zip_numbers (l : List Nat) (m : List Nat)
    (h : m.length ≤ l.length) :
    ((l.zip (m.map some)).filterMap fun q => q.2) = m := by
  induction m generalizing l with
  | nil => simp
  | cons a m ih =>
    cases l with
    | nil => simp at h
    | cons b l =>
      simp only [List.map_cons, List.zip_cons_cons, List.filterMap_cons]
      rw [ih l (by simpa using h)]

/-- Answers and requests that vanish change nothing else. -/
theorem Inv.drop {range : Nat} {s : Sys} {place : Nat → Place}
    (inv : Inv range s place) (a : List (Nat × (Nat × Nat))) (r : List Nat)
    (ha : a.Sublist s.answers) :
    Inv range { s with answers := a, requests := r } place :=
  { inv with
    apart := inv.apart.sublist ha
    flying := fun b hb => inv.flying b (ha.subset hb) }

theorem Client.get_cases (c : Client) (cb : Nat) (ok : Bool) :
    (((c.get cb ok).1.tickets = c.tickets ∧ (c.get cb ok).2.1.calls = []) ∨
      ∃ n l, c.tickets = n :: l ∧ (c.get cb ok).1.tickets = l ∧
        (c.get cb ok).2.1.calls = [(cb, some n)]) := by
  obtain ⟨t, f, q⟩ := c
  cases t <;> simp only [Client.get] <;> (repeat' split) <;> simp_all
  all_goals exact ⟨_, _, ⟨rfl, rfl⟩, rfl, rfl⟩

theorem Inv.step {range : Nat} {s : Sys} {place : Nat → Place}
    (inv : Inv range s place) (e : Event)
    (hlim : (step s e).served * range ≤ limit) :
    ∃ place, Inv range (step s e) place := by
  cases e with
  | get c cb ok =>
    have hcl := (s.clients c).get_cases cb ok
    have hnum : numbers (Tickets.step s (.get c cb ok)) = numbers s ++
        ((s.clients c).get cb ok).2.1.calls.filterMap (fun q => q.2) := by
      simp only [Tickets.step]
      rw [numbers_update]
      split <;> rfl
    refine inv.move (c := c) (l := (s.clients c).tickets)
      (((s.clients c).get cb ok).2.1.calls.length) ?_ ?_ ?_
      (inv.heldOnce c) (fun x hx => .inl (inv.held c x hx)) ?_ ?_ ?_
    · simp only [Tickets.step, Sys.update]; split <;> rfl
    · simp only [Tickets.step, Sys.update]; split <;> rfl
    · simp only [Tickets.step, Sys.update]; split <;> exact List.Sublist.refl _
    · simp only [Tickets.step, Sys.update, if_true]
      rcases hcl with ⟨h1, h2⟩ | ⟨n, l, h0, h1, h2⟩
      · rw [h1, h2]; rfl
      · rw [h1, h2, h0]; rfl
    · intro y hy
      simp only [Tickets.step, Sys.update, if_neg hy]
      split <;> rfl
    · rw [hnum]
      rcases hcl with ⟨h1, h2⟩ | ⟨n, l, h0, h1, h2⟩
      · rw [h2]; rfl
      · rw [h2, h0]; rfl
  | serve i =>
    simp only [Tickets.step] at hlim ⊢
    split
    · exact ⟨place, inv⟩
    · next c hc =>
      rw [hc] at hlim
      simp only at hlim
      have hsucc : (s.served + 1) * range = s.served * range + range :=
        Nat.succ_mul _ _
      rw [hsucc] at hlim
      have hb : ∀ x ∈ batch s.machine.get.2,
          s.served * range ≤ x ∧ x < s.served * range + range := by
        intro x hx
        simp only [batch, Machine.get, List.mem_range'_1, inv.next,
          inv.range_eq] at hx
        unfold limit at hx hlim
        omega
      refine ⟨fun x => if x ∈ batch s.machine.get.2 then .flying else place x,
        ?_⟩
      have hold : ∀ x, place x ≠ .other → x ∉ batch s.machine.get.2 := by
        intro x hx hxb
        have := inv.small x hx
        have := (hb x hxb).1
        omega
      constructor
      · simp only [Machine.get, inv.next, inv.range_eq, hsucc]
        rw [Nat.mod_add_mod]
      · exact inv.range_eq
      · intro x hx
        simp only [hsucc]
        split at hx
        · next h => exact (hb x h).2
        · have := inv.small x hx; omega
      · rw [List.pairwise_append]
        refine ⟨inv.apart, List.pairwise_singleton _ _, ?_⟩
        intro a ha b hb' x hx hxb
        rw [List.mem_singleton] at hb'
        subst hb'
        exact hold x (by rw [inv.flying a ha x hx]; simp) hxb
      · intro a ha x hx
        rw [List.mem_append, List.mem_singleton] at ha
        split
        · rfl
        · next h =>
          rcases ha with ha | rfl
          · exact inv.flying a ha x hx
          · exact absurd hx h
      · exact inv.heldOnce
      · intro y x hx
        have hh := inv.held y x hx
        rw [if_neg (hold x (by rw [hh]; simp))]
        exact hh
      · exact inv.handedOnce
      · intro x hx
        have hh := inv.handed x hx
        rw [if_neg (hold x (by rw [hh]; simp))]
        exact hh
  | deliver i ok =>
    simp only [Tickets.step] at hlim ⊢
    split
    · exact ⟨place, inv⟩
    · next a ha =>
      have hmem := List.mem_of_getElem? ha
      refine inv.move (c := a.1) (l := (s.clients a.1).tickets ++ batch a.2)
        (min ((s.clients a.1).tickets ++ batch a.2).length
          (s.clients a.1).callbacks.length) rfl rfl
        (List.eraseIdx_sublist _ _) ?_ ?_ ?_ ?_ ?_
      · rw [List.nodup_append]
        refine ⟨inv.heldOnce _, batch_nodup _, ?_⟩
        intro x hx y hy hxy
        subst hxy
        have h1 := inv.held _ x hx
        rw [inv.flying a hmem x hy] at h1
        cases h1
      · intro x hx
        rw [List.mem_append] at hx
        rcases hx with hx | hx
        · exact .inl (inv.held _ x hx)
        · exact .inr ⟨inv.flying a hmem x hx, fun b hb =>
            apart_erase inv.apart ha b hb x hx⟩
      · simp only [Sys.update, if_true, Client.batch]
      · intro y hy
        simp only [Sys.update, if_neg hy]
      · rw [numbers_update]
        simp only [Client.batch]
        rw [zip_numbers _ _ (by simp only [List.length_take]; omega)]
        rfl
  | fail i =>
    simp only [Tickets.step] at hlim ⊢
    split
    · exact ⟨place, inv⟩
    · next c hc =>
      refine inv.move (c := c) (l := (s.clients c).tickets) 0 rfl rfl
        (List.Sublist.refl _)
        (inv.heldOnce c) (fun x hx => .inl (inv.held c x hx)) ?_ ?_ ?_
      · simp only [Sys.update, if_true, Client.fail, List.drop_zero]
      · intro y hy
        simp only [Sys.update, if_neg hy]
      · rw [numbers_update]
        simp only [Client.fail, List.filterMap_map, Function.comp_def,
          List.take_zero, List.append_nil]
        simp [numbers]
  | loseRequest i =>
    exact ⟨place, inv.drop _ _ (List.Sublist.refl _)⟩
  | loseAnswer i =>
    exact ⟨place, inv.drop _ _ (List.eraseIdx_sublist _ _)⟩

theorem served_mono (s : Sys) (e : Event) : s.served ≤ (step s e).served := by
  cases e <;> simp only [step] <;> (repeat' split) <;>
    simp [Sys.update]

theorem Reach.inv {range : Nat} {s : Sys} (h : Reach range s)
    (hlim : s.served * range ≤ limit) : ∃ place, Inv range s place := by
  induction h with
  | start =>
    refine ⟨fun _ => .other, ?_⟩
    constructor <;> simp [numbers, limit]
  | @step s h e ih =>
    obtain ⟨place, inv⟩ := ih (Nat.le_trans
      (Nat.mul_le_mul_right _ (served_mono s e)) hlim)
    exact inv.step e hlim

/-- **C49.**  Until the machine has given out 2^64 numbers, no number is handed
out twice, whatever the number of clients and the order of events. -/
theorem C49_unique {range : Nat} {s : Sys} (h : Reach range s)
    (hlim : s.served * range ≤ 2 ^ 64) : (numbers s).Nodup := by
  obtain ⟨_, inv⟩ := h.inv hlim
  exact inv.handedOnce

/-- **C49.**  Every number handed out belongs to a batch the machine gave
out. -/
theorem C49_issued {range : Nat} {s : Sys} (h : Reach range s)
    (hlim : s.served * range ≤ 2 ^ 64) :
    ∀ n ∈ numbers s, n < s.served * range := by
  obtain ⟨_, inv⟩ := h.inv hlim
  intro n hn
  exact inv.small n (by rw [inv.handed n hn]; simp)

/-- The machine itself starts again at zero once the counter wraps, so the bound
is needed. -/
theorem C49_wraps :
    let m : Machine := { range := 2 ^ 63 }
    m.get.2 = (0, 2 ^ 63) ∧ m.get.1.get.1.get.2 = (0, 2 ^ 63) := by
  decide

/-! ### C69: every request is answered once, in order -/

structure QInv (s : Sys) : Prop where
  order : ∀ c, askedOf c s = saidOf c s ++ (s.clients c).callbacks
  full : ∀ c, (s.clients c).tickets ≠ [] → (s.clients c).callbacks = []

theorem saidOf_update (s : Sys) (c d : Nat) (x : Client) (o : Out) :
    saidOf d (s.update c x o) = saidOf d s ++
      if c = d then o.calls.map (·.1) else [] := by
  simp only [saidOf, Sys.update, List.filterMap_append, List.filterMap_map,
    Function.comp_def]
  split <;> simp

theorem QInv.update {s : Sys} (inv : QInv s) (c : Nat) (x : Client) (o : Out)
    (ho : (s.clients c).callbacks = o.calls.map (·.1) ++ x.callbacks)
    (hf : x.tickets ≠ [] → x.callbacks = []) : QInv (s.update c x o) := by
  constructor
  · intro d
    rw [saidOf_update]
    have := inv.order d
    by_cases h : c = d
    · subst h
      rw [if_pos rfl]
      rw [ho] at this
      simp only [Sys.update, if_true]
      simpa [askedOf] using this
    · rw [if_neg h]
      simp only [Sys.update, if_neg (Ne.symm h)]
      simpa [askedOf] using this
  · intro d
    simp only [Sys.update]
    split
    · exact hf
    · exact inv.full d

theorem QInv.get {s : Sys} (inv : QInv s) (c cb : Nat) (ok : Bool) :
    QInv (Tickets.step s (.get c cb ok)) := by
  have hf := inv.full c
  have key : (s.clients c).callbacks ++
        (if ((s.clients c).get cb ok).2.2 then [cb] else []) =
        ((s.clients c).get cb ok).2.1.calls.map (·.1) ++
          ((s.clients c).get cb ok).1.callbacks ∧
      (((s.clients c).get cb ok).1.tickets ≠ [] →
        ((s.clients c).get cb ok).1.callbacks = []) := by
    generalize s.clients c = x at hf
    obtain ⟨t, f, q⟩ := x
    cases t <;> simp only [Client.get] <;> (repeat' split) <;> simp_all
  constructor
  · intro d
    have := inv.order d
    simp only [Tickets.step]
    rw [saidOf_update]
    by_cases h : c = d
    · subst h
      rw [if_pos rfl]
      simp only [Sys.update, if_true]
      rw [show ∀ (z : Sys), saidOf c (if ((s.clients c).get cb ok).2.2 = true
        then { s with asked := s.asked ++ [(c, cb)] } else s) = saidOf c s from
        fun _ => by split <;> rfl]
      rw [List.append_assoc, ← key.1, ← List.append_assoc, ← this]
      split <;> simp [askedOf]
      exact s
    · rw [if_neg h]
      simp only [Sys.update, if_neg (Ne.symm h)]
      split <;> simpa [askedOf, saidOf, h] using this
  · intro d
    simp only [Tickets.step, Sys.update]
    split
    · exact key.2
    · have := inv.full d
      split <;> exact this

theorem Reach.queue {range : Nat} {s : Sys} (h : Reach range s) : QInv s := by
  induction h with
  | start => constructor <;> simp [askedOf, saidOf]
  | @step s h e inv =>
    cases e with
    | get c cb ok => exact inv.get c cb ok
    | serve i =>
      simp only [Tickets.step]
      split
      · exact inv
      · exact ⟨inv.order, inv.full⟩
    | deliver i ok =>
      simp only [Tickets.step]
      split
      · exact inv
      · next a ha =>
        have inv' : QInv { s with answers := s.answers.eraseIdx i } :=
          ⟨inv.order, inv.full⟩
        apply inv'.update
        · simp only [Client.batch]
          rw [List.map_fst_zip (by
            simp only [List.length_take, List.length_map]; omega)]
          exact (List.take_append_drop _ _).symm
        · simp only [Client.batch, ne_eq, List.drop_eq_nil_iff]
          omega
    | fail i =>
      simp only [Tickets.step]
      split
      · exact inv
      · next c hc =>
        have inv' : QInv { s with requests := s.requests.eraseIdx i } :=
          ⟨inv.order, inv.full⟩
        apply inv'.update
        · simp [Client.fail, Function.comp_def]
        · simp [Client.fail]
    | loseRequest i => exact ⟨inv.order, inv.full⟩
    | loseAnswer i => exact ⟨inv.order, inv.full⟩

/-- **C69.**  A client calls the callbacks of the requests it accepted in the
order of the requests, each once; those not called are waiting. -/
theorem C69_order {range : Nat} {s : Sys} (h : Reach range s) (c : Nat) :
    askedOf c s = saidOf c s ++ (s.clients c).callbacks :=
  h.queue.order c

/-- **C69.**  No client keeps a request waiting while it has numbers. -/
theorem C69_prompt {range : Nat} {s : Sys} (h : Reach range s) (c : Nat)
    (hc : (s.clients c).tickets ≠ []) : askedOf c s = saidOf c s := by
  rw [h.queue.order c, h.queue.full c hc, List.append_nil]

/-- **C69.**  Nothing waits after an error was answered. -/
theorem C69_error {range : Nat} {s : Sys} (h : Reach range s) {i c : Nat}
    (hi : s.requests[i]? = some c) :
    askedOf c (step s (.fail i)) = saidOf c (step s (.fail i)) := by
  rw [(Reach.step h (.fail i)).queue.order c]
  simp [step, hi, Sys.update, Client.fail]

def run (range : Nat) (es : List Event) : Sys :=
  es.foldl step { machine := { range } }

theorem run_reach (range : Nat) (es : List Event) :
    Reach range (run range es) := by
  have : ∀ s, Reach range s → Reach range (es.foldl step s) := by
    induction es with
    | nil => exact fun _ h => h
    | cons e es ih => exact fun s h => ih _ (h.step e)
  exact this _ .start

/-- Two clients, two batches that arrive in the other order. -/
example :
    numbers (run 2 [.get 0 1 true, .get 1 2 true, .get 1 3 true, .serve 0,
      .serve 0, .get 0 4 true, .deliver 1 true, .deliver 0 true]) =
      [2, 3, 0, 1] ∧
    (run 2 [.get 0 1 true, .get 1 2 true, .get 1 3 true, .serve 0,
      .serve 0, .get 0 4 true, .deliver 1 true, .deliver 0 true]).served * 2
      ≤ 2 ^ 64 := ⟨rfl, by decide⟩

/-- **C69 is violated when an answer is lost:** the client waits for ever; no
request is sent again, whatever is asked of it afterwards. -/
theorem C69_stuck_violated : ∃ es, ∀ cbs : List (Nat × Bool),
    let s := (cbs.map fun q => Event.get 0 q.1 q.2).foldl step (run 1000 es)
    s.requests = [] ∧ s.answers = [] ∧ saidOf 0 s = [] ∧
      askedOf 0 s = 7 :: cbs.map (·.1) := by
  refine ⟨[.get 0 7 true, .serve 0, .loseAnswer 0], ?_⟩
  intro cbs
  have key : ∀ (s : Sys) (l : List (Nat × Bool)),
      s.requests = [] → s.answers = [] → saidOf 0 s = [] →
      (s.clients 0).tickets = [] → (s.clients 0).fetching = true →
      let t := (l.map fun q => Event.get 0 q.1 q.2).foldl step s
      t.requests = [] ∧ t.answers = [] ∧ saidOf 0 t = [] ∧
        askedOf 0 t = askedOf 0 s ++ l.map (·.1) := by
    intro s l
    induction l generalizing s with
    | nil => intro h1 h2 h3 _ _; simp [h1, h2, h3]
    | cons q l ih =>
      intro h1 h2 h3 h4 h5
      have hg : (s.clients 0).get q.1 q.2 = ({ s.clients 0 with
          callbacks := (s.clients 0).callbacks ++ [q.1] }, {}, true) := by
        simp [Client.get, h4, h5]
      have hs : step s (.get 0 q.1 q.2) =
          ({ s with asked := s.asked ++ [(0, q.1)] } : Sys).update 0
            { s.clients 0 with callbacks := (s.clients 0).callbacks ++ [q.1] }
            {} := by
        simp only [step, hg, if_true]
      have := ih (step s (.get 0 q.1 q.2)) (by simp [hs, Sys.update, h1])
        (by simp [hs, Sys.update, h2])
        (by rw [hs, saidOf_update]; simp; exact h3)
        (by simp [hs, Sys.update, h4]) (by simp [hs, Sys.update, h5])
      simp only [List.map_cons, List.foldl_cons]
      refine ⟨this.1, this.2.1, this.2.2.1, ?_⟩
      rw [this.2.2.2, hs]
      simp [askedOf, Sys.update]
  exact key _ _ rfl rfl rfl rfl rfl

end Verif.Parsec.Tickets
