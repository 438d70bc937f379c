import Verif.Net.Lemmas

/-! What holds of a peer and the remote node at all times. -/
namespace Verif.Net

open Verif.Serial

/-- Whether a packet can be announced. -/
def Fits (ms : List Bytes) : Prop := ∀ m ∈ ms, m.length < 2 ^ 64

/-- What holds of a connection when the packets `pushed` have been handed to the peer. -/
structure ConnInv (alloc : Nat → Bool) (pushed : List Bytes) (c : Conn) : Prop where
  ok : c.rcv.Ok
  sized : Fits c.got
  source : ∀ m ∈ c.sent, m ∈ pushed
  wire : ∃ part rest m, c.stream = frames c.sent ++ part ∧ part ++ rest = frame m ∧ rest ≠ [] ∧
    m.length < 2 ^ 64 ∧ (part = [] ∨ m ∈ pushed)
  got : c.got <+: c.sent
  read : c.rcv ≠ .crashed → c.taken ≤ c.stream.length ∧
    c.stream.take c.taken = frames c.got ++ c.rcv.partial
  alive : (∀ m ∈ pushed, alloc m.length = true) → c.rcv ≠ .crashed

theorem ConnInv.mono {alloc : Nat → Bool} {ps qs : List Bytes} {c : Conn} (h : ConnInv alloc ps c)
    (hsub : ∀ m ∈ ps, m ∈ qs) : ConnInv alloc qs c where
  ok := h.ok
  sized := h.sized
  source m hm := hsub m (h.source m hm)
  wire := by
    obtain ⟨a, b, m, h1, h2, h3, h4, h5⟩ := h.wire
    exact ⟨a, b, m, h1, h2, h3, h4, h5.imp_right (hsub m)⟩
  got := h.got
  read := h.read
  alive ha := h.alive fun m hm => ha m (hsub m hm)

theorem connInv_new (alloc : Nat → Bool) (ps : List Bytes) : ConnInv alloc ps .new where
  ok := by simp [Conn.new, Receiving.start, Receiving.Ok]
  sized := by simp [Conn.new, Fits]
  source := by simp [Conn.new]
  wire := ⟨[], frame [], [], by simp [Conn.new, frames], rfl, by simp [frame, encInt], by simp, .inl rfl⟩
  got := List.prefix_refl _
  read _ := by simp [Conn.new, frames, Receiving.start, Receiving.partial]
  alive _ := by simp [Conn.new, Receiving.start]

/-- The remote node reads. -/
theorem ConnInv.arrive {alloc : Nat → Bool} {ps : List Bytes} {c : Conn} (h : ConnInv alloc ps c)
    (hps : Fits ps) {k : Nat} (hw : k ≤ c.rcv.wanted) (hk0 : 0 < k)
    (hk : ((c.stream.drop c.taken).take k).length = k) :
    ConnInv alloc ps { c with
      taken := c.taken + k
      rcv := (c.rcv.read alloc ((c.stream.drop c.taken).take k)).1
      got := c.got ++ (c.rcv.read alloc ((c.stream.drop c.taken).take k)).2.toList } := by
  have hnc : c.rcv ≠ .crashed := by
    intro hc; rw [hc] at hw; simp only [Receiving.wanted] at hw; omega
  obtain ⟨hle, hread⟩ := h.read hnc
  have hfits : Fits c.sent := fun m hm => hps m (h.source m hm)
  obtain ⟨part, rest, m, hstream, hpart, hrest, hm, hmp⟩ := h.wire
  have hk' : c.taken + k ≤ c.stream.length := by
    rw [List.length_take, List.length_drop] at hk; omega
  have htake : c.stream.take (c.taken + k) =
      frames c.got ++ (c.rcv.partial ++ (c.stream.drop c.taken).take k) := by
    rw [List.take_add, hread, List.append_assoc]
  generalize hbs : (c.stream.drop c.taken).take k = bs at *
  have hkeep := read_keeps alloc c.rcv bs h.ok (by rw [hk]; exact hw)
  have hsized : Fits (c.got ++ (c.rcv.read alloc bs).2.toList) := by
    intro a ha
    rcases List.mem_append.mp ha with ha | ha
    · exact h.sized a ha
    · exact hkeep.2.2 a (by simpa using ha)
  have hread' : (c.rcv.read alloc bs).1 ≠ .crashed → c.stream.take (c.taken + k) =
      frames (c.got ++ (c.rcv.read alloc bs).2.toList) ++ (c.rcv.read alloc bs).1.partial := by
    intro hne
    rw [htake, hkeep.2.1 hne, frames_append, List.append_assoc]
  refine ⟨hkeep.1, hsized, h.source, ⟨part, rest, m, hstream, hpart, hrest, hm, hmp⟩, ?_,
    fun hne => ⟨hk', hread' hne⟩, ?_⟩
  · by_cases hne : (c.rcv.read alloc bs).1 = .crashed
    · have : (c.rcv.read alloc bs).2 = none := by
        revert hne
        unfold Receiving.read
        split <;> (try split) <;> (try split) <;> (try split) <;> simp [Receiving.start]
      dsimp only
      rw [this]
      simpa using h.got
    · refine frames_prefix (x := c.stream.drop (c.taken + k)) hfits hsized hm hpart hrest ?_
        (p := (c.rcv.read alloc bs).1.partial)
      rw [← hread' hne, List.take_append_drop, hstream]
  · intro ha hcr
    -- the size that was read is that of a packet
    cases hr : c.rcv with
    | body sz pkt =>
      rw [hr] at hcr
      dsimp only [Receiving.read] at hcr
      split at hcr <;> simp [Receiving.start] at hcr
    | crashed => exact hnc hr
    | size sofar =>
      rw [hr] at hcr htake hw
      have hok := h.ok
      rw [hr] at hok
      simp only [Receiving.Ok] at hok
      simp only [Receiving.wanted] at hw
      dsimp only [Receiving.read] at hcr
      simp only [Receiving.partial] at htake
      split at hcr
      · exact absurd hcr (by simp)
      · next hlen =>
        have hlen8 : (sofar ++ bs).length = 8 := by
          have : (sofar ++ bs).length = sofar.length + bs.length := List.length_append
          omega
        have hsz : ∃ a ∈ ps, sofar ++ bs = encInt 8 a.length := by
          obtain ⟨more, hmore⟩ := h.got
          have heq : frames c.got ++ ((sofar ++ bs) ++ c.stream.drop (c.taken + k)) =
              frames c.got ++ (frames more ++ part) := by
            rw [← List.append_assoc, ← htake, List.take_append_drop, hstream, ← hmore,
              frames_append, List.append_assoc]
          have heq := List.append_cancel_left heq
          cases more with
          | cons b more =>
            refine ⟨b, h.source b (by rw [← hmore]; simp), ?_⟩
            rw [frames_cons, frame] at heq
            have heq : (sofar ++ bs) ++ c.stream.drop (c.taken + k) =
                encInt 8 b.length ++ (b ++ (frames more ++ part)) := by
              rw [heq]; simp only [List.append_assoc]
            exact (List.append_inj heq (by rw [hlen8, encInt_length])).1
          | nil =>
            simp only [frames, List.flatMap_nil, List.nil_append] at heq
            have hne : part ≠ [] := by
              intro h0
              rw [h0] at heq
              have := congrArg List.length heq
              rw [List.length_append, hlen8] at this
              simp only [List.length_nil] at this
              omega
            refine ⟨m, hmp.resolve_left hne, ?_⟩
            have h2 := congrArg (· ++ rest) heq
            simp only [hpart, frame] at h2
            rw [List.append_assoc (sofar ++ bs)] at h2
            exact (List.append_inj h2 (by rw [hlen8, encInt_length])).1
        obtain ⟨a, hap, hae⟩ := hsz
        have hval : leNat (sofar ++ bs) = a.length := by
          rw [hae, leNat_encInt _ _ (by rw [pow256_8]; exact hps a hap)]
        rw [hval] at hcr
        rw [ha a hap] at hcr
        simp only [Bool.not_true, Bool.false_eq_true, if_false] at hcr
        split at hcr <;> simp [Receiving.start] at hcr

/-- What the send thread is doing on the connection. -/
def Busy (pushed : List Bytes) (c : Conn) : Option (Bytes × Sending) → Prop
  | none => c.stream = frames c.sent
  | some (m, w) => m ∈ pushed ∧ w.done = false ∧ c.stream ++ (w.hdr ++ w.body) = frames c.sent ++ frame m

/-- What holds of the peer. -/
structure Inv (alloc : Nat → Bool) (s : Link) : Prop where
  conns : ∀ c ∈ s.conns, ConnInv alloc s.pushed c
  busy : s.up = true → ∀ c ∈ s.conns.head?, Busy s.pushed c s.sending
  idle : s.up = false → s.sending = none
  nonempty : s.conns ≠ []
  order : List.Sublist
    ((s.conns.reverse.flatMap (·.sent)) ++ ((s.sending.map (·.1)).toList ++ s.queue)) s.pushed

theorem inv_init (alloc : Nat → Bool) : Inv alloc .init where
  conns c hc := by
    rw [List.mem_singleton.mp hc]
    exact connInv_new alloc _
  busy _ c hc := by
    simp only [Link.init, List.head?_cons, Option.mem_def, Option.some.injEq] at hc
    rw [← hc]
    simp [Link.init, Busy, Conn.new, frames]
  idle _ := rfl
  nonempty := by simp [Link.init]
  order := by simp [Link.init, Conn.new]

theorem write_split (w : Sending) (k : Nat) :
    (w.write k).1 ++ ((w.write k).2.hdr ++ (w.write k).2.body) = w.hdr ++ w.body := by
  unfold Sending.write
  split
  · next h =>
    have : w.hdr = [] := by simpa using h
    simp [this]
  · simp only
    rw [← List.append_assoc, List.take_append_drop]

theorem set_flatMap_sent (l : List Conn) (i : Nat) (c c' : Conn) (h : l[i]? = some c)
    (hs : c'.sent = c.sent) :
    (l.set i c').reverse.flatMap (·.sent) = l.reverse.flatMap (·.sent) := by
  have : (l.set i c').map (·.sent) = l.map (·.sent) := by
    apply List.ext_getElem?
    intro j
    rw [List.getElem?_map, List.getElem?_map, List.getElem?_set]
    split
    · next hij =>
      subst hij
      split
      · simp [h, hs]
      · next hlt => simp [List.getElem?_eq_none (Nat.le_of_not_lt hlt)]
    · rfl
  rw [List.flatMap_def, List.flatMap_def, List.map_reverse, List.map_reverse, this]

theorem inv_step {alloc : Nat → Bool} {s s' : Link} {e : Event} (h : Inv alloc s)
    (hfit : Fits s.pushed) (hs : step alloc s e = some s') : Inv alloc s' := by
  cases e with
  | push pkt =>
    simp only [step, Option.some.injEq] at hs
    subst hs
    have hsub : ∀ m ∈ s.pushed, m ∈ s.pushed ++ [pkt] := fun m hm => List.mem_append_left _ hm
    refine ⟨fun c hc => (h.conns c hc).mono hsub, ?_, h.idle, h.nonempty, ?_⟩
    · intro hu c hc
      have := h.busy hu c hc
      revert this
      show Busy s.pushed c s.sending → Busy (s.pushed ++ [pkt]) c s.sending
      cases s.sending with
      | none => exact id
      | some w => exact fun hb => ⟨hsub _ hb.1, hb.2⟩
    · have := List.Sublist.append h.order (List.Sublist.refl [pkt])
      simpa [List.append_assoc] using this
  | pop =>
    simp only [step] at hs
    split at hs
    · next pkt q hu hsd hq =>
      simp only [Option.some.injEq] at hs
      subst hs
      have ho := h.order
      rw [hsd, hq] at ho
      have hmem : pkt ∈ s.pushed := ho.subset (by simp)
      refine ⟨h.conns, ?_, fun h0 => absurd (h0.symm.trans hu) (by simp), h.nonempty, ?_⟩
      · intro _ c hc
        have := h.busy hu c hc
        rw [hsd] at this
        refine ⟨hmem, ?_, ?_⟩
        · have : (encInt 8 pkt.length).isEmpty = false := by simp [encInt]
          simp [Sending.done, Sending.start, this]
        · show c.stream ++ (encInt 8 pkt.length ++ pkt) = _
          rw [this]; rfl
      · simpa using ho
    · exact absurd hs (by simp)
  | write k =>
    simp only [step] at hs
    split at hs
    · next pkt w c cs hsd hcs =>
      have hu : s.up = true := by
        cases hup : s.up with
        | true => rfl
        | false => have := h.idle hup; rw [hsd] at this; cases this
      have hb := h.busy hu c (by rw [hcs]; rfl)
      rw [hsd] at hb
      obtain ⟨hmp, hnd, hst⟩ := hb
      have hci := h.conns c (by rw [hcs]; simp)
      have hsp := write_split w k
      have hst' : c.stream ++ (w.write k).1 ++ ((w.write k).2.hdr ++ (w.write k).2.body) =
          frames c.sent ++ frame pkt := by
        rw [List.append_assoc, hsp, hst]
      have hrd : ∀ (sent' : List Bytes), c.sent <+: sent' → (∀ m ∈ sent', m ∈ s.pushed) →
          (∃ part rest m, c.stream ++ (w.write k).1 = frames sent' ++ part ∧ part ++ rest = frame m ∧
            rest ≠ [] ∧ m.length < 2 ^ 64 ∧ (part = [] ∨ m ∈ s.pushed)) →
          ConnInv alloc s.pushed { c with stream := c.stream ++ (w.write k).1, sent := sent' } := by
        intro sent' hpre hall hwire
        refine ⟨hci.ok, hci.sized, hall, hwire, hci.got.trans hpre, ?_, hci.alive⟩
        intro hne
        have := hci.read hne
        refine ⟨by simp only [List.length_append]; omega, ?_⟩
        rw [List.take_append_of_le_length this.1]
        exact this.2
      split at hs
      · split at hs
        · -- the packet is sent
          next hdone =>
          simp only [Option.some.injEq] at hs
          subst hs
          simp only [Sending.done, Bool.and_eq_true, List.isEmpty_iff] at hdone
          rw [hdone.1, hdone.2, List.append_nil, List.append_nil] at hst'
          have hst2 : c.stream ++ (w.write k).1 = frames (c.sent ++ [pkt]) := by
            rw [hst', frames_append, frames_one]
          refine ⟨?_, ?_, fun h0 => absurd (h0.symm.trans hu) (by simp), by simp, ?_⟩
          · intro x hx
            rcases List.mem_cons.mp hx with rfl | hx
            · refine hrd _ (List.prefix_append _ _) ?_ ⟨[], frame [], [], by rw [hst2, List.append_nil],
                rfl, by simp [frame, encInt], by simp, .inl rfl⟩
              intro m hm
              rcases List.mem_append.mp hm with hm | hm
              · exact hci.source m hm
              · rw [List.mem_singleton.mp hm]; exact hmp
            · exact h.conns x (by rw [hcs]; simp [hx])
          · intro _ x hx
            simp only [List.head?_cons, Option.mem_def, Option.some.injEq] at hx
            rw [← hx]
            exact hst2
          · have ho := h.order
            rw [hsd, hcs] at ho
            simpa using ho
        · next hdone =>
          simp only [Option.some.injEq] at hs
          subst hs
          refine ⟨?_, ?_, fun h0 => absurd (h0.symm.trans hu) (by simp), by simp, ?_⟩
          · intro x hx
            rcases List.mem_cons.mp hx with rfl | hx
            · refine hrd _ (List.prefix_refl _) hci.source ?_
              obtain ⟨part, rest, m, h1, -⟩ := hci.wire
              have h2 := hst'
              rw [h1, List.append_assoc, List.append_assoc] at h2
              have h3 := List.append_cancel_left h2
              refine ⟨part ++ (w.write k).1, (w.write k).2.hdr ++ (w.write k).2.body, pkt,
                by rw [h1, List.append_assoc], by rw [List.append_assoc]; exact h3, ?_,
                hfit pkt hmp, .inr hmp⟩
              intro h0
              simp only [List.append_eq_nil_iff] at h0
              apply hdone
              simp [Sending.done, h0.1, h0.2]
            · exact h.conns x (by rw [hcs]; simp [hx])
          · intro _ x hx
            simp only [List.head?_cons, Option.mem_def, Option.some.injEq] at hx
            rw [← hx]
            exact ⟨hmp, by simpa using hdone, hst'⟩
          · have ho := h.order
            rw [hsd, hcs] at ho
            simpa using ho
      · exact absurd hs (by simp)
    · exact absurd hs (by simp)
  | fail =>
    simp only [step, Option.some.injEq] at hs
    subst hs
    refine ⟨h.conns, fun h0 => absurd h0 (by simp), fun _ => rfl, h.nonempty, ?_⟩
    refine List.Sublist.trans ?_ h.order
    exact List.Sublist.append (List.Sublist.refl _) (by simp)
  | close =>
    simp only [step, Option.some.injEq] at hs
    subst hs
    refine ⟨h.conns, fun h0 => absurd h0 (by simp), fun _ => rfl, h.nonempty, ?_⟩
    refine List.Sublist.trans ?_ h.order
    exact List.Sublist.append (List.Sublist.refl _) (by simp)
  | reconnect =>
    simp only [step] at hs
    split at hs
    · exact absurd hs (by simp)
    · next hu =>
      simp only [Option.some.injEq] at hs
      subst hs
      have hsd := h.idle (by simpa using hu)
      refine ⟨?_, ?_, fun h0 => absurd h0 (by simp), by simp, ?_⟩
      · intro x hx
        rcases List.mem_cons.mp hx with rfl | hx
        · exact connInv_new alloc _
        · exact h.conns x hx
      · intro _ x hx
        simp only [List.head?_cons, Option.mem_def, Option.some.injEq] at hx
        rw [← hx]
        show Busy _ _ s.sending
        rw [hsd]
        simp [Busy, Conn.new, frames]
      · simpa [Conn.new] using h.order
  | arrive i k =>
    simp only [step] at hs
    split at hs
    · next c hc =>
      split at hs
      · next hcond =>
        simp only [Bool.and_eq_true, decide_eq_true_eq, beq_iff_eq] at hcond
        simp only [Option.some.injEq] at hs
        subst hs
        have hmem := List.mem_of_getElem? hc
        refine ⟨?_, ?_, h.idle, ?_, ?_⟩
        · intro x hx
          rcases List.mem_or_eq_of_mem_set hx with hx | rfl
          · exact h.conns x hx
          · exact (h.conns c hmem).arrive hfit hcond.1.2 hcond.1.1 hcond.2
        · intro hu x hx
          cases hcs : s.conns with
          | nil => exact absurd hcs h.nonempty
          | cons d ds =>
            dsimp only at hx
            rw [hcs] at hx hc
            cases i with
            | zero =>
              simp only [List.getElem?_cons_zero, Option.some.injEq] at hc
              simp only [List.set_cons_zero, List.head?_cons, Option.mem_def,
                Option.some.injEq] at hx
              have := h.busy hu d (by rw [hcs]; rfl)
              rw [← hx]
              rw [hc] at this
              revert this
              show Busy s.pushed c s.sending → Busy s.pushed _ s.sending
              cases s.sending <;> exact id
            | succ i =>
              simp only [List.set_cons_succ, List.head?_cons, Option.mem_def,
                Option.some.injEq] at hx
              rw [← hx]
              exact h.busy hu d (by rw [hcs]; rfl)
        · intro h0
          have := congrArg List.length h0
          simp only [List.length_set, List.length_nil] at this
          exact h.nonempty (List.length_eq_zero_iff.mp this)
        · dsimp only
          rw [set_flatMap_sent _ _ _ _ hc]
          · exact h.order
          · rfl
      · exact absurd hs (by simp)
    · exact absurd hs (by simp)

theorem pushed_grows {alloc : Nat → Bool} {s s' : Link} {e : Event}
    (hs : step alloc s e = some s') : s.pushed <+: s'.pushed := by
  cases e with
  | push pkt =>
    simp only [step, Option.some.injEq] at hs
    subst hs
    exact List.prefix_append _ _
  | pop =>
    simp only [step] at hs
    split at hs
    · simp only [Option.some.injEq] at hs; subst hs; exact List.prefix_refl _
    · exact absurd hs (by simp)
  | write k =>
    simp only [step] at hs
    split at hs
    · split at hs
      · split at hs <;> (simp only [Option.some.injEq] at hs; subst hs; exact List.prefix_refl _)
      · exact absurd hs (by simp)
    · exact absurd hs (by simp)
  | fail => simp only [step, Option.some.injEq] at hs; subst hs; exact List.prefix_refl _
  | close => simp only [step, Option.some.injEq] at hs; subst hs; exact List.prefix_refl _
  | reconnect =>
    simp only [step] at hs
    split at hs
    · exact absurd hs (by simp)
    · simp only [Option.some.injEq] at hs; subst hs; exact List.prefix_refl _
  | arrive i k =>
    simp only [step] at hs
    split at hs
    · split at hs
      · simp only [Option.some.injEq] at hs; subst hs; exact List.prefix_refl _
      · exact absurd hs (by simp)
    · exact absurd hs (by simp)

theorem run_pushed {alloc : Nat → Bool} {es : List Event} {s s' : Link}
    (hr : run alloc s es = some s') : s.pushed <+: s'.pushed := by
  induction es generalizing s with
  | nil => simp only [run, Option.some.injEq] at hr; rw [hr]; exact List.prefix_refl _
  | cons e es ih =>
    simp only [run, Option.bind_eq_some_iff] at hr
    obtain ⟨t, ht, hr⟩ := hr
    exact (pushed_grows ht).trans (ih hr)

theorem inv_run {alloc : Nat → Bool} {es : List Event} {s s' : Link} (h : Inv alloc s)
    (hr : run alloc s es = some s') (hfit : Fits s'.pushed) : Inv alloc s' := by
  induction es generalizing s with
  | nil => simp only [run, Option.some.injEq] at hr; rw [← hr]; exact h
  | cons e es ih =>
    have hr0 := hr
    simp only [run, Option.bind_eq_some_iff] at hr
    obtain ⟨t, ht, hr⟩ := hr
    exact ih (inv_step h (fun m hm => hfit m ((run_pushed hr0).subset hm)) ht) hr

end Verif.Net
