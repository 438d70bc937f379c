import Verif.Net.Inv

/-!
# C90, C91: what crosses a connection
-/
namespace Verif.Net

open Verif.Serial

/-! ### C90: packets arrive whole, in order and at most once -/

/-- What the remote node was given, connection after connection. -/
def Link.delivered (s : Link) : List Bytes := s.conns.reverse.flatMap (·.got)

theorem flatMap_sublist {α β : Type} (l : List α) (f g : α → List β)
    (h : ∀ a ∈ l, List.Sublist (f a) (g a)) : List.Sublist (l.flatMap f) (l.flatMap g) := by
  induction l with
  | nil => simp
  | cons a l ih =>
    rw [List.flatMap_cons, List.flatMap_cons]
    exact List.Sublist.append (h a (by simp)) (ih fun b hb => h b (by simp [hb]))

/-- **C90, partial.** However the system splits writes and reads, and whatever connections fail, are
closed and made anew: the packets given to the callbacks of the remote node, connection after
connection, are packets that were sent, unchanged, in the order of sending, none twice.  Missing: the
order in time between connections, `C90_order_violated`. -/
theorem C90_order_partial {alloc : Nat → Bool} {es : List Event} {s : Link}
    (hr : run alloc .init es = some s) (hfit : ∀ m ∈ s.pushed, m.length < 2 ^ 64) :
    List.Sublist s.delivered s.pushed := by
  have h := inv_run (inv_init alloc) hr hfit
  refine List.Sublist.trans ?_ ((List.sublist_append_left _ _).trans h.order)
  exact flatMap_sublist _ _ _ fun c hc =>
    (h.conns c (List.mem_reverse.mp hc)).got.sublist

/-- The connection never failed and was never closed. -/
def Calm (es : List Event) : Prop := ∀ e ∈ es, e ≠ .fail ∧ e ≠ .close

theorem calm_step {alloc : Nat → Bool} {s s' : Link} {e : Event}
    (hs : step alloc s e = some s') (hc : e ≠ .fail ∧ e ≠ .close)
    (h : s.up = true ∧ s.conns.length = 1 ∧
      s.conns.flatMap (·.sent) ++ ((s.sending.map (·.1)).toList ++ s.queue) = s.pushed) :
    s'.up = true ∧ s'.conns.length = 1 ∧
      s'.conns.flatMap (·.sent) ++ ((s'.sending.map (·.1)).toList ++ s'.queue) = s'.pushed := by
  obtain ⟨hu, hl, ho⟩ := h
  cases e with
  | push pkt =>
    simp only [step, Option.some.injEq] at hs
    subst hs
    refine ⟨hu, hl, ?_⟩
    dsimp only
    rw [← ho]; simp
  | pop =>
    simp only [step] at hs
    split at hs
    · next pkt q _ hsd hq =>
      simp only [Option.some.injEq] at hs
      subst hs
      refine ⟨hu, hl, ?_⟩
      rw [hsd, hq] at ho
      simpa using ho
    · exact absurd hs (by simp)
  | write k =>
    simp only [step] at hs
    split at hs
    · next pkt w c cs hsd hcs =>
      rw [hsd, hcs] at ho
      rw [hcs] at hl
      have hnil : cs = [] := by simpa using hl
      subst hnil
      split at hs
      · split at hs
        · simp only [Option.some.injEq] at hs
          subst hs
          refine ⟨hu, by simp, ?_⟩
          simpa using ho
        · simp only [Option.some.injEq] at hs
          subst hs
          refine ⟨hu, by simp, ?_⟩
          simpa using ho
      · exact absurd hs (by simp)
    · exact absurd hs (by simp)
  | fail => exact absurd rfl hc.1
  | close => exact absurd rfl hc.2
  | reconnect => simp [step, hu] at hs
  | arrive i k =>
    simp only [step] at hs
    split at hs
    · next c hci =>
      split at hs
      · simp only [Option.some.injEq] at hs
        subst hs
        refine ⟨hu, by simpa using hl, ?_⟩
        dsimp only
        rw [← ho]
        congr 1
        match hcs : s.conns, hl with
        | [d], _ =>
          rw [hcs] at hci
          cases i with
          | zero => simp only [List.getElem?_cons_zero, Option.some.injEq] at hci; simp [hci]
          | succ i => simp at hci
      · exact absurd hs (by simp)
    · exact absurd hs (by simp)

theorem calm_run {alloc : Nat → Bool} {es : List Event} {s s' : Link}
    (hr : run alloc s es = some s') (hc : Calm es)
    (h : s.up = true ∧ s.conns.length = 1 ∧
      s.conns.flatMap (·.sent) ++ ((s.sending.map (·.1)).toList ++ s.queue) = s.pushed) :
    s'.up = true ∧ s'.conns.length = 1 ∧
      s'.conns.flatMap (·.sent) ++ ((s'.sending.map (·.1)).toList ++ s'.queue) = s'.pushed := by
  induction es generalizing s with
  | nil => simp only [run, Option.some.injEq] at hr; rw [← hr]; exact h
  | cons e es ih =>
    simp only [run, Option.bind_eq_some_iff] at hr
    obtain ⟨t, ht, hr⟩ := hr
    exact ih hr (fun a ha => hc a (by simp [ha])) (calm_step ht (hc e (by simp)) h)

/-- **C90.** As long as the connection holds nothing is lost: what has been delivered is a
beginning of what was sent, and all of it once the send queue is empty, the send thread is idle and
the remote node has read all that was written. -/
theorem C90_lossless {alloc : Nat → Bool} {es : List Event} {s : Link}
    (hr : run alloc .init es = some s) (hc : Calm es)
    (hfit : ∀ m ∈ s.pushed, m.length < 2 ^ 64) (ha : ∀ m ∈ s.pushed, alloc m.length = true) :
    s.delivered <+: s.pushed ∧
      (s.queue = [] → s.sending = none → (∀ c ∈ s.conns, c.taken = c.stream.length) →
        s.delivered = s.pushed) := by
  have h := inv_run (inv_init alloc) hr hfit
  obtain ⟨hu, hl, ho⟩ := calm_run hr hc ⟨rfl, rfl, by simp [Link.init, Conn.new]⟩
  match hcs : s.conns, hl with
  | [c], _ =>
    have hci := h.conns c (by rw [hcs]; simp)
    rw [hcs] at ho
    simp only [List.flatMap_cons, List.flatMap_nil, List.append_nil] at ho
    simp only [Link.delivered, hcs, List.reverse_cons, List.reverse_nil, List.nil_append,
      List.flatMap_cons, List.flatMap_nil, List.append_nil]
    refine ⟨hci.got.trans ⟨_, ho⟩, fun hq hsd hall => ?_⟩
    rw [hq, hsd] at ho
    simp only [Option.map_none, Option.toList_none, List.append_nil] at ho
    rw [← ho]
    obtain ⟨-, hread⟩ := hci.read (hci.alive ha)
    rw [hall c (by simp), List.take_length] at hread
    obtain ⟨part, rest, m, h1, h2, h3, h4, -⟩ := hci.wire
    exact frames_all hci.ok (hci.alive ha) (fun a hm => hfit a (hci.source a hm)) hci.sized h4 h2 h3
      (by rw [← hread, h1])

/-- **C90.** A remote node that is sent packets it can hold never crashes over them. -/
theorem C90_alive {alloc : Nat → Bool} {es : List Event} {s : Link}
    (hr : run alloc .init es = some s) (hfit : ∀ m ∈ s.pushed, m.length < 2 ^ 64)
    (ha : ∀ m ∈ s.pushed, alloc m.length = true) : ∀ c ∈ s.conns, c.rcv ≠ .crashed :=
  fun c hc => ((inv_run (inv_init alloc) hr hfit).conns c hc).alive ha

/-- Sizes up to those of a `std::vector`. -/
def vectors (n : Nat) : Bool := n ≤ maxBuf

/-- Two packets, one of them empty, over a connection that splits the first in the middle of its
size and of its body. -/
def exCalm : List Event :=
  [.push [7, 8, 9], .push [], .pop, .write 5, .arrive 0 3, .write 3, .write 1, .arrive 0 5, .arrive 0 1,
    .write 2, .pop, .arrive 0 2, .write 8, .arrive 0 8]

example : Calm exCalm ∧ (run vectors .init exCalm).map (fun s => (s.delivered, s.pushed)) =
    some ([[7, 8, 9], []], [[7, 8, 9], []]) ∧
    (run vectors .init exCalm).map (fun s => (s.queue, s.sending.isNone)) = some ([], true) ∧
    (run vectors .init exCalm).map (fun s => s.conns.map fun c => (c.taken, c.stream.length)) =
      some [(19, 19)] := by
  refine ⟨by unfold Calm exCalm; decide, by decide +kernel, by decide +kernel, by decide +kernel⟩

/-- A connection that fails in the middle of the second packet; the third waits in the queue and is dropped, the
fourth goes over the new connection, whose bytes are read before the rest of the old ones. -/
def exBroken : List Event :=
  [.push [1], .push [2], .push [3], .pop, .write 8, .write 1, .pop, .write 4, .fail, .close, .push [4],
    .reconnect, .pop, .write 8, .write 1, .arrive 0 8, .arrive 0 1, .arrive 1 8, .arrive 1 1, .arrive 1 4]

example : (run vectors .init exBroken).map (fun s => (s.delivered, s.pushed)) =
    some ([[1], [4]], [[1], [2], [3], [4]]) := by decide +kernel

/-- The packets in the order in which the callbacks of the remote node are called. -/
def calls (alloc : Nat → Bool) (s : Link) : List Event → List Bytes
  | [] => []
  | e :: es =>
    match step alloc s e, e with
    | some s', .arrive i _ =>
      (match s.conns[i]?, s'.conns[i]? with
        | some c, some c' => c'.got.drop c.got.length
        | _, _ => []) ++ calls alloc s' es
    | some s', _ => calls alloc s' es
    | none, _ => []

/-- **C90 does not hold.** After a reconnection a packet can overtake one that was sent before: the remote node
reads the old and the new connection in different threads. -/
theorem C90_order_violated : ∃ (es : List Event) (s : Link), run vectors .init es = some s ∧
    s.pushed.Nodup ∧ (∀ m ∈ calls vectors .init es, m ∈ s.pushed) ∧
    ¬ List.Sublist (calls vectors .init es) s.pushed := by
  have h : (run vectors .init exBroken).isSome = true := by decide +kernel
  obtain ⟨s, hs⟩ := Option.isSome_iff_exists.mp h
  have hp : (run vectors .init exBroken).map (·.pushed) = some [[1], [2], [3], [4]] := by
    decide +kernel
  rw [hs, Option.map_some, Option.some.injEq] at hp
  have hc : calls vectors .init exBroken = [[4], [1]] := by decide +kernel
  exact ⟨exBroken, s, hs, by rw [hp]; decide, by rw [hp, hc]; decide, by rw [hp, hc]; decide⟩

/-- On one connection the order of the calls is the order of sending. -/
example : calls vectors .init exCalm = [[7, 8, 9], []] := by decide +kernel

/-! ### C91: what any bytes do to a node -/

/-- Successive calls of `read` of a node, each bringing some bytes: what `receive` is at, and the
packets that went to the callback. -/
def receiveAll (alloc : Nat → Bool) : Receiving → List Bytes → Receiving × List Bytes
  | r, [] => (r, [])
  | r, bs :: rest =>
    let (r', m) := r.read alloc bs
    let (r'', ms) := receiveAll alloc r' rest
    (r'', m.toList ++ ms)

/-- What the system may return from `read`: at least one byte, and no more than asked for. -/
def Delivers (alloc : Nat → Bool) : Receiving → List Bytes → Prop
  | _, [] => True
  | r, bs :: rest => bs ≠ [] ∧ bs.length ≤ r.wanted ∧ Delivers alloc (r.read alloc bs).1 rest

/-- The packets in some bytes, and whether a size that is too big follows: a size of eight
bytes, lowest first, then as many bytes, and so on. -/
def parse (alloc : Nat → Bool) (bs : Bytes) : List Bytes × Bool :=
  if bs.length < 8 then ([], false)
  else if !alloc (leNat (bs.take 8)) then ([], true)
  else if bs.length < 8 + leNat (bs.take 8) then ([], false)
  else
    let r := parse alloc (bs.drop (8 + leNat (bs.take 8)))
    ((bs.drop 8).take (leNat (bs.take 8)) :: r.1, r.2)
  termination_by bs.length
  decreasing_by simp only [List.length_drop]; omega

theorem parse_frame {alloc : Nat → Bool} {m rest : Bytes} (hm : m.length < 2 ^ 64)
    (ha : alloc m.length = true) :
    parse alloc (frame m ++ rest) = (m :: (parse alloc rest).1, (parse alloc rest).2) := by
  have h8 : (frame m ++ rest).take 8 = encInt 8 m.length := by
    rw [frame, List.append_assoc, List.take_append_of_le_length (by simp [encInt_length])]
    rw [List.take_of_length_le (by simp [encInt_length])]
  have hd : (frame m ++ rest).drop 8 = m ++ rest := by
    rw [frame, List.append_assoc]
    exact List.drop_left' (encInt_length 8 _)
  have hn : leNat ((frame m ++ rest).take 8) = m.length := by
    rw [h8, leNat_encInt _ _ (by rw [pow256_8]; exact hm)]
  have hlen : (frame m ++ rest).length = 8 + m.length + rest.length := by
    rw [List.length_append, frame_length]
  rw [parse]
  rw [if_neg (by omega), hn, ha, if_neg (by simp), if_neg (by omega), ← List.drop_drop, hd,
    List.drop_left, List.take_left]

theorem parse_frames {alloc : Nat → Bool} {ms : List Bytes} {rest : Bytes}
    (hm : ∀ m ∈ ms, m.length < 2 ^ 64 ∧ alloc m.length = true) :
    parse alloc (frames ms ++ rest) = (ms ++ (parse alloc rest).1, (parse alloc rest).2) := by
  induction ms with
  | nil => simp [frames]
  | cons m ms ih =>
    rw [frames_cons, List.append_assoc, parse_frame (hm m (by simp)).1 (hm m (by simp)).2,
      ih fun a ha => hm a (by simp [ha])]
    simp

/-- Sizes that have been read were found to fit. -/
def Receiving.Fit (alloc : Nat → Bool) : Receiving → Prop
  | .body sz _ => alloc sz = true
  | _ => True

theorem parse_partial {alloc : Nat → Bool} {r : Receiving} (hr : r.Ok) (hf : r.Fit alloc) :
    parse alloc r.partial = ([], false) := by
  cases r with
  | size sofar =>
    simp only [Receiving.Ok] at hr
    rw [parse, Receiving.partial, if_pos hr]
  | crashed => rw [parse]; simp [Receiving.partial]
  | body sz pkt =>
    simp only [Receiving.Ok] at hr
    have h8 : (encInt 8 sz ++ pkt).take 8 = encInt 8 sz := List.take_left' (encInt_length 8 _)
    have hn : leNat (encInt 8 sz) = sz := leNat_encInt _ _ (by rw [pow256_8]; exact hr.2)
    simp only [Receiving.partial]
    rw [parse, h8, hn, if_neg (by rw [List.length_append, encInt_length]; omega)]
    simp only [Receiving.Fit] at hf
    rw [hf, if_neg (by simp), if_pos]
    rw [List.length_append, encInt_length]; omega

/-- One `read`. -/
theorem read_parse {alloc : Nat → Bool} {r : Receiving} {bs : Bytes} (hr : r.Ok) (hf : r.Fit alloc)
    (hb : bs.length ≤ r.wanted) :
    (r.read alloc bs).1.Fit alloc ∧ (∀ m ∈ (r.read alloc bs).2, alloc m.length = true) ∧
      ((r.read alloc bs).1 = .crashed → r ≠ .crashed →
        (r.read alloc bs).2 = none ∧ ∀ rest, parse alloc (r.partial ++ bs ++ rest) = ([], true)) := by
  cases r with
  | size sofar =>
    simp only [Receiving.Ok] at hr
    simp only [Receiving.wanted] at hb
    unfold Receiving.read
    dsimp only
    split
    · exact ⟨trivial, by simp, fun h => absurd h (by simp)⟩
    · next hlen =>
      have hlen : (sofar ++ bs).length = 8 := by
        have : (sofar ++ bs).length = sofar.length + bs.length := List.length_append
        omega
      split
      · next ha =>
        refine ⟨trivial, by simp, fun _ _ => ⟨rfl, fun rest => ?_⟩⟩
        simp only [Receiving.partial]
        have h8 : (sofar ++ bs ++ rest).take 8 = sofar ++ bs := List.take_left' hlen
        rw [parse, h8, if_neg (by rw [List.length_append, hlen]; omega), if_pos ha]
      · next ha =>
        split
        · next h0 =>
          refine ⟨trivial, fun m hm => ?_, fun h => absurd h (by simp [Receiving.start])⟩
          cases hm
          rw [h0] at ha
          simpa using ha
        · exact ⟨by simpa [Receiving.Fit] using ha, by simp, fun h => absurd h (by simp)⟩
  | body sz pkt =>
    simp only [Receiving.Ok] at hr
    simp only [Receiving.wanted] at hb
    simp only [Receiving.Fit] at hf
    unfold Receiving.read
    dsimp only
    split
    · exact ⟨hf, by simp, fun h => absurd h (by simp)⟩
    · next hlen =>
      have hlen : (pkt ++ bs).length = sz := by
        have : (pkt ++ bs).length = pkt.length + bs.length := List.length_append
        omega
      refine ⟨trivial, fun m hm => ?_, fun h => absurd h (by simp [Receiving.start])⟩
      cases hm
      rw [hlen]; exact hf
  | crashed => exact ⟨trivial, by simp [Receiving.read], fun _ h => absurd rfl h⟩

theorem receive_parse {alloc : Nat → Bool} {r : Receiving} {cs : List Bytes} (hr : r.Ok)
    (hc : r ≠ .crashed) (hf : r.Fit alloc) (hd : Delivers alloc r cs) :
    parse alloc (r.partial ++ cs.flatten) =
      ((receiveAll alloc r cs).2, decide ((receiveAll alloc r cs).1 = .crashed)) := by
  induction cs generalizing r with
  | nil =>
    simp only [List.flatten_nil, List.append_nil, receiveAll]
    rw [parse_partial hr hf]
    simp [hc]
  | cons bs cs ih =>
    obtain ⟨-, hb, hd⟩ := hd
    have hk := read_keeps alloc r bs hr hb
    have hp := read_parse hr hf hb
    simp only [List.flatten_cons, receiveAll]
    by_cases hcr : (r.read alloc bs).1 = .crashed
    · have hnil : cs = [] := by
        cases cs with
        | nil => rfl
        | cons b cs =>
          exfalso
          obtain ⟨hne, hle, -⟩ := hd
          rw [hcr] at hle
          simp only [Receiving.wanted, Nat.le_zero, List.length_eq_zero_iff] at hle
          exact hne hle
      subst hnil
      obtain ⟨hn, hpar⟩ := hp.2.2 hcr hc
      rw [← List.append_assoc, hpar]
      simp [receiveAll, hn, hcr]
    · have hall : ∀ m ∈ (r.read alloc bs).2.toList, m.length < 2 ^ 64 ∧ alloc m.length = true := by
        intro m hm
        have hm : m ∈ (r.read alloc bs).2 := by simpa using hm
        exact ⟨hk.2.2 m hm, hp.2.1 m hm⟩
      rw [← List.append_assoc, hk.2.1 hcr, List.append_assoc, parse_frames hall,
        ih hk.1 hcr hp.1 hd]
      rfl

/-- **C91.** Whatever bytes a node is sent, what its callback is given depends on the bytes only,
not on how they arrive, and the process goes on unless there is a size for which no buffer can be
made. -/
theorem C91_split {alloc : Nat → Bool} {cs : List Bytes} (hd : Delivers alloc .start cs) :
    ((receiveAll alloc .start cs).2, decide ((receiveAll alloc .start cs).1 = .crashed)) =
      parse alloc cs.flatten := by
  have := receive_parse (alloc := alloc) (r := .start) (by simp [Receiving.start, Receiving.Ok])
    (by simp [Receiving.start]) trivial hd
  rw [← this]
  rfl

theorem parse_fits {alloc : Nat → Bool} (ha : ∀ n < 2 ^ 64, alloc n = true) (bs : Bytes) :
    (parse alloc bs).2 = false := by
  induction hn : bs.length using Nat.strongRecOn generalizing bs with
  | _ n ih =>
    rw [parse]
    split
    · rfl
    · split
      · next h8 h =>
        have hlt := leNat_lt (bs.take 8)
        rw [List.length_take, Nat.min_eq_left (Nat.le_of_not_lt h8), pow256_8] at hlt
        rw [ha _ hlt] at h
        exact absurd h (by simp)
      · split
        · rfl
        · next h8 _ _ =>
          exact ih _ (by rw [List.length_drop]; omega) _ rfl

/-- **C91, partial.** If every size could be served, no bytes would end the process.  Missing: a
`std::vector` cannot have every size. -/
theorem C91_alive_partial {alloc : Nat → Bool} {cs : List Bytes} (ha : ∀ n < 2 ^ 64, alloc n = true)
    (hd : Delivers alloc .start cs) : (receiveAll alloc .start cs).1 ≠ .crashed := by
  have h := C91_split hd
  have h2 := congrArg Prod.snd h
  rw [parse_fits ha] at h2
  simpa using h2

/-- **C91 does not hold.** Eight bytes from anyone who can connect end the process. -/
theorem C91_alive_violated : ∃ cs : List Bytes, Delivers vectors .start cs ∧
    (receiveAll vectors .start cs).1 = .crashed ∧ cs.flatten.length = 8 := by
  refine ⟨[List.replicate 8 255], ⟨by decide, by decide, trivial⟩, by decide +kernel, rfl⟩

example : Delivers vectors .start [[2, 0, 0], [0, 0, 0, 0, 0], [5], [6], [0, 0, 0, 0, 0, 0, 0, 0]] ∧
    (receiveAll vectors .start
      [[2, 0, 0], [0, 0, 0, 0, 0], [5], [6], [0, 0, 0, 0, 0, 0, 0, 0]]).2 = [[5, 6], []] := by
  refine ⟨?_, by decide +kernel⟩
  simp only [Delivers]
  decide +kernel

end Verif.Net
