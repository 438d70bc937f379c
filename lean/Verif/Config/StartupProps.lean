import Verif.Config.StartupLemmas
/-!
# C121: a system comes up
-/
namespace Verif.Config.Daemon

open Verif.Evm (Outcome)
open Verif.Hex (Text)
open Verif.Http (lit stoull)

theorem own_of {p : Platform} {file : Text} {o : FullOptions} {r : Role}
    (ho : loadOptions p file = .ok o) (hsmall : Small o) (h : RoleOf p file r) :
    ∃ w, own o r.id r.node r.program = some w ∧ Right o r.program w r := by
  obtain ⟨args, h⟩ := h
  obtain ⟨_, _, _, _, o', _, w, _, ho', _, _, _, _, hw, hr⟩ := C120_named p (fun _ => file) r.program args r
    (fun t o' h' => by
      rw [ho, Outcome.ok.injEq] at h'
      exact h' ▸ hsmall) h
  rw [ho, Outcome.ok.injEq] at ho'
  subst ho'
  exact ⟨w, hw, hr⟩

/-- What lets the connections of a program last: if it is one of those that give up when
somebody does not answer, all its partners are there when it starts. -/
def Answered (o : FullOptions) (i : Nat) (there : Endpoint → Prop) (d : Program) : Prop :=
  d ∈ [Program.shard, .atomizer, .sentinelTwo] → ∀ e, Partner o i e d → there e

/-- **C121.** Whatever else runs, a component that is started and finds those it needs
comes up: it can go on, without anybody else, until it listens at all its endpoints and has connections to
all its partners that are made again when they break.  For replicated components: when it becomes
the leader.  Partial: sentinels need each other (`C121_sentinels_violated`), and the connections of
shards and atomizers last only if all partners are there before them (`C121_archiver_violated`,
`C121_watchtowers_violated`). -/
theorem C121_up_partial (p : Platform) (file : Text) (o : FullOptions) (r : Role) (w : Own)
    (s : List Proc) (up : Endpoint → Bool) (ho : loadOptions p file = .ok o) (hsmall : Small o)
    (hr : RoleOf p file r) (hw : own o r.id r.node r.program = some w)
    (hn : Needs o r.id (fun e => e ∈ served s ∧ up e = true) r.program) :
    ∃ l q, run s (.launch r :: l) = s ++ [q] ∧ (∀ r', Event.launch r' ∉ l) ∧ q.role = r ∧ Up w q ∧
      (Answered o r.id (fun e => e ∈ served s ∧ up e = true) r.program →
        ∀ e, Partner o r.id e r.program → e ∈ q.links) := by
  obtain ⟨w', hw', hright⟩ := own_of ho hsmall hr
  rw [hw, Option.some.injEq] at hw'
  subst hw'
  obtain ⟨id, node, level, samples, hc⟩ := control_of ho hr
  have e : (fun e => e ∈ served s ∧ up e = true) = (fun e => reach (served s) up e = true) := by
    funext e
    simp [reach]
  rw [e] at hn ⊢
  have hp := possible_of hc hn
  obtain ⟨q, h1, h2, h3, h4, h5, h6, h7⟩ := bring_done s r up fun a ha => hp a (by simp [ha])
  obtain ⟨q', g1, g2, g3, g4, g5, g6, g7⟩ := crown_done s q up h3 h4 h5 fun a ha => hp a (by
    rw [h2] at ha
    simp [ha])
  refine ⟨List.replicate r.plan.length (.act s.length true up) ++ crown s q.role up, q', ?_, ?_,
    g2.trans h2, ⟨g3, g4, fun e => ?_⟩, fun hans e he => ?_⟩
  · rw [← List.cons_append, run_append]
    have : run s (.launch r :: List.replicate r.plan.length (.act s.length true up)) = s ++ [q] := h1
    rw [this, g1]
  · intro r' hr'
    simp only [crown, List.mem_append, List.mem_replicate, List.mem_cons, reduceCtorEq, and_false,
      or_self] at hr'
  · rw [g5, h6, h2, ← hright.takes]
    simp only [List.mem_append, mem_serves]
  · have hk : ∀ a ∈ r.plan ++ r.leads, Kept (served s) up a := by
      intro a ha
      cases a with
      | row es =>
        intro x hx
        exact hans (row_only hc ha) x ((hright.calls x).mp ⟨_, ha, hx⟩)
      | _ => trivial
    obtain ⟨a, ha, hea⟩ := (hright.calls e).mpr he
    have hka := hk a ha
    rcases List.mem_append.mp ha with ha | ha
    · exact g6 e (h7 a ha e hea hka)
    · exact g7 a (by rw [h2]; exact ha) e hea hka

/-! ### An order in which everybody comes up -/

theorem needs_mono {o : FullOptions} {i : Nat} {f g : Endpoint → Prop} {d : Program}
    (h : ∀ e, f e → g e) (hn : Needs o i f d) : Needs o i g d := by
  cases d with
  | sentinel => exact fun s hs => (hn s hs).imp id fun h' => h _ h'
  | watchtower =>
    obtain ⟨⟨a, ha, h1⟩, h2⟩ := hn
    exact ⟨⟨a, ha, h _ h1⟩, fun x hx => h _ (h2 x hx)⟩
  | coordinator => exact fun n hx => h _ (hn n hx)
  | _ => trivial

/-- Programs that find those they need can be started one after the other. -/
theorem many (p : Platform) (file : Text) (o : FullOptions) (ho : loadOptions p file = .ok o)
    (hsmall : Small o) (rs : List Role) (s : List Proc) (hr : ∀ r ∈ rs, RoleOf p file r)
    (hn : ∀ r ∈ rs, Needs o r.id (fun e => e ∈ served s) r.program) :
    ∃ l t, run s l = s ++ t ∧ From p file l ∧ ∀ r ∈ rs, ∀ w,
      own o r.id r.node r.program = some w → ∃ q ∈ t, q.role = r ∧ Up w q := by
  induction rs generalizing s with
  | nil => exact ⟨[], [], by simp [run], fun r h => (nomatch h), fun r h => (nomatch h)⟩
  | cons r rs ih =>
    obtain ⟨w, hw, _⟩ := own_of ho hsmall (hr r (by simp))
    obtain ⟨l, q, h1, h2, h3, h4, _⟩ := C121_up_partial p file o r w s (fun _ => true) ho hsmall
      (hr r (by simp)) hw (needs_mono (fun e h => ⟨h, rfl⟩) (hn r (by simp)))
    obtain ⟨m, t, g1, g2, g3⟩ := ih (s ++ [q]) (fun x hx => hr x (by simp [hx])) fun x hx =>
      needs_mono (fun e h => by
        rw [served_append]
        exact List.mem_append.mpr (.inl h)) (hn x (by simp [hx]))
    refine ⟨.launch r :: l ++ m, q :: t, ?_, fun x hx => ?_, fun x hx v hv => ?_⟩
    · rw [run_append, h1, g1]
      simp
    · simp only [List.cons_append, List.mem_cons, Event.launch.injEq, List.mem_append] at hx
      rcases hx with rfl | hx | hx
      · exact hr _ (by simp)
      · exact absurd hx (h2 x)
      · exact g2 x hx
    · rcases List.mem_cons.mp hx with rfl | hx
      · rw [hw, Option.some.injEq] at hv
        subst hv
        exact ⟨q, by simp, h3, h4⟩
      · obtain ⟨y, hy, h⟩ := g3 x hx v hv
        exact ⟨y, by simp [hy], h⟩

/-- Everybody whom some component needs is to be started too: with a watchtower an atomizer
and the first archiver, with a coordinator all shards that have one node; and no sentinel needs
another one. -/
structure Complete (o : FullOptions) (rs : List Role) : Prop where
  atomizer : (∃ r ∈ rs, r.program = .watchtower) → ∃ r ∈ rs, r.program = .atomizer
  archiver : (∃ r ∈ rs, r.program = .watchtower) → ∃ r ∈ rs, r.program = .archiver ∧ r.id = 0
  shards : (∃ r ∈ rs, r.program = .coordinator) → ∀ (i : Nat) (n : ShardNode),
    o.shardNodes[i]? = some [n] → ∃ r ∈ rs, r.program = .lockingShard ∧ r.id = i
  sentinels : (∃ r ∈ rs, r.program = .sentinel) →
    ∀ s ∈ o.sentinels, ∀ t ∈ o.sentinels, s.endpoint = t.endpoint

/-- **C121.** There is an order in which all components can be started so that all come up.  `rs` are
the components, of replicated ones the nodes that become leader.  Partial: not with two sentinels in
the atomizer architecture, see `C121_sentinels_violated`. -/
theorem C121_order_partial (p : Platform) (file : Text) (o : FullOptions)
    (ho : loadOptions p file = .ok o) (hsmall : Small o) (rs : List Role)
    (hr : ∀ r ∈ rs, RoleOf p file r) (hc : Complete o rs) :
    ∃ l, From p file l ∧ ∀ r ∈ rs, ∀ w, own o r.id r.node r.program = some w →
      ∃ q ∈ run [] l, q.role = r ∧ Up w q := by
  let late : Role → Bool := fun r => decide (r.program = .watchtower ∨ r.program = .coordinator)
  obtain ⟨l, t, h1, h2, h3⟩ := many p file o ho hsmall (rs.filter fun r => !late r) []
    (fun r h => hr r (List.mem_filter.mp h).1) fun r h => by
      obtain ⟨hm, hl⟩ := List.mem_filter.mp h
      have hl : ¬ (r.program = .watchtower ∨ r.program = .coordinator) := by simpa [late] using hl
      have hown := own_of ho hsmall (hr r hm)
      generalize hd : r.program = d at hl hown
      cases d with
      | sentinel =>
        obtain ⟨w, hw, _⟩ := hown
        simp only [own, Option.map_eq_some_iff] at hw
        obtain ⟨x, hx, _⟩ := hw
        exact fun y hy => .inl ⟨x, hx, hc.sentinels ⟨r, hm, hd⟩ y hy x (List.mem_of_getElem? hx)⟩
      | watchtower => simp at hl
      | coordinator => simp at hl
      | _ => trivial
  rw [List.nil_append] at h1
  have early : ∀ r ∈ rs, late r = false → ∀ w, own o r.id r.node r.program = some w →
      ∃ q ∈ t, q.role = r ∧ Up w q := fun r h hl w hw =>
    h3 r (List.mem_filter.mpr ⟨h, by simp [hl]⟩) w hw
  have listens : ∀ r ∈ rs, late r = false → ∀ w, own o r.id r.node r.program = some w →
      ∀ e ∈ w.takes, e ∈ served t := by
    intro r h hl w hw e he
    obtain ⟨q, hq, _, hu⟩ := early r h hl w hw
    exact List.mem_flatMap.mpr ⟨q, hq, (hu.takes e).mpr he⟩
  obtain ⟨m, u, g1, g2, g3⟩ := many p file o ho hsmall (rs.filter late) t
    (fun r h => hr r (List.mem_filter.mp h).1) fun r h => by
      obtain ⟨hm, hl⟩ := List.mem_filter.mp h
      have hl : r.program = .watchtower ∨ r.program = .coordinator := by simpa [late] using hl
      rcases hl with hd | hd
      · rw [hd]
        obtain ⟨x, hx, hxd⟩ := hc.atomizer ⟨r, hm, hd⟩
        obtain ⟨y, hy, hyd, hyi⟩ := hc.archiver ⟨r, hm, hd⟩
        refine ⟨?_, fun a ha => ?_⟩
        · obtain ⟨w, hw, _⟩ := own_of ho hsmall (hr x hx)
          have hlis := listens x hx (by simp [late, hxd]) w hw
          rw [hxd] at hw
          simp only [own, Option.map_eq_some_iff] at hw
          obtain ⟨a, ha, rfl⟩ := hw
          exact ⟨a, List.mem_of_getElem? ha, hlis _ (by simp)⟩
        · obtain ⟨w, hw, _⟩ := own_of ho hsmall (hr y hy)
          have hlis := listens y hy (by simp [late, hyd]) w hw
          rw [hyd, hyi] at hw
          simp only [own, Option.map_eq_some_iff, ← List.head?_eq_getElem?, ha,
            Option.some.injEq] at hw
          obtain ⟨_, rfl, rfl⟩ := hw
          exact hlis _ (by simp)
      · rw [hd]
        intro n hn
        obtain ⟨i, hi⟩ := List.mem_iff_getElem?.mp hn
        obtain ⟨x, hx, hxd, hxi⟩ := hc.shards ⟨r, hm, hd⟩ i n hi
        obtain ⟨w, hw, _⟩ := own_of ho hsmall (hr x hx)
        have hlis := listens x hx (by simp [late, hxd]) w hw
        rw [hxd, hxi] at hw
        simp only [own, Option.bind_eq_some_iff, Option.map_eq_some_iff, hi, Option.some.injEq] at hw
        obtain ⟨_, _, _, rfl, k, hk, rfl⟩ := hw
        have : k = n := by
          have := List.mem_of_getElem? hk
          simpa using this
        subst this
        exact hlis _ (by simp)
  refine ⟨l ++ m, fun r h => ?_, fun r h w hw => ?_⟩
  · rcases List.mem_append.mp h with h | h
    · exact h2 r h
    · exact g2 r h
  · rw [run_append, h1, g1]
    cases hl : late r with
    | false =>
      obtain ⟨q, hq, h'⟩ := early r h hl w hw
      exact ⟨q, by simp [hq], h'⟩
    | true =>
      obtain ⟨q, hq, h'⟩ := g3 r (List.mem_filter.mpr ⟨h, hl⟩) w hw
      exact ⟨q, by simp [hq], h'⟩

/-! ### What goes wrong -/

theorem served_new (r : Role) (todo : List Act) : served [{
    role := r
    todo }] = [] := by simp [served]

/-- **C121.** In the atomizer architecture a configuration with two sentinels cannot be used: whatever is
started in whatever order, and however often, no sentinel ever listens, as each of them ends
unless all others listen. -/
theorem C121_sentinels_violated (p : Platform) (file : Text) (o : FullOptions)
    (ho : loadOptions p file = .ok o) (hsmall : Small o) (hapart : Apart o)
    (h2 : ∃ s ∈ o.sentinels, ∃ t ∈ o.sentinels, s.endpoint ≠ t.endpoint) (l : List Event)
    (hl : From p file l) (hprog : ∀ r, Event.launch r ∈ l → r.program ≠ .sentinelTwo) :
    ∀ q ∈ run [] l, ∀ s ∈ o.sentinels, s.endpoint ∉ q.serving := by
  intro q hq s hs he
  refine (shut_run (S := fun e => ∃ s ∈ o.sentinels, e = s.endpoint) l (fun r h => ?_) [] (fun _ h => (nomatch h))
    q hq).serving _ he ⟨s, hs, rfl⟩
  have hr := hl r h
  have hne := hprog r h
  obtain ⟨w, hw, hright⟩ := own_of ho hsmall hr
  by_cases hd : r.program = .sentinel
  · obtain ⟨id, node, level, samples, hc⟩ := control_of ho hr
    rw [hd] at hc
    exact sentinel_guarded hc h2
  · have hnot : ∀ e, Act.serve e ∈ r.plan ++ r.leads → ¬ ∃ s ∈ o.sentinels, e = s.endpoint := by
      rintro e he ⟨x, hx, rfl⟩
      exact hapart _ _ _ w hd hne hw _ ((hright.takes _).mp he) x hx rfl
    exact ⟨guarded_of_not fun e he => hnot e (by simp [he]),
      guarded_of_not fun e he => hnot e (by simp [he])⟩

/-- **C121.** A shard that is started before the archiver comes up, but never has a connection to
the archiver: it cannot get the blocks it has missed, even when the archiver is there. -/
theorem C121_archiver_violated (p : Platform) (file : Text) (o : FullOptions) (r : Role)
    (a : Archiver) (s : List Proc) (up : Endpoint → Bool) (ho : loadOptions p file = .ok o)
    (hr : RoleOf p file r) (hd : r.program = .shard) (ha : o.archivers.head? = some a)
    (hdown : a.endpoint ∉ served s)
    (hw : ∀ w ∈ o.watchtowers, w.internal ≠ a.endpoint)
    (ht : ∀ t ∈ o.atomizers, t.endpoint ≠ a.endpoint) (l : List Event) (q : Proc)
    (hq : (run s (.launch r :: .act s.length true up :: .act s.length true up :: l))[s.length]? =
      some q) : a.endpoint ∉ q.links := by
  obtain ⟨id, node, level, samples, hc⟩ := control_of ho hr
  rw [hd] at hc
  simp only [control] at hc
  unfold shardControl at hc
  split at hc
  · next x b y hx hb hy =>
    rw [← List.head?_eq_getElem?, ha, Option.some.injEq] at hb
    subst hb
    simp only [Outcome.ok.injEq] at hc
    have e : run s (.launch r :: .act s.length true up :: .act s.length true up :: l) =
        run (s ++ [{
          role := r
          todo := [.row (o.watchtowers.map (·.internal)),
            .contact (o.atomizers.map (·.endpoint)), .serve y.1] }]) l := by
      have h1 : r.plan = [.store y.2, .row [a.endpoint], .row (o.watchtowers.map (·.internal)),
        .contact (o.atomizers.map (·.endpoint)), .serve y.1] := by rw [← hc]
      simp only [run, List.foldl_cons, step]
      rw [modify_last, modify_last]
      congr 3
      rw [h1]
      have hf : reach (served (s ++ [{
          role := r
          todo := [.row [a.endpoint], .row (o.watchtowers.map (·.internal)),
            .contact (o.atomizers.map (·.endpoint)), .serve y.1] }])) up a.endpoint = false := by
        unfold reach
        rw [served_append, served_new]
        simp [hdown]
      simp only [Proc.act, if_true, List.takeWhile_cons, hf, Bool.false_eq_true, if_false, List.append_nil]
    rw [e] at hq
    refine (lost_run l _ (by simp) (fun q hq => ?_) q hq).1
    simp only [List.length_append, Nat.le_refl, List.getElem?_append_right, Nat.sub_self,
      List.getElem?_cons_zero, Option.some.injEq] at hq
    subst hq
    refine ⟨by simp, fun x hx => ?_⟩
    have hlead : r.leads = [] := by rw [← hc]
    simp only [hlead, List.append_nil, List.mem_cons, List.not_mem_nil, or_false] at hx
    rcases hx with rfl | rfl | rfl
    · simp only [Act.called, List.mem_map, not_exists, not_and]
      exact fun w hw' => hw w hw'
    · simp only [Act.called, List.mem_map, not_exists, not_and]
      exact fun t ht' => ht t ht'
    · simp [Act.called]
  · exact nomatch hc

/-- **C121.** An atomizer that is started while the first watchtower is down has no connection to any
watchtower, and never makes one, however many of them are up. -/
theorem C121_watchtowers_violated (p : Platform) (file : Text) (o : FullOptions) (r : Role)
    (w : Watchtower) (s : List Proc) (up : Endpoint → Bool) (ho : loadOptions p file = .ok o)
    (hr : RoleOf p file r) (hd : r.program = .atomizer) (hw : o.watchtowers.head? = some w)
    (hdown : w.internal ∉ served s ∨ up w.internal = false) (l : List Event) (q : Proc)
    (hq : (run s (.launch r :: .act s.length true up :: l))[s.length]? = some q) :
    ∀ v ∈ o.watchtowers, v.internal ∉ q.links := by
  intro v _
  obtain ⟨id, node, level, samples, hc⟩ := control_of ho hr
  rw [hd] at hc
  simp only [control] at hc
  unfold atomizerControl at hc
  split at hc
  · exact nomatch hc
  · next b hb =>
    simp only [Outcome.ok.injEq] at hc
    obtain ⟨ws, hws⟩ : ∃ ws, o.watchtowers = w :: ws := by
      cases h : o.watchtowers with
      | nil => rw [h] at hw; exact nomatch hw
      | cons x l =>
        rw [h, List.head?_cons, Option.some.injEq] at hw
        exact ⟨l, by rw [hw]⟩
    have e : run s (.launch r :: .act s.length true up :: l) =
        run (s ++ [{
          role := r
          todo := [.join id.toUInt32.toNat (o.atomizers.map (·.raft))] }]) l := by
      have h1 : r.plan = [.row (o.watchtowers.map (·.internal)),
        .join id.toUInt32.toNat (o.atomizers.map (·.raft))] := by rw [← hc]
      simp only [run, List.foldl_cons, step]
      rw [modify_last]
      congr 3
      have hf : reach (served (s ++ [{
          role := r
          todo := r.plan }])) up w.internal = false := by
        unfold reach
        rw [served_append, served_new]
        rcases hdown with h | h
        · simp [h]
        · simp [h]
      rw [h1] at hf
      rw [h1]
      simp only [hws, List.map_cons] at hf ⊢
      simp only [Proc.act, List.takeWhile_cons, hf, Bool.false_eq_true, if_false, List.append_nil]
    rw [e] at hq
    refine (lost_run l _ (by simp) (fun q hq => ?_) q hq).1
    simp only [List.length_append, Nat.le_refl, List.getElem?_append_right, Nat.sub_self,
      List.getElem?_cons_zero, Option.some.injEq] at hq
    subst hq
    refine ⟨by simp, fun x hx => ?_⟩
    have hlead : r.leads = [.serve b.endpoint] := by rw [← hc]
    simp only [hlead, List.cons_append, List.nil_append, List.mem_cons, List.not_mem_nil,
      or_false] at hx
    rcases hx with rfl | rfl <;> simp [Act.called]

/-! ### The hypotheses are met -/

/-- Each program of the atomizer architecture can be started with the file that is shipped. -/
theorem shipped_role (d : Program)
    (hd : d ∈ [Program.sentinel, .shard, .archiver, .watchtower, .atomizer]) :
    ∃ r, RoleOf bare shippedAtomizer r ∧ r.program = d ∧ r.id = 0 := by
  have h : loadOptions bare shippedAtomizer = .ok shippedOptions := C108_shipped.2
  have key : ∀ w, own shippedOptions 0 0 d = some w → Ready shippedOptions 0 0 d →
      ∃ r, RoleOf bare shippedAtomizer r ∧ r.program = d ∧ r.id = 0 := by
    intro w hw hr
    obtain ⟨r, h1, h2, _, h3⟩ := C120_starts_partial bare (fun _ => shippedAtomizer) d
      (lit "program") (lit "cfg") shippedOptions 0 0 w h shipped_small hw hr
    exact ⟨r, ⟨_, by rw [h3.program]; exact h1⟩, h3.program, h2⟩
  simp only [List.mem_cons, List.not_mem_nil, or_false] at hd
  rcases hd with rfl | rfl | rfl | rfl | rfl
  · refine key _ rfl fun s hs => ?_
    simp only [shippedOptions, List.getElem?_cons_zero, Option.some.injEq] at hs
    subst hs
    simp
  · exact key _ rfl trivial
  · exact key _ rfl trivial
  · exact key _ rfl (by simp [Ready, shippedOptions])
  · exact key _ rfl trivial

/-- The hypotheses of `C121_order_partial` are met: with the file that is shipped there is an order in which
all five components come up. -/
example : ∃ l, From bare shippedAtomizer l ∧
    ∀ d ∈ [Program.sentinel, .shard, .archiver, .watchtower, .atomizer],
      ∃ q ∈ run [] l, q.role.program = d ∧ ∃ w, own shippedOptions 0 q.role.node d = some w ∧ Up w q := by
  have h : loadOptions bare shippedAtomizer = .ok shippedOptions := C108_shipped.2
  obtain ⟨a, ha1, ha2, ha3⟩ := shipped_role .sentinel (by simp)
  obtain ⟨b, hb1, hb2, hb3⟩ := shipped_role .shard (by simp)
  obtain ⟨c, hc1, hc2, hc3⟩ := shipped_role .archiver (by simp)
  obtain ⟨d, hd1, hd2, hd3⟩ := shipped_role .watchtower (by simp)
  obtain ⟨e, he1, he2, he3⟩ := shipped_role .atomizer (by simp)
  have hrs : ∀ r ∈ [a, b, c, d, e], RoleOf bare shippedAtomizer r := by
    intro r hr
    simp only [List.mem_cons, List.not_mem_nil, or_false] at hr
    rcases hr with rfl | rfl | rfl | rfl | rfl <;> assumption
  obtain ⟨l, h1, h2⟩ := C121_order_partial bare shippedAtomizer shippedOptions h shipped_small
    [a, b, c, d, e] hrs
    ⟨fun _ => ⟨e, by simp, he2⟩, fun _ => ⟨c, by simp, hc2, hc3⟩,
      fun _ i n hn => by simp [shippedOptions] at hn,
      fun _ s hs t ht => by
        simp only [shippedOptions, List.mem_singleton] at hs ht
        rw [hs, ht]⟩
  refine ⟨l, h1, fun x hx => ?_⟩
  have key : ∀ r ∈ [a, b, c, d, e], r.program = x → r.id = 0 →
      ∃ q ∈ run [] l, q.role.program = x ∧ ∃ w, own shippedOptions 0 q.role.node x = some w ∧ Up w q := by
    intro r hr hp hi
    obtain ⟨w, hw, _⟩ := own_of h shipped_small (hrs r hr)
    obtain ⟨q, hq, hq1, hq2⟩ := h2 r hr w hw
    exact ⟨q, hq, by rw [hq1, hp], w, by rw [hq1, ← hp, ← hi]; exact hw, hq2⟩
  simp only [List.mem_cons, List.not_mem_nil, or_false] at hx
  rcases hx with rfl | rfl | rfl | rfl | rfl
  · exact key a (by simp) ha2 ha3
  · exact key b (by simp) hb2 hb3
  · exact key c (by simp) hc2 hc3
  · exact key d (by simp) hd2 hd3
  · exact key e (by simp) he2 he3

/-- The file that is shipped with a second sentinel. -/
def pairFile : Text :=
  lit "sentinel_count=2\n" ++
  lit "sentinel1_endpoint=\"sentinel1:7555\"\n" ++
  lit "sentinel1_private_key=\"0000000000000002000000000000000000000000000000000000000000000000\"\n" ++
  lit "sentinel1_public_key=\"eaa649f21f51bdbae7be4ae34ce6e5217a58fdce7f47f9aa7f3b58fa2120e2b4\"\n" ++
  shippedAtomizer

/-- The options of this file. -/
def pairOptions : FullOptions := { shippedOptions with
  sentinels := [⟨(lit "sentinel0", 7555), .info, some shippedPriv, some shippedPub⟩,
    ⟨(lit "sentinel1", 7555), .warn, some (List.replicate 7 0 ++ [2] ++ List.replicate 24 0),
      some (shippedPub.dropLast ++ [0xb4])⟩] }

/-- The file is accepted. -/
theorem pair_loads : loadOptions bare pairFile = .ok pairOptions := by decide +kernel

/-- The hypotheses of `C121_sentinels_violated` are met: with the file that is shipped and a second
sentinel, no sentinel ever listens. -/
example (l : List Event) (hl : From bare pairFile l)
    (hprog : ∀ r, Event.launch r ∈ l → r.program ≠ .sentinelTwo) :
    ∀ q ∈ run [] l, (lit "sentinel0", 7555) ∉ q.serving := by
  intro q hq
  have one : ∀ {α : Type} {x y : α} {i : Nat}, [x][i]? = some y → y = x := by
    intro α x y i h
    cases i with
    | zero => simpa using h.symm
    | succ i => simp at h
  refine C121_sentinels_violated bare pairFile pairOptions pair_loads
    ⟨by decide, by decide, by decide, by decide, by decide, by decide,
      fun v hv => absurd hv (List.not_mem_nil), fun v hv => absurd hv (List.not_mem_nil)⟩ ?_
    ⟨_, List.mem_cons_self, _, List.mem_cons_of_mem _ List.mem_cons_self, by decide⟩ l hl hprog q hq
    _ List.mem_cons_self
  intro d i j w hd hd2 hw e he s hs
  have hs : s.endpoint = (lit "sentinel0", 7555) ∨ s.endpoint = (lit "sentinel1", 7555) := by
    simp only [pairOptions, List.mem_cons, List.not_mem_nil, or_false] at hs
    rcases hs with rfl | rfl <;> simp
  have hne : e ∈ [(lit "shard0", 6555), (lit "archiver0", 4555), (lit "watchtower0", 8555),
      (lit "watchtower0", 8556), (lit "atomizer0", 5555)] → e ≠ s.endpoint := by
    intro h
    simp only [List.mem_cons, List.not_mem_nil, or_false] at h
    rcases hs with hs | hs <;> rw [hs] <;> rcases h with rfl | rfl | rfl | rfl | rfl <;> decide
  apply hne
  cases d with
  | sentinel => exact absurd rfl hd
  | sentinelTwo => exact absurd rfl hd2
  | shard =>
    simp only [own, pairOptions, shippedOptions, Option.bind_eq_some_iff, Option.map_eq_some_iff] at hw
    obtain ⟨x, hx, y, hy, rfl⟩ := hw
    rw [one hx, Option.some.injEq] at hy
    subst hy
    simp only [List.mem_singleton] at he
    simp [he]
  | archiver =>
    simp only [own, pairOptions, shippedOptions, Option.map_eq_some_iff] at hw
    obtain ⟨x, hx, rfl⟩ := hw
    rw [one hx] at he
    simp only [List.mem_singleton] at he
    simp [he]
  | watchtower =>
    simp only [own, pairOptions, shippedOptions, Option.map_eq_some_iff] at hw
    obtain ⟨x, hx, rfl⟩ := hw
    rw [one hx] at he
    simp only [List.mem_cons, List.not_mem_nil, or_false] at he
    rcases he with he | he <;> simp [he]
  | atomizer =>
    simp only [own, pairOptions, shippedOptions, Option.map_eq_some_iff] at hw
    obtain ⟨x, hx, rfl⟩ := hw
    rw [one hx] at he
    simp only [List.mem_singleton] at he
    simp [he]
  | lockingShard => simp [own, pairOptions, shippedOptions] at hw
  | coordinator => simp [own, pairOptions, shippedOptions] at hw

/-- The hypotheses of `C121_archiver_violated` and `C121_watchtowers_violated` are met: with the file that is
shipped the shard or the atomizer is started first. -/
example (l : List Event) (up : Endpoint → Bool) : ∃ r r', r.program = .shard ∧ r'.program = .atomizer ∧
    (∀ q, (run [] (.launch r :: .act 0 true up :: .act 0 true up :: l))[0]? = some q →
      (lit "archiver0", 4555) ∉ q.links) ∧
    (∀ q, (run [] (.launch r' :: .act 0 true up :: l))[0]? = some q →
      (lit "watchtower0", 8556) ∉ q.links) := by
  have h : loadOptions bare shippedAtomizer = .ok shippedOptions := C108_shipped.2
  obtain ⟨r, h1, h2, _⟩ := shipped_role .shard (by simp)
  obtain ⟨r', g1, g2, _⟩ := shipped_role .atomizer (by simp)
  refine ⟨r, r', h2, g2, fun q hq => ?_, fun q hq => ?_⟩
  · refine C121_archiver_violated bare shippedAtomizer shippedOptions r
      ⟨(lit "archiver0", 4555), .warn, lit "archiver0_db"⟩ [] up h h1 h2 rfl (by simp [served]) ?_ ?_ l q hq
    · intro w hw
      simp only [shippedOptions, List.mem_singleton] at hw
      subst hw
      decide
    · intro w hw
      simp only [shippedOptions, List.mem_singleton] at hw
      subst hw
      decide
  · exact C121_watchtowers_violated bare shippedAtomizer shippedOptions r' _ [] up h g1 g2 rfl
      (.inl (by simp [served])) l q hq _ List.mem_cons_self

end Verif.Config.Daemon
