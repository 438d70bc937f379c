import Verif.Config.DaemonsLemmas
/-!
# C120: a program is the component that its arguments name
-/
namespace Verif.Config.Daemon

open Verif.Evm (Outcome)
open Verif.Hex (Text)
open Verif.Http (lit stoull)

theorem configured_ok {α : Type} {x : Option α} {a : α} (h : configured x = .ok a) : x = some a := by
  cases x with
  | none => exact nomatch h
  | some b => simpa [configured] using h

theorem subscript_ok {α : Type} {x : Option α} {a : α} (h : subscript x = .ok a) : x = some a := by
  cases x with
  | none => exact nomatch h
  | some b => simpa [subscript] using h

theorem samples_given {rest : List Text} {n : UInt64} {r : Role} (h : archiverSamples rest = .ok n)
    (hr : r.samples = n) : (rest = [] ∧ r.samples = 0) ∨
      ∃ b more, rest = b :: more ∧ stoull b = .ok r.samples := by
  cases rest with
  | nil =>
    simp only [archiverSamples, Outcome.ok.injEq] at h
    exact .inl ⟨rfl, by rw [hr, ← h]⟩
  | cons b m => exact .inr ⟨b, m, rfl, by rw [hr]; exact h⟩

/-- **C120.** If a program runs, it was given a configuration that is accepted and
the number of a component (and of a node, for replicated ones) that is configured there.
It listens at the endpoints of this component and nowhere else, makes connections to
those that this component is to talk to and to nobody else, opens the data base of this
component, and is the replica with this number among those of its cluster. -/
theorem C120_named (p : Platform) (files : Text → Text) (d : Program) (args : List Text) (r : Role)
    (hsmall : ∀ t o, loadOptions p (files t) = .ok o → Small o)
    (h : start p files d args = .reads (.ok r)) :
    ∃ name path a rest o i w, args = name :: path :: a :: rest ∧
      loadOptions p (files path) = .ok o ∧
      stoull a = .ok i ∧ r.id = i.toNat ∧
      (clustered d = true → ∃ b more j, rest = b :: more ∧ stoull b = .ok j ∧ r.node = j.toNat) ∧
      (d = .archiver → (rest = [] ∧ r.samples = 0) ∨
        ∃ b more, rest = b :: more ∧ stoull b = .ok r.samples) ∧
      own o r.id r.node d = some w ∧ Right o d w r := by
  cases d with
  | sentinel =>
    simp only [start] at h
    unfold sentineld at h
    split at h
    · next name path a rest =>
      simp only [Start.reads.injEq] at h
      obtain ⟨i, hi, h⟩ := bind_inv h
      obtain ⟨o, ho, h⟩ := bind_inv h
      obtain ⟨s, hs, h⟩ := bind_inv h
      have hs := configured_ok hs
      have e := small_id (of_get hs) (hsmall _ _ ho).sentinels
      obtain ⟨s', hs', hid, hr⟩ := sentinel_right h
      rw [e] at hs' hid
      rw [hs, Option.some.injEq] at hs'
      subst hs'
      exact ⟨name, path, a, rest, o, i, _, rfl, ho, hi, hid, fun hc => (nomatch hc), fun hc => (nomatch hc),
        by rw [hid]; simp [own, hs], hr⟩
    · exact nomatch h
  | sentinelTwo =>
    simp only [start] at h
    unfold sentinelTwod at h
    split at h
    · next name path a rest =>
      simp only [Start.reads.injEq] at h
      obtain ⟨i, hi, h⟩ := bind_inv h
      obtain ⟨o, ho, h⟩ := bind_inv h
      obtain ⟨s, hs, h⟩ := bind_inv h
      have hs := configured_ok hs
      have e := small_id (of_get hs) (hsmall _ _ ho).sentinels
      obtain ⟨s', hs', hid, hr⟩ := sentinelTwo_right (hsmall _ _ ho).coordinators h
      rw [e] at hs' hid
      rw [hs, Option.some.injEq] at hs'
      subst hs'
      exact ⟨name, path, a, rest, o, i, _, rfl, ho, hi, hid, fun hc => (nomatch hc), fun hc => (nomatch hc),
        by rw [hid]; simp [own, hs], hr⟩
    · exact nomatch h
  | shard =>
    simp only [start] at h
    unfold shardd at h
    split at h
    · next name path a rest =>
      simp only [Start.reads.injEq] at h
      obtain ⟨i, hi, h⟩ := bind_inv h
      obtain ⟨o, ho, h⟩ := bind_inv h
      obtain ⟨q, hq, h⟩ := bind_inv h
      obtain ⟨s, hs, h⟩ := bind_inv h
      have hq := configured_ok hq
      have hs := subscript_ok hs
      have e := small_id (of_get hs) (hsmall _ _ ho).shards
      obtain ⟨q', hq', hid, hr⟩ := shard_right h
      rw [e] at hq' hid
      rw [hq, Option.some.injEq] at hq'
      subst hq'
      have hsh := shape ho
      have hplace : s.place = some q := by
        cases ht : o.twoPhase with
        | true => rw [places_two (hsh.two ht).2] at hq; simp at hq
        | false =>
          have := places_get o.shards (hsh.one ht).2 i.toNat
          unfold places at hq
          rw [hq, hs] at this
          exact this.symm
      exact ⟨name, path, a, rest, o, i, _, rfl, ho, hi, hid, fun hc => (nomatch hc), fun hc => (nomatch hc),
        by rw [hid]; simp [own, hs, hplace], hr⟩
    · exact nomatch h
  | archiver =>
    simp only [start] at h
    unfold archiverd at h
    split at h
    · next name path a rest =>
      simp only [Start.reads.injEq] at h
      obtain ⟨n, hn, h⟩ := bind_inv h
      obtain ⟨o, ho, h⟩ := bind_inv h
      obtain ⟨i, hi, h⟩ := bind_inv h
      obtain ⟨s, hs, h⟩ := bind_inv h
      have hs := configured_ok hs
      have e := small_id (of_get hs) (hsmall _ _ ho).archivers
      obtain ⟨s', hs', hid, hsam, hr⟩ := archiver_right h
      rw [e] at hs' hid
      rw [hs, Option.some.injEq] at hs'
      subst hs'
      exact ⟨name, path, a, rest, o, i, _, rfl, ho, hi, hid, fun hc => (nomatch hc), fun _ => samples_given hn hsam,
        by rw [hid]; simp [own, hs], hr⟩
    · exact nomatch h
  | watchtower =>
    simp only [start] at h
    unfold watchtowerd at h
    split at h
    · next name path a rest =>
      simp only [Start.reads.injEq] at h
      obtain ⟨i, hi, h⟩ := bind_inv h
      obtain ⟨o, ho, h⟩ := bind_inv h
      obtain ⟨s, hs, h⟩ := bind_inv h
      have hs := subscript_ok hs
      have e := small_id (of_get hs) (hsmall _ _ ho).watchtowers
      obtain ⟨s', hs', hid, hr⟩ := watchtower_right h
      rw [e] at hs' hid
      rw [hs, Option.some.injEq] at hs'
      subst hs'
      exact ⟨name, path, a, rest, o, i, _, rfl, ho, hi, hid, fun hc => (nomatch hc), fun hc => (nomatch hc),
        by rw [hid]; simp [own, hs], hr⟩
    · exact nomatch h
  | atomizer =>
    simp only [start] at h
    unfold atomizerd at h
    split at h
    · next name path a rest =>
      simp only [Start.reads.injEq] at h
      obtain ⟨i, hi, h⟩ := bind_inv h
      obtain ⟨o, ho, h⟩ := bind_inv h
      obtain ⟨s, hs, h⟩ := bind_inv h
      have hs := configured_ok hs
      have e := small_id (of_get hs) (hsmall _ _ ho).atomizers
      obtain ⟨s', hs', hid, hr⟩ := atomizer_right h
      rw [e] at hs' hid hr
      rw [hs, Option.some.injEq] at hs'
      subst hs'
      exact ⟨name, path, a, rest, o, i, _, rfl, ho, hi, hid, fun hc => (nomatch hc), fun hc => (nomatch hc),
        by rw [hid]; simp only [own, hs, Option.map_some], hr⟩
    · exact nomatch h
  | lockingShard =>
    simp only [start] at h
    unfold lockingShardd at h
    split at h
    · next name path a b rest =>
      simp only [Start.reads.injEq] at h
      obtain ⟨o, ho, h⟩ := bind_inv h
      obtain ⟨i, hi, h⟩ := bind_inv h
      obtain ⟨j, hj, h⟩ := bind_inv h
      obtain ⟨v, hv, h⟩ := bind_inv h
      obtain ⟨n, hn, h⟩ := bind_inv h
      obtain ⟨s, hs, h⟩ := bind_inv h
      have hv := configured_ok hv
      have hn := configured_ok hn
      have hs := subscript_ok hs
      obtain ⟨v', n', hv', hn', hid, hnode, hr⟩ := lockingShard_right h
      rw [hv, Option.some.injEq] at hv'
      subst hv'
      rw [hn, Option.some.injEq] at hn'
      subst hn'
      exact ⟨name, path, a, b :: rest, o, i, _, rfl, ho, hi, hid,
        fun _ => ⟨b, rest, j, rfl, hj, hnode⟩, fun hc => (nomatch hc),
        by rw [hid, hnode]; simp only [own, hs, hv, hn, Option.bind_some, Option.map_some], hr⟩
    · exact nomatch h
  | coordinator =>
    simp only [start] at h
    unfold coordinatord at h
    split at h
    · next name path a b rest =>
      simp only [Start.reads.injEq] at h
      obtain ⟨o, ho, h⟩ := bind_inv h
      obtain ⟨i, hi, h⟩ := bind_inv h
      obtain ⟨j, hj, h⟩ := bind_inv h
      obtain ⟨v, hv, h⟩ := bind_inv h
      obtain ⟨n, hn, h⟩ := bind_inv h
      have hv := configured_ok hv
      have hn := configured_ok hn
      obtain ⟨v', n', hv', hn', hid, hnode, hr⟩ := coordinator_right h
      rw [hv, Option.some.injEq] at hv'
      subst hv'
      rw [hn, Option.some.injEq] at hn'
      subst hn'
      exact ⟨name, path, a, b :: rest, o, i, _, rfl, ho, hi, hid,
        fun _ => ⟨b, rest, j, rfl, hj, hnode⟩, fun hc => (nomatch hc),
        by rw [hid, hnode]; simp only [own, hv, hn, Option.bind_some, Option.map_some], hr⟩
    · exact nomatch h

theorem beyond_false {i : UInt64} {n : Nat} (h : i.toNat < n) (hn : n < 2 ^ 32) :
    beyond i n = false := by
  unfold beyond
  have h1 : n.toUInt64.toNat = n := Nat.mod_eq_of_lt (by omega)
  have h3 : (n.toUInt64 - 1).toNat = n - 1 := by
    rw [UInt64.toNat_sub_of_le]
    · rw [h1]; rfl
    · rw [UInt64.le_iff_toNat_le, h1]
      have : (1 : UInt64).toNat = 1 := rfl
      omega
  rw [decide_eq_false_iff_not, UInt64.lt_iff_toNat_lt, h3]
  omega

theorem beyond_empty (i : UInt64) : beyond i 0 = false := by
  unfold beyond
  rw [decide_eq_false_iff_not, UInt64.lt_iff_toNat_lt]
  have : ((0 : Nat).toUInt64 - 1).toNat = 2 ^ 64 - 1 := by decide
  have := i.toNat_lt
  omega

/-- The number behind a decimal. -/
theorem number {i n : Nat} (h : i < n) (hn : n < 2 ^ 32) : ∃ u : UInt64, stoull (dec i) = .ok u ∧
    u.toNat = i ∧ u.toUInt32.toNat = i := by
  have e : i.toUInt64.toNat = i := Nat.mod_eq_of_lt (by omega)
  refine ⟨i.toUInt64, stoull_dec i (by omega), e, ?_⟩
  rw [small_id (n := n) (by rw [e]; exact h) hn, e]

/-- **C120.** A program that is given an accepted configuration and the decimal number of
a component (and node) of it runs, as this component, if the component has what it
needs.  Partial: that a node of a cluster needs all clusters of its kind to be as large is not
what the configuration says, see `C120_clusters_violated`. -/
theorem C120_starts_partial (p : Platform) (files : Text → Text) (d : Program) (name path : Text)
    (o : FullOptions) (i j : Nat) (w : Own) (ho : loadOptions p (files path) = .ok o)
    (hsmall : Small o) (hw : own o i j d = some w) (hr : Ready o i j d) :
    ∃ r, start p files d (line name path i j d) = .reads (.ok r) ∧ r.id = i ∧
      (clustered d = true → r.node = j) ∧ Right o d w r := by
  have hsh := shape ho
  cases d with
  | sentinel =>
    simp only [own, Option.map_eq_some_iff] at hw
    obtain ⟨s, hs, rfl⟩ := hw
    obtain ⟨u, hu, e, e2⟩ := number (of_get hs) hsmall.sentinels
    obtain ⟨k, hk⟩ := Option.ne_none_iff_exists'.mp (hr s hs)
    have hc : ∃ r, sentinelControl o u.toUInt32 s.level = .ok r := by
      unfold sentinelControl
      rw [e2, hs]
      simp only [hk]
      exact ⟨_, rfl⟩
    obtain ⟨r, hc⟩ := hc
    obtain ⟨s', hs', hid, hright⟩ := sentinel_right hc
    rw [e2] at hs' hid
    rw [hs, Option.some.injEq] at hs'
    subst hs'
    refine ⟨r, ?_, hid, fun h => (nomatch h), hright⟩
    simp only [start, line, clustered, reduceCtorEq, decide_false, Bool.or_self, Bool.false_eq_true,
      if_false, sentineld, hu, Outcome.bind_ok, ho, e, hs, configured, hc]
  | sentinelTwo =>
    simp only [own, Option.map_eq_some_iff] at hw
    obtain ⟨s, hs, rfl⟩ := hw
    obtain ⟨u, hu, e, e2⟩ := number (of_get hs) hsmall.sentinels
    have hlen : 0 < o.coordinators.length := List.length_pos_iff.mpr hr.1
    have hn : o.coordinators.length.toUInt32.toNat = o.coordinators.length :=
      Nat.mod_eq_of_lt hsmall.coordinators
    have hc : ∃ r, sentinelTwoControl o u.toUInt32 s.level = .ok r := by
      unfold sentinelTwoControl
      have h0 : o.coordinators.length.toUInt32 ≠ 0 := by
        intro h
        rw [h] at hn
        have : (0 : UInt32).toNat = 0 := rfl
        omega
      have hm : (u.toUInt32 % o.coordinators.length.toUInt32).toNat < o.coordinators.length := by
        rw [UInt32.toNat_mod, hn]
        exact Nat.mod_lt _ hlen
      rw [if_neg h0, List.getElem?_eq_getElem hm, e2, hs]
      have hk : ¬ (s.priv = none ∧ 0 < o.threshold) := by
        rintro ⟨h1, h2⟩
        refine hr.2 (fun h => ?_) s hs h1
        rw [h] at h2
        exact absurd h2 (by decide)
      simp only [if_neg hk]
      exact ⟨_, rfl⟩
    obtain ⟨r, hc⟩ := hc
    obtain ⟨s', hs', hid, hright⟩ := sentinelTwo_right hsmall.coordinators hc
    rw [e2] at hs' hid
    rw [hs, Option.some.injEq] at hs'
    subst hs'
    refine ⟨r, ?_, hid, fun h => (nomatch h), hright⟩
    simp only [start, line, clustered, reduceCtorEq, decide_false, Bool.or_self, Bool.false_eq_true,
      if_false, sentinelTwod, hu, Outcome.bind_ok, ho, e, hs, configured, hc]
  | shard =>
    simp only [own, Option.bind_eq_some_iff, Option.map_eq_some_iff] at hw
    obtain ⟨s, hs, q, hq, rfl⟩ := hw
    obtain ⟨u, hu, e, e2⟩ := number (of_get hs) hsmall.shards
    have ht : o.twoPhase = false := by
      cases ht : o.twoPhase with
      | false => rfl
      | true =>
        have := (hsh.two ht).2 s (List.mem_of_getElem? hs)
        rw [this] at hq
        exact nomatch hq
    have hpl : (places o)[i]? = some q := by
      unfold places
      rw [places_get _ (hsh.one ht).2, hs]
      exact hq
    obtain ⟨a, l, ha⟩ := List.exists_cons_of_ne_nil (hsh.archivers ht)
    have hc : ∃ r, shardControl o u.toUInt32 s.level = .ok r := by
      unfold shardControl
      rw [e2, hs, hpl, ha]
      exact ⟨_, rfl⟩
    obtain ⟨r, hc⟩ := hc
    obtain ⟨q', hq', hid, hright⟩ := shard_right hc
    rw [e2] at hq' hid
    rw [hpl, Option.some.injEq] at hq'
    subst hq'
    refine ⟨r, ?_, hid, fun h => (nomatch h), hright⟩
    simp only [start, line, clustered, reduceCtorEq, decide_false, Bool.or_self, Bool.false_eq_true,
      if_false, shardd, hu, Outcome.bind_ok, ho, e, hs, hpl, configured, subscript, hc]
  | archiver =>
    simp only [own, Option.map_eq_some_iff] at hw
    obtain ⟨s, hs, rfl⟩ := hw
    obtain ⟨u, hu, e, e2⟩ := number (of_get hs) hsmall.archivers
    have hc : ∃ r, archiverControl o u.toUInt32 s.level 0 = .ok r := by
      unfold archiverControl
      rw [e2, hs]
      exact ⟨_, rfl⟩
    obtain ⟨r, hc⟩ := hc
    obtain ⟨s', hs', hid, _, hright⟩ := archiver_right hc
    rw [e2] at hs' hid
    rw [hs, Option.some.injEq] at hs'
    subst hs'
    refine ⟨r, ?_, hid, fun h => (nomatch h), hright⟩
    simp only [start, line, clustered, reduceCtorEq, decide_false, Bool.or_self, Bool.false_eq_true,
      if_false, archiverd, archiverSamples, hu, Outcome.bind_ok, ho, e, hs, configured, hc]
  | watchtower =>
    simp only [own, Option.map_eq_some_iff] at hw
    obtain ⟨s, hs, rfl⟩ := hw
    obtain ⟨u, hu, e, e2⟩ := number (of_get hs) hsmall.watchtowers
    obtain ⟨a, l, ha⟩ := List.exists_cons_of_ne_nil hr
    have hc : ∃ r, watchtowerControl o u.toUInt32 s.level = .ok r := by
      unfold watchtowerControl
      rw [e2, hs, ha]
      exact ⟨_, rfl⟩
    obtain ⟨r, hc⟩ := hc
    obtain ⟨s', hs', hid, hright⟩ := watchtower_right hc
    rw [e2] at hs' hid
    rw [hs, Option.some.injEq] at hs'
    subst hs'
    refine ⟨r, ?_, hid, fun h => (nomatch h), hright⟩
    simp only [start, line, clustered, reduceCtorEq, decide_false, Bool.or_self, Bool.false_eq_true,
      if_false, watchtowerd, hu, Outcome.bind_ok, ho, e, hs, subscript, hc]
  | atomizer =>
    simp only [own, Option.map_eq_some_iff] at hw
    obtain ⟨s, hs, rfl⟩ := hw
    obtain ⟨u, hu, e, e2⟩ := number (of_get hs) hsmall.atomizers
    have hc : ∃ r, atomizerControl o u.toUInt32 s.level = .ok r := by
      unfold atomizerControl
      rw [e2, hs]
      exact ⟨_, rfl⟩
    obtain ⟨r, hc⟩ := hc
    obtain ⟨s', hs', hid, hright⟩ := atomizer_right hc
    rw [e2] at hs' hid hright
    rw [hs, Option.some.injEq] at hs'
    subst hs'
    refine ⟨r, ?_, hid, fun h => (nomatch h), hright⟩
    simp only [start, line, clustered, reduceCtorEq, decide_false, Bool.or_self, Bool.false_eq_true,
      if_false, atomizerd, hu, Outcome.bind_ok, ho, e, hs, configured, hc]
  | lockingShard =>
    simp only [own, Option.bind_eq_some_iff, Option.map_eq_some_iff] at hw
    obtain ⟨s, hs, v, hv, n, hn, rfl⟩ := hw
    have ht : o.twoPhase = true := by
      cases ht : o.twoPhase with
      | true => rfl
      | false =>
        rw [(hsh.one ht).1] at hv
        simp at hv
    have hlen := (hsh.two ht).1
    obtain ⟨u, hu, e, e2⟩ := number (of_get hs) hsmall.shards
    obtain ⟨x, hx, f, f2⟩ := number (of_get hn) (hsmall.nodes v (List.mem_of_getElem? hv))
    have hc : ∃ r, lockingShardControl o u x s.level = .ok r := by
      unfold lockingShardControl
      have b1 : beyond u o.shards.length = false :=
        beyond_false (by rw [e]; exact of_get hs) hsmall.shards
      have b2 : beyond u o.shardNodes.length = false := by rw [hlen]; exact b1
      have b3 : (o.shardNodes.any fun v => beyond x v.length) = false := by
        rw [List.any_eq_false]
        intro y hy
        rw [Bool.not_eq_true]
        rcases hr y hy with h | h
        · rw [h]; exact beyond_empty x
        · exact beyond_false (by rw [f]; exact h) (hsmall.nodes y hy)
      rw [b1, b2, b3, e, hv]
      simp only [Bool.false_eq_true, if_false, f, hn]
      exact ⟨_, rfl⟩
    obtain ⟨r, hc⟩ := hc
    obtain ⟨v', n', hv', hn', hid, hnode, hright⟩ := lockingShard_right hc
    rw [e] at hv' hid
    rw [hv, Option.some.injEq] at hv'
    subst hv'
    rw [f] at hn' hnode hright
    rw [hn, Option.some.injEq] at hn'
    subst hn'
    refine ⟨r, ?_, hid, fun _ => hnode, hright⟩
    simp only [start, line, clustered, decide_true, Bool.true_or, if_true, lockingShardd, hu, hx,
      Outcome.bind_ok, ho, e, f, hs, hv, hn, configured, subscript, hc]
  | coordinator =>
    simp only [own, Option.bind_eq_some_iff, Option.map_eq_some_iff] at hw
    obtain ⟨v, hv, n, hn, rfl⟩ := hw
    obtain ⟨u, hu, e, e2⟩ := number (of_get hv) hsmall.coordinators
    obtain ⟨x, hx, f, f2⟩ := number (of_get hn) (hsmall.members v (List.mem_of_getElem? hv))
    have hc : ∃ r, coordinatorControl o u x v.level = .ok r := by
      unfold coordinatorControl
      have b1 : beyond u o.coordinators.length = false :=
        beyond_false (by rw [e]; exact of_get hv) hsmall.coordinators
      have b3 : (o.coordinators.any fun v => beyond x v.nodes.length) = false := by
        rw [List.any_eq_false]
        intro y hy
        rw [Bool.not_eq_true]
        rcases hr y hy with h | h
        · rw [h]; exact beyond_empty x
        · exact beyond_false (by rw [f]; exact h) (hsmall.members y hy)
      rw [b1, b3, e, hv]
      simp only [Bool.false_eq_true, if_false, f, hn]
      exact ⟨_, rfl⟩
    obtain ⟨r, hc⟩ := hc
    obtain ⟨v', n', hv', hn', hid, hnode, hright⟩ := coordinator_right hc
    rw [e] at hv' hid
    rw [hv, Option.some.injEq] at hv'
    subst hv'
    rw [f] at hn' hnode hright
    rw [hn, Option.some.injEq] at hn'
    subst hn'
    refine ⟨r, ?_, hid, fun _ => hnode, hright⟩
    simp only [start, line, clustered, reduceCtorEq, decide_false, decide_true, Bool.or_true, if_true, coordinatord, hu, hx,
      Outcome.bind_ok, ho, e, f, hv, hn, configured, hc]

/-! ### Arguments that name nothing -/

/-- **C120.** A program that is given the number of a component that is not
configured says so and ends with an error.  Partial: a watchtower does not, see
`C120_watchtower_violated`. -/
theorem C120_refused_partial (p : Platform) (files : Text → Text) (d : Program) (name path a : Text)
    (rest : List Text) (o : FullOptions) (i j : UInt64) (ho : loadOptions p (files path) = .ok o)
    (hi : stoull a = .ok i)
    (hj : clustered d = true → ∃ b more, rest = b :: more ∧ stoull b = .ok j)
    (hm : d = .archiver → ∀ b more, rest = b :: more → ∃ n, stoull b = .ok n)
    (hd : d ≠ .watchtower) (hw : own o i.toNat j.toNat d = none) :
    start p files d (name :: path :: a :: rest) = .reads .refused := by
  have hsh := shape ho
  cases d with
  | sentinel =>
    have hs : o.sentinels[i.toNat]? = none := by simpa only [own, Option.map_eq_none_iff] using hw
    simp only [start, sentineld, hi, ho, Outcome.bind_ok, hs, configured, Outcome.bind_refused]
  | sentinelTwo =>
    have hs : o.sentinels[i.toNat]? = none := by simpa only [own, Option.map_eq_none_iff] using hw
    simp only [start, sentinelTwod, hi, ho, Outcome.bind_ok, hs, configured, Outcome.bind_refused]
  | shard =>
    have hs : (places o)[i.toNat]? = none := by
      cases ht : o.twoPhase with
      | true => rw [places_two (hsh.two ht).2]; rfl
      | false =>
        unfold places
        rw [places_get _ (hsh.one ht).2]
        simp only [own] at hw
        cases hx : o.shards[i.toNat]? with
        | none => rfl
        | some s =>
          rw [hx] at hw
          simpa only [Option.bind_some, Option.map_eq_none_iff] using hw
    simp only [start, shardd, hi, ho, Outcome.bind_ok, hs, configured, Outcome.bind_refused]
  | archiver =>
    have hs : o.archivers[i.toNat]? = none := by simpa only [own, Option.map_eq_none_iff] using hw
    have hr : ∃ n, archiverSamples rest = .ok n := by
      cases rest with
      | nil => exact ⟨0, rfl⟩
      | cons b m => exact hm rfl b m rfl
    obtain ⟨n, hr⟩ := hr
    simp only [start, archiverd, hr, hi, ho, Outcome.bind_ok, hs, configured, Outcome.bind_refused]
  | watchtower => exact absurd rfl hd
  | atomizer =>
    have hs : o.atomizers[i.toNat]? = none := by simpa only [own, Option.map_eq_none_iff] using hw
    simp only [start, atomizerd, hi, ho, Outcome.bind_ok, hs, configured, Outcome.bind_refused]
  | lockingShard =>
    obtain ⟨b, more, rfl, hb⟩ := hj rfl
    cases hv : o.shardNodes[i.toNat]? with
    | none =>
      simp only [start, lockingShardd, hi, hb, ho, Outcome.bind_ok, hv, configured,
        Outcome.bind_refused]
    | some v =>
      have ht : o.twoPhase = true := by
        cases ht : o.twoPhase with
        | true => rfl
        | false => rw [(hsh.one ht).1] at hv; simp at hv
      have hl : i.toNat < o.shards.length := by rw [← (hsh.two ht).1]; exact of_get hv
      have hn : v[j.toNat]? = none := by
        simp only [own, List.getElem?_eq_getElem hl, hv, Option.bind_some,
          Option.map_eq_none_iff] at hw
        exact hw
      simp only [start, lockingShardd, hi, hb, ho, Outcome.bind_ok, hv, hn, configured,
        Outcome.bind_refused]
  | coordinator =>
    obtain ⟨b, more, rfl, hb⟩ := hj rfl
    cases hv : o.coordinators[i.toNat]? with
    | none =>
      simp only [start, coordinatord, hi, hb, ho, Outcome.bind_ok, hv, configured,
        Outcome.bind_refused]
    | some v =>
      have hn : v.nodes[j.toNat]? = none := by
        simp only [own, hv, Option.bind_some, Option.map_eq_none_iff] at hw
        exact hw
      simp only [start, coordinatord, hi, hb, ho, Outcome.bind_ok, hv, hn, configured,
        Outcome.bind_refused]

theorem bind_undefined {α β : Type} {x : Outcome α} {f : α → Outcome β}
    (h : x >>= f = .undefined) : x = .undefined ∨ ∃ a, x = .ok a ∧ f a = .undefined := by
  cases x with
  | ok a => exact .inr ⟨a, rfl, h⟩
  | refused => exact nomatch h
  | throws => exact nomatch h
  | undefined => exact .inl rfl

theorem stoullDigits_defined (t : Text) : Http.stoullDigits t ≠ .undefined := by
  unfold Http.stoullDigits
  split
  · simp
  · split <;> simp

theorem stoull_defined (t : Text) : stoull t ≠ .undefined := by
  intro h
  unfold stoull at h
  split at h <;>
  · rcases bind_undefined h with h | ⟨n, _, h⟩
    · exact stoullDigits_defined _ h
    · exact nomatch h

theorem configured_defined {α : Type} (x : Option α) : configured x ≠ .undefined := by
  cases x <;> simp [configured]

/-- What keeps a program within its options: the file itself is read without a fault, and sentinels of
the two-phase architecture are given a configuration of that architecture. -/
structure Sane (p : Platform) (files : Text → Text) (d : Program) : Prop where
  readable : ∀ t, loadOptions p (files t) ≠ .undefined
  small : ∀ t o, loadOptions p (files t) = .ok o → Small o
  two : d = .sentinelTwo → ∀ t o, loadOptions p (files t) = .ok o → o.twoPhase = true

/-- **C120.** No program reads outside its options, whatever its arguments are.  Partial: a
watchtower does (`C120_watchtower_violated`), and a sentinel of the two-phase architecture
does with a configuration of the other architecture (`C120_architecture_violated`). -/
theorem C120_inside_partial (p : Platform) (files : Text → Text) (d : Program) (args : List Text)
    (hs : Sane p files d) (hd : d ≠ .watchtower) :
    start p files d args ≠ .reads .undefined := by
  intro h
  cases d with
  | watchtower => exact hd rfl
  | sentinel =>
    simp only [start] at h
    unfold sentineld at h
    split at h
    · simp only [Start.reads.injEq] at h
      rcases bind_undefined h with h | ⟨i, hi, h⟩
      · exact stoull_defined _ h
      rcases bind_undefined h with h | ⟨o, ho, h⟩
      · exact hs.readable _ h
      rcases bind_undefined h with h | ⟨s, hc, h⟩
      · exact configured_defined _ h
      unfold sentinelControl at h
      split at h
      · exact nomatch h
      · split at h <;> exact nomatch h
    · exact nomatch h
  | sentinelTwo =>
    simp only [start] at h
    unfold sentinelTwod at h
    split at h
    · simp only [Start.reads.injEq] at h
      rcases bind_undefined h with h | ⟨i, hi, h⟩
      · exact stoull_defined _ h
      rcases bind_undefined h with h | ⟨o, ho, h⟩
      · exact hs.readable _ h
      rcases bind_undefined h with h | ⟨s, hc, h⟩
      · exact configured_defined _ h
      have hlen : 0 < o.coordinators.length :=
        List.length_pos_iff.mpr ((shape ho).coordinators (hs.two rfl _ _ ho))
      have hn : o.coordinators.length.toUInt32.toNat = o.coordinators.length :=
        Nat.mod_eq_of_lt (hs.small _ _ ho).coordinators
      unfold sentinelTwoControl at h
      split at h
      · next h0 =>
        rw [h0] at hn
        have : (0 : UInt32).toNat = 0 := rfl
        omega
      · split at h
        · next hnone =>
          rw [List.getElem?_eq_none_iff, UInt32.toNat_mod, hn] at hnone
          have := Nat.mod_lt i.toUInt32.toNat hlen
          omega
        · split at h
          · exact nomatch h
          · split at h <;> exact nomatch h
    · exact nomatch h
  | shard =>
    simp only [start] at h
    unfold shardd at h
    split at h
    · simp only [Start.reads.injEq] at h
      rcases bind_undefined h with h | ⟨i, hi, h⟩
      · exact stoull_defined _ h
      rcases bind_undefined h with h | ⟨o, ho, h⟩
      · exact hs.readable _ h
      rcases bind_undefined h with h | ⟨q, hq, h⟩
      · exact configured_defined _ h
      have hq := configured_ok hq
      have hsh := shape ho
      have ht : o.twoPhase = false := by
        cases ht : o.twoPhase with
        | false => rfl
        | true => rw [places_two (hsh.two ht).2] at hq; simp at hq
      have hg := places_get _ (hsh.one ht).2 i.toNat
      have hq' := hq
      unfold places at hq'
      rw [hq'] at hg
      cases hx : o.shards[i.toNat]? with
      | none => rw [hx] at hg; exact nomatch hg
      | some s =>
        rw [hx] at h
        simp only [subscript, Outcome.bind_ok] at h
        have e := small_id (of_get hx) (hs.small _ _ ho).shards
        obtain ⟨a, l, ha⟩ := List.exists_cons_of_ne_nil (hsh.archivers ht)
        unfold shardControl at h
        rw [e, hx, hq, ha] at h
        exact nomatch h
    · exact nomatch h
  | archiver =>
    simp only [start] at h
    unfold archiverd at h
    split at h
    · simp only [Start.reads.injEq] at h
      rcases bind_undefined h with h | ⟨n, hn, h⟩
      · unfold archiverSamples at h
        split at h
        · exact stoull_defined _ h
        · exact nomatch h
      rcases bind_undefined h with h | ⟨o, ho, h⟩
      · exact hs.readable _ h
      rcases bind_undefined h with h | ⟨i, hi, h⟩
      · exact stoull_defined _ h
      rcases bind_undefined h with h | ⟨s, hc, h⟩
      · exact configured_defined _ h
      have hc := configured_ok hc
      have e := small_id (of_get hc) (hs.small _ _ ho).archivers
      unfold archiverControl at h
      rw [e, hc] at h
      exact nomatch h
    · exact nomatch h
  | atomizer =>
    simp only [start] at h
    unfold atomizerd at h
    split at h
    · simp only [Start.reads.injEq] at h
      rcases bind_undefined h with h | ⟨i, hi, h⟩
      · exact stoull_defined _ h
      rcases bind_undefined h with h | ⟨o, ho, h⟩
      · exact hs.readable _ h
      rcases bind_undefined h with h | ⟨s, hc, h⟩
      · exact configured_defined _ h
      have hc := configured_ok hc
      have e := small_id (of_get hc) (hs.small _ _ ho).atomizers
      unfold atomizerControl at h
      rw [e, hc] at h
      exact nomatch h
    · exact nomatch h
  | lockingShard =>
    simp only [start] at h
    unfold lockingShardd at h
    split at h
    · simp only [Start.reads.injEq] at h
      rcases bind_undefined h with h | ⟨o, ho, h⟩
      · exact hs.readable _ h
      rcases bind_undefined h with h | ⟨i, hi, h⟩
      · exact stoull_defined _ h
      rcases bind_undefined h with h | ⟨j, hj, h⟩
      · exact stoull_defined _ h
      rcases bind_undefined h with h | ⟨v, hv, h⟩
      · exact configured_defined _ h
      rcases bind_undefined h with h | ⟨n, hn, h⟩
      · exact configured_defined _ h
      have hv := configured_ok hv
      have hn := configured_ok hn
      have hsh := shape ho
      have ht : o.twoPhase = true := by
        cases ht : o.twoPhase with
        | true => rfl
        | false => rw [(hsh.one ht).1] at hv; simp at hv
      have hl : i.toNat < o.shards.length := by rw [← (hsh.two ht).1]; exact of_get hv
      rw [List.getElem?_eq_getElem hl] at h
      simp only [subscript, Outcome.bind_ok] at h
      unfold lockingShardControl at h
      rw [hv] at h
      simp only [hn] at h
      split at h
      · exact nomatch h
      · split at h
        · exact nomatch h
        · split at h <;> exact nomatch h
    · exact nomatch h
  | coordinator =>
    simp only [start] at h
    unfold coordinatord at h
    split at h
    · simp only [Start.reads.injEq] at h
      rcases bind_undefined h with h | ⟨o, ho, h⟩
      · exact hs.readable _ h
      rcases bind_undefined h with h | ⟨i, hi, h⟩
      · exact stoull_defined _ h
      rcases bind_undefined h with h | ⟨j, hj, h⟩
      · exact stoull_defined _ h
      rcases bind_undefined h with h | ⟨v, hv, h⟩
      · exact configured_defined _ h
      rcases bind_undefined h with h | ⟨n, hn, h⟩
      · exact configured_defined _ h
      have hv := configured_ok hv
      have hn := configured_ok hn
      unfold coordinatorControl at h
      rw [hv] at h
      simp only [hn] at h
      split at h
      · exact nomatch h
      · split at h <;> exact nomatch h
    · exact nomatch h

/-! ### What goes wrong -/

/-- **C120.** A watchtower that is given a number that is not configured reads outside of its
options: with the file that is shipped, which has one watchtower, and the number 1. -/
theorem C120_watchtower_violated :
    start bare (fun _ => shippedAtomizer) .watchtower [lit "watchtowerd", lit "cfg", lit "1"] =
      .reads .undefined ∧
    start bare (fun _ => shippedAtomizer) .archiver [lit "archiverd", lit "cfg", lit "1"] =
      .reads .refused := by
  constructor
  · show Start.reads _ = _
    congr 1
    have h : loadOptions bare shippedAtomizer = .ok _ := C108_shipped.2
    have h1 : stoull (lit "1") = .ok 1 := by decide +kernel
    rw [h1, Outcome.bind_ok, h]
    rfl
  · show Start.reads _ = _
    congr 1
    have h : loadOptions bare shippedAtomizer = .ok _ := C108_shipped.2
    have h1 : stoull (lit "1") = .ok 1 := by decide +kernel
    rw [show archiverSamples [] = .ok 0 from rfl, Outcome.bind_ok, h, Outcome.bind_ok, h1]
    rfl

/-- **C120.** A sentinel of the two-phase architecture that is given a configuration of the other
architecture divides by zero, as there are no coordinators; a sentinel of the other architecture that
is given a configuration of the two-phase architecture runs, though there are no
shards it could use. -/
theorem C120_architecture_violated :
    start bare (fun _ => shippedAtomizer) .sentinelTwo [lit "sentineld-2pc", lit "cfg", lit "0"] =
      .reads .undefined ∧
    ∃ r, start bare (fun _ => shippedTwoPhase) .sentinel [lit "sentineld", lit "cfg", lit "0"] =
      .reads (.ok r) ∧ r.plan = [.serve (lit "sentinel0", 5555)] := by
  have h1 : stoull (lit "0") = .ok 0 := by decide +kernel
  constructor
  · show Start.reads _ = _
    congr 1
    have h : loadOptions bare shippedAtomizer = .ok _ := C108_shipped.2
    rw [h1, Outcome.bind_ok, h]
    rfl
  · have h : loadOptions bare shippedTwoPhase = .ok _ := C108_shipped.1
    have e : ∃ r, (do
        let id ← stoull (lit "0")
        let o ← loadOptions bare shippedTwoPhase
        let s ← configured o.sentinels[id.toNat]?
        sentinelControl o id.toUInt32 s.level) = .ok r ∧ r.plan = [.serve (lit "sentinel0", 5555)] := by
      rw [h1, Outcome.bind_ok, h]
      exact ⟨_, rfl, rfl⟩
    obtain ⟨r, e, e2⟩ := e
    exact ⟨r, congrArg Start.reads e, e2⟩

/-- The file that is shipped with a second coordinator, which has two nodes. -/
def unequalFile : Text :=
  lit "coordinator_count=2\n" ++
  lit "coordinator1_count=2\n" ++
  lit "coordinator1_loglevel=\"INFO\"\n" ++
  lit "coordinator1_0_endpoint=\"d:2\"\n" ++
  lit "coordinator1_0_raft_endpoint=\"d:1\"\n" ++
  lit "coordinator1_1_endpoint=\"e:2\"\n" ++
  lit "coordinator1_1_raft_endpoint=\"e:1\"\n" ++ shippedTwoPhase

/-- **C120.** The second node of a coordinator does not start if another coordinator
has only one node, though it is configured. -/
theorem C120_clusters_violated : ∃ o, loadOptions bare unequalFile = .ok o ∧
    (own o 1 1 .coordinator).isSome = true ∧
    start bare (fun _ => unequalFile) .coordinator
      [lit "coordinatord", lit "cfg", lit "1", lit "1"] = .reads .refused := by
  have h : loadOptions bare unequalFile = .ok {
      twoPhase := true
      sentinels := [⟨(lit "sentinel0", 5555), .warn, some shippedPriv, some shippedPub⟩]
      coordinators := [⟨.info, [((lit "coordinator0", 7778), (lit "coordinator0", 7777))]⟩,
        ⟨.info, [((lit "d", 1), (lit "d", 2)), ((lit "e", 1), (lit "e", 2))]⟩]
      threads := 100
      shards := [⟨none, .info, (0, 255)⟩]
      shardNodes := [[⟨(lit "shard0", 6667), (lit "shard0", 6666), (lit "shard0", 6767)⟩]] } := by
    decide +kernel
  have h1 : stoull (lit "1") = .ok 1 := by decide +kernel
  refine ⟨_, h, rfl, ?_⟩
  show Start.reads _ = _
  congr 1
  rw [h, Outcome.bind_ok, h1]
  rfl

/-- **C120.** A number followed by something else counts as this number, and a negative number
as the one that is left when 2^64 is added: these arguments all name sentinel 0. -/
theorem C120_number_violated :
    stoull (lit "0x1") = .ok 0 ∧ stoull (lit "0,1") = .ok 0 ∧ stoull (lit " -0") = .ok 0 ∧
    ∃ r, start bare (fun _ => shippedTwoPhase) .sentinelTwo
      [lit "sentineld-2pc", lit "cfg", lit "0x1"] = .reads (.ok r) ∧ r.id = 0 := by
  refine ⟨by decide +kernel, by decide +kernel, by decide +kernel, ?_⟩
  have h1 : stoull (lit "0x1") = .ok 0 := by decide +kernel
  have h : loadOptions bare shippedTwoPhase = .ok _ := C108_shipped.1
  have e : ∃ r, (do
      let id ← stoull (lit "0x1")
      let o ← loadOptions bare shippedTwoPhase
      let s ← configured o.sentinels[id.toNat]?
      sentinelTwoControl o id.toUInt32 s.level) = .ok r ∧ r.id = 0 := by
    rw [h1, Outcome.bind_ok, h]
    exact ⟨_, rfl, rfl⟩
  obtain ⟨r, e, e2⟩ := e
  exact ⟨r, congrArg Start.reads e, e2⟩

/-- **C120.** Which status a program ends with if there are too few arguments: only the sentinels
report an error. -/
theorem C120_usage_violated (p : Platform) (files : Text → Text) (d : Program) (args : List Text)
    (h : args.length < if clustered d then 4 else 3) :
    start p files d args =
      .usage (if d ∈ [.sentinel, .sentinelTwo] then -1 else 0) := by
  match args with
  | [] => cases d <;> rfl
  | [_] => cases d <;> rfl
  | [_, _] => cases d <;> rfl
  | [_, _, _] => cases d <;> first
      | rfl
      | (simp [clustered] at h)
  | _ :: _ :: _ :: _ :: l =>
    simp only [List.length_cons] at h
    split at h <;> omega

/-! ### The hypotheses are met -/

/-- The options of the file that is shipped for the atomizer architecture. -/
def shippedOptions : FullOptions where
  atomizers := [⟨(lit "atomizer0", 5555), .warn, (lit "atomizer0", 6666)⟩]
  archivers := [⟨(lit "archiver0", 4555), .warn, lit "archiver0_db"⟩]
  shards := [⟨some ((lit "shard0", 6555), lit "shard0"), .warn, (0, 255)⟩]
  sentinels := [⟨(lit "sentinel0", 7555), .info, some shippedPriv, some shippedPub⟩]
  watchtowers := [⟨(lit "watchtower0", 8555), (lit "watchtower0", 8556), .warn⟩]
  blockCache := 50
  blockInterval := 3000

theorem shipped_small : Small shippedOptions :=
  ⟨by decide, by decide, by decide, by decide, by decide, by decide,
    fun v hv => absurd hv (List.not_mem_nil), fun v hv => absurd hv (List.not_mem_nil)⟩

/-- The hypotheses of `C120_named` and `C120_inside_partial` are met by the file that is
shipped. -/
theorem shipped_sane (d : Program) (hd : d ≠ .sentinelTwo) :
    Sane bare (fun _ => shippedAtomizer) d := by
  have h : loadOptions bare shippedAtomizer = .ok shippedOptions := C108_shipped.2
  refine ⟨fun t e => ?_, fun t o e => ?_, fun e => absurd e hd⟩
  · rw [h] at e
    exact nomatch e
  · rw [h, Outcome.ok.injEq] at e
    exact e ▸ shipped_small

/-- The hypotheses of `C120_starts_partial` are met: the sentinel of the file that is shipped. -/
example : ∃ r, start bare (fun _ => shippedAtomizer) .sentinel
      (line (lit "sentineld") (lit "cfg") 0 0 .sentinel) = .reads (.ok r) ∧
      Act.serve (lit "sentinel0", 7555) ∈ r.plan ++ r.leads := by
  have h : loadOptions bare shippedAtomizer = .ok shippedOptions := C108_shipped.2
  obtain ⟨r, h1, _, _, h2⟩ := C120_starts_partial bare (fun _ => shippedAtomizer) .sentinel
    (lit "sentineld") (lit "cfg") shippedOptions 0 0 _ h shipped_small rfl (fun s hs => by
      simp only [shippedOptions, List.getElem?_cons_zero, Option.some.injEq] at hs
      subst hs
      simp)
  exact ⟨r, h1, (h2.takes _).mpr (by simp)⟩

/-- The hypotheses of `C120_refused_partial` are met: there is no second atomizer. -/
example : start bare (fun _ => shippedAtomizer) .atomizer [lit "atomizer-raftd", lit "cfg", lit "1"] =
    .reads .refused :=
  C120_refused_partial bare _ .atomizer _ _ _ [] shippedOptions 1 0 C108_shipped.2
    (by decide +kernel) (fun h => (nomatch h)) (fun h => (nomatch h)) (by decide) rfl

end Verif.Config.Daemon
