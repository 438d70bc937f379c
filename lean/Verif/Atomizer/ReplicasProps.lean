import Verif.Atomizer.ReplicasLemmas

/-! Property C122: the replicas of an atomizer are one atomizer, whatever becomes of their processes and snapshots. -/
namespace Verif.Atomizer.Replicas

open Verif.Serial hiding dec
open Verif.Evm (Outcome)
open Verif.Hex (Text)
open Verif.Http (lit stoull)
open Verif.Config (dec dec_inj)
open Verif.LockingShard.Cluster (single single_snoc single_none)

variable {c : Codec} {depth : Nat}

theorem reach (evs : List Ev) (hL : Small depth (run c depth {} evs).log) :
    Inv c depth (run c depth {} evs).log (run c depth {} evs) :=
  inv_run hL evs {} inv_new (List.prefix_refl _)

/-! ### C122 -/

/-- **C122.** Whatever happened, every replica that runs holds what a single atomizer holds after the entries which the
replica says it has executed. -/
theorem C122_is (evs : List Ev) (hL : Small depth (run c depth {} evs).log) (n : Nat) (p : Process)
    (hp : ((run c depth {} evs).replicas n).process = some p) :
    p.applied ≤ (run c depth {} evs).log.length ∧
    ∃ x rs, alone depth ((run c depth {} evs).log.take p.applied) = some (x, rs) ∧ Same p.sm x := by
  obtain ⟨_, h2, _, _, _, h6⟩ := ((reach evs hL).replica n).up p hp
  exact ⟨h2, h6⟩

/-- **C122.** Every answer, whichever replica gave it, is the one a single atomizer gives to the entries agreed on up to
that one. -/
theorem C122_replies (evs : List Ev) (hL : Small depth (run c depth {} evs).log) (i : Nat) (a : Option (Option Resp))
    (h : (i, a) ∈ (run c depth {} evs).replies) :
    ∃ x rs, alone depth ((run c depth {} evs).log.take (i + 1)) = some (x, rs) ∧ rs[i]? = some a :=
  ((reach evs hL).replies i a h).2

/-- C122. Two replicas never answer a request differently. -/
theorem C122_agree (evs : List Ev) (hL : Small depth (run c depth {} evs).log) (i : Nat) (a a' : Option (Option Resp))
    (h : (i, a) ∈ (run c depth {} evs).replies) (h' : (i, a') ∈ (run c depth {} evs).replies) : a = a' := by
  obtain ⟨x, rs, h1, h2⟩ := C122_replies evs hL i a h
  obtain ⟨x', rs', h1', h2'⟩ := C122_replies evs hL i a' h'
  rw [h1] at h1'
  cases h1'
  rw [h2] at h2'
  exact Option.some.inj h2'

/-- **C122.** A replica that was killed at any moment, also while it wrote, named or removed snapshots or received one,
starts: its newest snapshot can be read, and no entry that comes after it was dropped from its log.

Missing: that it starts whatever else is in the directory (`C122_stray_violated`) and after the computer itself went down
(`C122_power_violated`). -/
theorem C122_starts_partial (evs : List Ev) (hL : Small depth (run c depth {} evs).log) (n : Nat) :
    ∃ s k, boot c depth ((run c depth {} evs).replicas n).dir = .ok (s, k) ∧
      ((run c depth {} evs).replicas n).base ≤ k ∧ k ≤ (run c depth {} evs).log.length ∧
      ∃ x rs, alone depth ((run c depth {} evs).log.take k) = some (x, rs) ∧ Same s x := by
  have hg := (reach evs hL).replica n
  obtain ⟨s, k, x, rs, h1, h2, h3, h4, _, h6⟩ := boot_ok hL (Nat.le_refl _) hg
  refine ⟨s, k, h1, ?_, h4, x, rs, h2, h3⟩
  rcases hg.kept with hk | ⟨j, b, hj, hb⟩
  · omega
  · have := h6 j b hb
    omega

/-- **C122.** A replica that starts again and executes what was agreed on is where a single atomizer is, as long as the
entries do not end it.

Missing: as for `C122_starts_partial`. -/
theorem C122_catches_up_partial (evs : List Ev) (hL : Small depth (run c depth {} evs).log) (n : Nat) (x : SM)
    (rs : List (Option (Option Resp))) (h : alone depth (run c depth {} evs).log = some (x, rs)) :
    let s := run c depth {} (evs ++ .kill n :: .start n ::
      List.replicate (run c depth {} evs).log.length (.execute n false))
    s.log = (run c depth {} evs).log ∧
    ∃ p, (s.replicas n).process = some p ∧ p.applied = s.log.length ∧ Same p.sm x := by
  have key : ∀ (k : Nat) (s : Sys), s.log = (run c depth {} evs).log → Inv c depth (run c depth {} evs).log s →
      (∃ p, (s.replicas n).process = some p ∧ s.log.length ≤ p.applied + k) →
      let t := run c depth s (List.replicate k (.execute n false))
      t.log = (run c depth {} evs).log ∧ ∃ p, (t.replicas n).process = some p ∧ p.applied = t.log.length ∧ Same p.sm x := by
    intro k
    induction k with
    | zero =>
      rintro s hlog hi ⟨p, hp, hle⟩
      obtain ⟨_, h2, _, _, _, y, rs', h6, h7⟩ := (hi.replica n).up p hp
      refine ⟨hlog, p, hp, by show p.applied = s.log.length; omega, ?_⟩
      rw [List.take_of_length_le (by rw [← hlog]; omega), h] at h6
      cases h6
      exact h7
    | succ k ih =>
      rintro s hlog hi ⟨p, hp, hle⟩
      have hrun : run c depth s (List.replicate (k + 1) (.execute n false)) =
          run c depth (step c depth s (.execute n false)) (List.replicate k (.execute n false)) := by
        simp [run, List.replicate_succ]
      simp only [hrun]
      obtain ⟨h1, h2, _, _, _, y, rs', h6, h7⟩ := (hi.replica n).up p hp
      by_cases hend : s.log.length ≤ p.applied
      · have hst : step c depth s (.execute n false) = s := by
          simp only [step, hp, List.getElem?_eq_none hend]
          split <;> rfl
        rw [hst]
        exact ih s hlog hi ⟨p, hp, by omega⟩
      · have hlt : p.applied < s.log.length := by omega
        have he := List.getElem?_eq_getElem hlt
        have heL : (run c depth {} evs).log[p.applied]? = some s.log[p.applied] := by rw [← he, hlog]
        have htake : (run c depth {} evs).log.take (p.applied + 1) =
            (run c depth {} evs).log.take p.applied ++ [s.log[p.applied]] := by
          rw [List.take_add_one, heL]; rfl
        have hgo : ∃ z, (machine depth).commit p.sm s.log[p.applied] = some z := by
          cases hz : (machine depth).commit y s.log[p.applied] with
          | some z =>
            obtain ⟨s', hs', _⟩ := (commit_same depth h7 _).1 z hz
            exact ⟨_, hs'⟩
          | none =>
            exfalso
            have hn : single (machine depth) (SM.new depth) ((run c depth {} evs).log.take (p.applied + 1)) = none := by
              unfold alone at h6
              rw [htake, single_snoc, h6]
              show ((machine depth).commit y _).map _ = none
              rw [hz]
              rfl
            have := single_none _ _ _ ((run c depth {} evs).log.drop (p.applied + 1)) hn
            rw [List.take_append_drop] at this
            unfold alone at h
            rw [h] at this
            cases this
        obtain ⟨z, hz⟩ := hgo
        have hst : step c depth s (.execute n false) = s.set n { s.replicas n with
            process := some ⟨z.1, p.applied + 1, p.snapped⟩ } := by
          simp only [step, hp, he, Replica.execute, hz]
          rw [if_neg (by omega)]
        have hinv := inv_step hL hi (.execute n false) (by rw [hst]; exact hi.pre)
        rw [hst] at hinv ⊢
        exact ih _ hlog hinv ⟨⟨z.1, p.applied + 1, p.snapped⟩, by simp [Sys.set], by show s.log.length ≤ p.applied + 1 + k; omega⟩
  simp only
  rw [run_append]
  have hi := reach evs hL
  obtain ⟨st, k, hb, _, hk, _⟩ := C122_starts_partial evs hL n
  generalize hg : run c depth {} evs = s0 at *
  have h1 : run c depth s0 (.kill n :: .start n :: List.replicate s0.log.length (.execute n false)) =
      run c depth (step c depth (step c depth s0 (.kill n)) (.start n))
        (List.replicate s0.log.length (.execute n false)) := rfl
  have hst : step c depth (step c depth s0 (.kill n)) (.start n) =
      (s0.set n { s0.replicas n with process := none }).set n
        { s0.replicas n with process := some ⟨st, k, k⟩ } := by
    simp [step, Sys.set, Replica.start, hb]
  have hi2 := inv_step hL (inv_step hL hi (.kill n) hi.pre) (.start n) (by rw [hst]; exact hi.pre)
  rw [h1]
  rw [hst] at hi2 ⊢
  exact key _ _ rfl hi2 ⟨⟨st, k, k⟩, by simp [Sys.set], by show s0.log.length ≤ k + s0.log.length; omega⟩

/-- **C122.** The last snapshot of a leader is there to be sent, and a replica behind it that receives it holds what a
single atomizer held then, and has all its files for the next start. -/
theorem C122_transfer (evs : List Ev) (hL : Small depth (run c depth {} evs).log) (leader n : Nat) (p q : Process)
    (hp : ((run c depth {} evs).replicas leader).process = some p)
    (hq : ((run c depth {} evs).replicas n).process = some q) (hlt : q.applied < p.snapped) :
    ∃ sm, ((run c depth {} (evs ++ [.install leader n .never])).replicas n).process = some ⟨sm, p.snapped, p.snapped⟩ ∧
      ∃ x rs, alone depth ((run c depth {} evs).log.take p.snapped) = some (x, rs) ∧ Same sm x := by
  have hi := reach evs hL
  obtain ⟨_, h2, h3, h4, _⟩ := (hi.replica leader).up p hp
  obtain ⟨b, hb⟩ := h4.resolve_left (by omega)
  obtain ⟨b', hb', hh⟩ := (hi.replica leader).content hb
  have f := (hi.replica leader).file hb
  obtain ⟨hgood, hdone⟩ := good_install hL (Nat.le_refl _) (hi.replica n) hq f.1 f.2.1 hh hlt .never
  obtain ⟨sm, hsm⟩ := hdone rfl
  have hst : run c depth {} (evs ++ [.install leader n .never]) = (run c depth {} evs).set n
      (((run c depth {} evs).replicas n).install c q p.snapped b' .never) := by
    rw [run_append]
    have h1 : run c depth (run c depth {} evs) [.install leader n .never] =
        step c depth (run c depth {} evs) (.install leader n .never) := rfl
    rw [h1]
    simp only [step, hp, hq]
    rw [if_neg (by omega), hb']
  refine ⟨sm, ?_, ?_⟩
  · rw [hst]; simp [Sys.set, hsm]
  · obtain ⟨_, _, _, _, _, x, rs, h6, h7⟩ := hgood.up _ hsm
    exact ⟨x, rs, h6, h7⟩

theorem stoull_throws (t : Text) (h : ∀ i, stoull t ≠ .ok i) : stoull t = .throws := by
  have hd : ∀ u : Text, (∃ i, Verif.Http.stoullDigits u = .ok i) ∨ Verif.Http.stoullDigits u = .throws := by
    intro u
    unfold Verif.Http.stoullDigits
    split
    · exact .inr rfl
    · split
      · exact .inl ⟨_, rfl⟩
      · exact .inr rfl
  have hb : ∀ (u : Text) (g : Nat → UInt64), (∃ i, (Verif.Http.stoullDigits u >>= fun n => Outcome.ok (g n)) = .ok i) ∨
      (Verif.Http.stoullDigits u >>= fun n => Outcome.ok (g n)) = .throws := by
    intro u g
    rcases hd u with ⟨i, hi⟩ | hi
    · rw [hi]; exact .inl ⟨g i, rfl⟩
    · rw [hi]; exact .inr rfl
  have hall : (∃ i, stoull t = .ok i) ∨ stoull t = .throws := by
    unfold stoull
    split <;> exact hb _ _
  rcases hall with ⟨i, hi⟩ | hi
  · exact absurd hi (h i)
  · exact hi

theorem newest_throws (d : Dir) : ∀ m, (∃ f ∈ d, f.1 ≠ tmpName ∧ ∀ i, stoull f.1 ≠ .ok i) → newest m d = .throws := by
  induction d with
  | nil => rintro m ⟨f, hf, _⟩; cases hf
  | cons g d ih =>
    rintro m ⟨f, hf, hne, hi⟩
    rw [newest]
    by_cases hg : g.1 = tmpName
    · rw [if_pos hg]
      rcases List.mem_cons.mp hf with rfl | hf
      · exact absurd hg hne
      · exact ih m ⟨f, hf, hne, hi⟩
    · rw [if_neg hg]
      by_cases hok : ∃ i, stoull g.1 = .ok i
      · obtain ⟨i, hi'⟩ := hok
        rw [hi']
        show newest _ d = _
        rcases List.mem_cons.mp hf with rfl | hf
        · exact absurd hi' (hi i)
        · exact ih _ ⟨f, hf, hne, hi⟩
      · rw [stoull_throws g.1 (fun i h => hok ⟨i, h⟩)]
        rfl

/-- **C122 (violated).** One file in the directory whose name is no number, such as the `lost+found` of a file system of
its own, ends the process at every start, whatever snapshots there are. -/
theorem C122_stray_violated (d : Dir) (f : Text × Bytes) (hf : f ∈ d) (hne : f.1 ≠ tmpName)
    (hn : ∀ i, stoull f.1 ≠ .ok i) : boot c depth d = .throws := by
  unfold boot readSnapshot chosen
  rw [if_pos rfl, newest_throws d 0 ⟨f, hf, hne, hn⟩]
  rfl

/-- **C122 (violated).** Nothing is forced to the disk before a file gets its name. If the computer goes down then and the
newest file lost its end, the process ends at every start, although older snapshots or the log would do. -/
theorem C122_power_violated (evs : List Ev) (hL : Small depth (run c depth {} evs).log) (n : Nat) (p : Process)
    (hp : ((run c depth {} evs).replicas n).process = some p) (h0 : 0 < p.applied) (i : Nat)
    (hi : i < (p.sm.snapshotFile (c.write p.applied)).length) (d : Dir)
    (hd : d = (((run c depth {} evs).replicas n).dir.write tmpName
      ((p.sm.snapshotFile (c.write p.applied)).take i)).rename tmpName (dec p.applied)) :
    boot c depth d = .refused := by
  have hinv := reach evs hL
  have hg := hinv.replica n
  obtain ⟨_, h2, _, _, h5, x, rs, h6, h7⟩ := hg.up p hp
  have hll := hL.len
  have hnum : Numbered d := by
    intro f hf
    rw [hd] at hf
    rcases (mem_saved (dec_ne_tmp _)).mp hf with ⟨h1, _, _⟩ | h1
    · rcases hg.files f h1 with h1 | ⟨k, _, h2, h3, _⟩
      · exact .inl h1
      · exact .inr ⟨k, by omega, h3⟩
    · rw [h1]; exact .inr ⟨p.applied, by omega, rfl⟩
  have hself : (dec p.applied, (p.sm.snapshotFile (c.write p.applied)).take i) ∈ d := by
    rw [hd]; exact (mem_saved (dec_ne_tmp _)).mpr (.inr rfl)
  obtain ⟨M, m1, m2, m3, m4⟩ := newest_numbered d 0 hnum
  have hMle : p.applied ≤ M := m4 _ _ hself (by omega)
  have hM : M = p.applied := by
    rcases m3 with m3 | ⟨b, m3⟩
    · omega
    · rw [hd] at m3
      rcases (mem_saved (dec_ne_tmp _)).mp m3 with ⟨h1, _, _⟩ | h1
      · have := h5 M b h1; omega
      · exact dec_inj (congrArg Prod.fst h1)
  have hcont : d.content (dec p.applied) = some ((p.sm.snapshotFile (c.write p.applied)).take i) := by
    obtain ⟨b, hb⟩ := mem_content hself
    rw [hb]
    have hbm := content_mem hb
    rw [hd] at hbm
    rcases (mem_saved (dec_ne_tmp _)).mp hbm with ⟨_, _, h1⟩ | h1
    · exact absurd rfl h1
    · exact congrArg some (congrArg Prod.snd h1)
  have hbad : fileIndex c ((p.sm.snapshotFile (c.write p.applied)).take i) = none := by
    rw [file_same h7] at hi ⊢
    have hu := alone_uniq depth _ _ (uniq_new depth) x rs h6
    have hf := hL.fits _ x rs h6
    have ht := truncated tSnapshot (x.fileWire (c.write p.applied)) ⟨c.short _, atm_wf hu hf, blocks_wf hu hf⟩
      ((x.snapshotFile (c.write p.applied)).take i) ((x.snapshotFile (c.write p.applied)).drop i)
      (List.take_append_drop i _).symm (by
        intro he
        have := congrArg List.length he
        simp only [List.length_drop, List.length_nil] at this
        omega)
    unfold fileIndex fileIndex.dec'
    cases hdec : Serial.dec tSnapshot ((x.snapshotFile (c.write p.applied)).take i) with
    | ok v r => exact absurd hdec (ht v r)
    | fail _ => rfl
    | bad => rfl
  have hread : readSnapshot c d 0 = .refused := by
    unfold readSnapshot chosen
    rw [if_pos rfl, m1, hM]
    show (match (if p.applied = 0 then none else some p.applied) with
      | none => _
      | some m => _) = _
    rw [if_neg (by omega)]
    dsimp only
    rw [hcont]
    dsimp only
    rw [hbad]
  unfold boot
  rw [hread]
  rfl

/-! #### Examples -/

/-- A record for the examples. -/
def exCodec : Codec where
  write k := encInt 8 k
  index b :=
    match decInt 8 b with
    | .ok k _ => some k
    | _ => none
  short k := by rw [encInt_length]; decide
  back k hk := by
    have := decInt_append 8 k [] (by rw [pow256_8]; exact hk)
    rw [List.append_nil] at this
    rw [this]

/-- Entries for the examples: a configuration, a payment, and a block with it. -/
def exLog : List (Option Req) := [none, some (.notify [⟨pay, 0⟩]), some .makeBlock]

theorem pay_fits : pay.Fits := ⟨by decide, by decide, by decide, by decide⟩

theorem exSmall : Small 1 exLog := by
  refine ⟨by decide, ?_⟩
  have key : ∀ k, k ≤ 3 → ∀ x rs, alone 1 (exLog.take k) = some (x, rs) →
      x.atm.depth = 1 ∧ (∀ t ∈ x.atm.complete, t = pay) ∧ x.atm.complete.length ≤ 1 ∧ x.atm.spent.length = 2 ∧
        (∀ g ∈ x.atm.spent, g.length ≤ 1) ∧ x.atm.txs = [[], []] ∧ x.blocks.length ≤ 1 ∧
        ∀ p ∈ x.blocks, p.2.txs = [pay] := by
    intro k hk x rs h
    have : (alone 1 (exLog.take k)).all (fun r => decide (r.1.atm.depth = 1 ∧ (∀ t ∈ r.1.atm.complete, t = pay) ∧
        r.1.atm.complete.length ≤ 1 ∧ r.1.atm.spent.length = 2 ∧
        (∀ g ∈ r.1.atm.spent, g.length ≤ 1) ∧ r.1.atm.txs = [[], []] ∧ r.1.blocks.length ≤ 1 ∧
        ∀ p ∈ r.1.blocks, p.2.txs = [pay])) = true := by
      match k, hk with
      | 0, _ => decide
      | 1, _ => decide
      | 2, _ => decide
      | 3, _ => decide
    rw [h] at this
    simpa using this
  intro k x rs h
  have hk : ∃ j, j ≤ 3 ∧ exLog.take k = exLog.take j := by
    rcases Nat.lt_or_ge k 3 with h3 | h3
    · exact ⟨k, by omega, rfl⟩
    · exact ⟨3, Nat.le_refl _, by rw [List.take_of_length_le h3]; rfl⟩
  obtain ⟨j, hj, he⟩ := hk
  rw [he] at h
  obtain ⟨h1, h2, h3, h4, h5, h6, h7, h8⟩ := key j hj x rs h
  refine ⟨by omega, ⟨by omega, ?_⟩, ⟨by omega, ?_⟩, ⟨by rw [h6]; decide, ?_⟩, ⟨by omega, ?_⟩⟩
  · intro t ht; rw [h2 t ht]; exact pay_fits
  · intro g hg; have := h5 g hg; omega
  · rw [h6]
    intro m hm
    have : m = [] := by simpa using hm
    subst this
    exact ⟨by decide, fun _ he => nomatch he⟩
  · intro p hp
    rw [h8 p hp]
    refine ⟨by decide, ?_⟩
    intro t ht
    rw [List.mem_singleton.mp ht]
    exact pay_fits

/-- Two replicas. The first makes a snapshot, drops its entries, is killed in the middle of the next one and starts; the second
gets the snapshot, is killed while it receives it and starts. -/
def exEvs : List Ev :=
  [.start 0, .start 1, .agree none, .agree (some (.notify [⟨pay, 0⟩])), .execute 0 true, .execute 0 true,
    .create 0 .never, .drop 0 2, .agree (some .makeBlock), .execute 0 true, .create 0 (.writing 20), .start 0,
    .install 0 1 (.saved true), .start 1, .execute 1 true, .execute 0 true]

theorem log_run_eq (evs : List Ev) (s : Sys) : (run c depth s evs).log =
    s.log ++ evs.flatMap (fun e : Ev => match e with
      | .agree x => [x]
      | _ => []) := by
  induction evs generalizing s with
  | nil => simp [run]
  | cons e evs ih =>
    have h1 : run c depth s (e :: evs) = run c depth (step c depth s e) evs := rfl
    rw [h1, ih, List.flatMap_cons, ← List.append_assoc]
    congr 1
    cases e with
    | agree x => rfl
    | execute n a =>
      simp only [step, List.append_nil]
      repeat' split
      all_goals rfl
    | create n cut => simp only [step, List.append_nil]; split <;> rfl
    | drop n k =>
      simp only [step, List.append_nil]
      repeat' split
      all_goals rfl
    | install l n st =>
      simp only [step, List.append_nil]
      repeat' split
      all_goals rfl
    | kill n => simp [step, Sys.set]
    | start n => simp only [step, List.append_nil]; split <;> rfl

/-- The hypothesis of the theorems holds of that run: its entries are those of `exSmall`. -/
example : (run exCodec 1 {} exEvs).log = exLog := log_run_eq exEvs {}

/-- Both replicas are up to date and have answered alike. -/
example : (((run exCodec 1 {} exEvs).replicas 0).process.map fun p => p.applied) = some 3 ∧
    (((run exCodec 1 {} exEvs).replicas 1).process.map fun p => p.applied) = some 3 ∧
    ((run exCodec 1 {} exEvs).replicas 0).base = 2 ∧ ((run exCodec 1 {} exEvs).replicas 1).base = 2 ∧
    (run exCodec 1 {} exEvs).replies.map Prod.fst = [0, 1, 2, 2, 2] := by decide +kernel

/-- The single atomizer gets to the end of those entries. -/
example : (alone 1 exLog).isSome = true := by decide

/-- A replica that is behind the last snapshot of another one. -/
example : let s := run exCodec 1 {} (exEvs.take 8)
    ((s.replicas 0).process.map fun p => p.snapped) = some 2 ∧
    ((s.replicas 1).process.map fun p => p.applied) = some 0 := by decide +kernel

/-- A name that is no number. -/
example : lit "lost+found" ≠ tmpName ∧ ∀ i, stoull (lit "lost+found") ≠ .ok i := by
  refine ⟨by decide, ?_⟩
  have h : stoull (lit "lost+found") = .throws := rfl
  intro i hi
  rw [h] at hi
  cases hi

end Verif.Atomizer.Replicas
