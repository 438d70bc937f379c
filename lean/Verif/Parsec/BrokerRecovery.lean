import Verif.Parsec.BrokerStep
import Verif.Util.CacheSet

/-!
# Recovery of the PArSEC broker: runs and invariant
-/
namespace Verif.Parsec.Broker

/-! ### Runs -/

/-- The request was made. -/
def Ever (h : Hist) (c : Call) : Prop := ∃ x ∈ h, c ∈ x.2.calls

/-- Shard `j` answered `get_tickets`. -/
def Answered (h : Hist) (j : Nat) : Prop :=
  ∃ x ∈ h, ∃ cb r p, x.1 = Event.gotTickets cb j r p

/-- Shard `j` answered `get_tickets` with these tickets. -/
def Sent (h : Hist) (j : Nat) (ts : List (Tn × Parsec.TState)) : Prop :=
  ∃ x ∈ h, ∃ cb p, x.1 = Event.gotTickets cb j (some ts) p

/-- Shard `j` reported this state of transaction `t`. -/
def Reports (h : Hist) (j : Nat) (t : Tn) (st : Parsec.TState) : Prop :=
  ∃ ts, Sent h j ts ∧ (t, st) ∈ ts

/-- Shard `j` answered during recovery that it committed `t`. -/
def ConfirmedCommit (h : Hist) (j : Nat) (t : Tn) : Prop :=
  ∃ x ∈ h, ∃ c p, x.1 = Event.committed c t j none p

/-- Shard `j` answered during recovery that it rolled back `t`. -/
def ConfirmedRollback (h : Hist) (j : Nat) (t : Tn) : Prop :=
  ∃ x ∈ h, ∃ c p, x.1 = Event.rolledBack c t j none p

/-- Shard `j` answered during recovery that it finished `t`. -/
def ConfirmedFinish (h : Hist) (j : Nat) (t : Tn) : Prop :=
  ∃ x ∈ h, ∃ c, x.1 = Event.finished c t j none

/-- What happens while a new broker recovers (src/parsec/agent/agentd.cpp:86-99 waits for it
before it does anything else): each shard answers `get_tickets` once, with a map,
and shards answer requests that were made. -/
def Recov (h : Hist) : Event → Prop
  | .recover _ => h = []
  | .gotTickets cb i r _ => Ever h (.getTickets i cb) ∧ ¬Answered h i ∧
    ∀ ts, r = some ts → (ts.map fun e => e.1).Nodup
  | .committed c t i _ _ => c.recovery = true ∧ Ever h (.commit i t c)
  | .rolledBack c t i _ _ => c.recovery = true ∧ Ever h (.rollback i t c)
  | .finished c t i _ => c.recovery = true ∧ Ever h (.finish i t c)
  | _ => False

/-- Runs of a new broker with `n` shards while it recovers. -/
inductive RRun (n : Nat) : Hist → State → Prop
  | start : RRun n [] { shards := n }
  | step {h : Hist} {s s' : State} {e : Event} {o : Out} (hr : RRun n h s)
      (hp : Recov h e) (hs : step s e = some (s', o)) : RRun n ((e, o) :: h) s'

/-! ### The reports are added up -/

/-- Reports one by one. -/
def flat (rs : List (Nat × List (Tn × Parsec.TState))) :
    List (Nat × Tn × Parsec.TState) :=
  rs.flatMap fun r => r.2.map fun q => (r.1, q.1, q.2)

theorem mem_flat {rs : List (Nat × List (Tn × Parsec.TState))} {i : Nat} {t : Tn}
    {st : Parsec.TState} :
    (i, t, st) ∈ flat rs ↔ ∃ ts, (i, ts) ∈ rs ∧ (t, st) ∈ ts := by
  unfold flat
  simp only [List.mem_flatMap, List.mem_map, Prod.mk.injEq]
  constructor
  · rintro ⟨⟨j, ts⟩, hr, ⟨x, y⟩, hq, h1, h2, h3⟩
    simp only at h1 h2 h3 hq
    subst h1 h2 h3
    exact ⟨ts, hr, hq⟩
  · rintro ⟨ts, hr, hq⟩
    exact ⟨(i, ts), hr, (t, st), hq, rfl, rfl, rfl⟩

theorem addReports_flat (rs : List (Nat × List (Tn × Parsec.TState))) :
    ∀ s : State, addReports s rs =
      (flat rs).foldl (fun s r => addReport r.1 s r.2) s := by
  unfold addReports flat
  induction rs with
  | nil => exact fun s => rfl
  | cons r rs ih =>
    intro s
    rw [List.foldl_cons, List.flatMap_cons, List.foldl_append, ih,
      List.foldl_map]

/-- The broker's tickets are exactly what was reported. -/
structure Gathered (L : List (Nat × Tn × Parsec.TState)) (s : State) : Prop where
  keys : (s.tickets.map fun e => e.1).Nodup
  none : ∀ t, s.tickets.lookup t = none ↔ ∀ i st, (i, t, st) ∉ L
  some : ∀ t tk, s.tickets.lookup t = some tk → Keyed tk.shards ∧
    (∀ j sh, (j, sh) ∈ tk.shards → sh.keys = [] ∧
      ∃ st, (j, t, st) ∈ L ∧ sh.state = reported st) ∧
    ∀ j st, (j, t, st) ∈ L → has tk.shards j

theorem nodup_set {s : State} (h : (s.tickets.map fun e => e.1).Nodup) (t : Tn)
    (tk : Ticket) : ((s.set t tk).tickets.map fun e => e.1).Nodup := by
  unfold State.set
  simp only [List.map_cons, List.nodup_cons, List.mem_map, List.mem_filter]
  refine ⟨?_, ?_⟩
  · rintro ⟨e, ⟨_, he⟩, h1⟩
    simp [h1] at he
  · exact h.sublist ((List.filter_sublist).map _)

theorem Gathered.add {L : List (Nat × Tn × Parsec.TState)} {s : State}
    (g : Gathered L s) {i : Nat} {t : Tn} {st : Parsec.TState}
    (hn : ∀ st', (i, t, st') ∉ L) :
    Gathered (L ++ [(i, t, st)]) (addReport i s (t, st)) where
  keys := nodup_set g.keys _ _
  none := by
    intro x
    unfold addReport
    simp only [lookup_set, List.mem_append, List.mem_singleton, Prod.mk.injEq]
    by_cases hx : x = t
    · rw [if_pos hx]
      simp only [reduceCtorEq, false_iff, Classical.not_forall]
      exact ⟨i, st, fun h => h (.inr ⟨rfl, hx, rfl⟩)⟩
    · rw [if_neg hx, g.none]
      constructor
      · rintro h1 j st' (h2 | h2)
        · exact h1 j st' h2
        · exact hx h2.2.1
      · exact fun h1 j st' h2 => h1 j st' (.inl h2)
  some := by
    intro x tk
    unfold addReport
    simp only [lookup_set]
    by_cases hx : x = t
    · rw [if_pos hx]
      subst hx
      intro h1
      rw [← Option.some.inj h1]
      have hold : Keyed ((s.tickets.lookup x).getD {}).shards ∧
          (∀ j sh, (j, sh) ∈ ((s.tickets.lookup x).getD {}).shards →
            sh.keys = [] ∧ ∃ st, (j, x, st) ∈ L ∧ sh.state = reported st) ∧
          ∀ j st, (j, x, st) ∈ L →
            has ((s.tickets.lookup x).getD {}).shards j := by
        cases hl : s.tickets.lookup x with
        | none =>
          refine ⟨by simp [Keyed], by simp, ?_⟩
          intro j st hj
          exact absurd hj ((g.none x).mp hl j st)
        | some tk0 => exact g.some x tk0 hl
      obtain ⟨k1, k2, k3⟩ := hold
      have hnot : ¬has ((s.tickets.lookup x).getD {}).shards i := by
        rintro ⟨e, he, rfl⟩
        obtain ⟨_, st', h2, _⟩ := k2 e.1 e.2 he
        exact hn st' h2
      refine ⟨(k1.touch i).setState i _, ?_, ?_⟩
      · intro j sh hj
        have hj : (j, sh) ∈ update
            (touch ((s.tickets.lookup x).getD {}).shards i) i
            (fun sh => { sh with state := reported st }) := hj
        rcases mem_update hj with ⟨h2, h3⟩ | ⟨h2, sh', h3, h4⟩
        · rcases mem_touch h3 with h3 | h3
          · obtain ⟨h4, st', h5, h6⟩ := k2 j sh h3
            exact ⟨h4, st', List.mem_append_left _ h5, h6⟩
          · simp only [Prod.mk.injEq] at h3
            exact absurd h3.1 h2
        · simp only at h2 h4
          subst h2
          have h5 : sh' = { state := .begun } := by
            rcases mem_touch h3 with h3 | h3
            · exact absurd ⟨_, h3, rfl⟩ hnot
            · simp only [Prod.mk.injEq] at h3
              exact h3.2
          rw [h4, h5]
          exact ⟨rfl, st, by simp, rfl⟩
      · intro j st' hj
        rw [has_setState]
        rcases List.mem_append.mp hj with hj | hj
        · exact has_touch (k3 j st' hj)
        · simp only [List.mem_singleton, Prod.mk.injEq] at hj
          rw [hj.1]
          exact has_touch_self _ _
    · rw [if_neg hx]
      intro h1
      obtain ⟨k1, k2, k3⟩ := g.some x tk h1
      refine ⟨k1, ?_, ?_⟩
      · intro j sh hj
        obtain ⟨h4, st', h5, h6⟩ := k2 j sh hj
        exact ⟨h4, st', List.mem_append_left _ h5, h6⟩
      · intro j st' hj
        rcases List.mem_append.mp hj with hj | hj
        · exact k3 j st' hj
        · simp only [List.mem_singleton, Prod.mk.injEq] at hj
          exact absurd hj.2.1 hx

theorem Gathered.foldl {L : List (Nat × Tn × Parsec.TState)} :
    ∀ {L0 : List (Nat × Tn × Parsec.TState)} {s : State}, Gathered L0 s →
    ((L0 ++ L).map fun r => (r.1, r.2.1)).Nodup →
    Gathered (L0 ++ L) (L.foldl (fun s r => addReport r.1 s r.2) s) := by
  induction L with
  | nil => intro L0 s g _; simpa using g
  | cons r L ih =>
    intro L0 s g hn
    obtain ⟨i, t, st⟩ := r
    have h1 : ∀ st', (i, t, st') ∉ L0 := by
      intro st' hm
      rw [List.map_append, List.nodup_append] at hn
      exact hn.2.2 (i, t) (List.mem_map.mpr ⟨_, hm, rfl⟩) (i, t)
        (by simp) rfl
    rw [List.foldl_cons]
    have := ih (g.add (st := st) h1) (by simpa using hn)
    simpa using this

theorem flat_nodup : ∀ {rs : List (Nat × List (Tn × Parsec.TState))},
    (rs.map fun r => r.1).Nodup →
    (∀ r ∈ rs, (r.2.map fun e => e.1).Nodup) →
    ((flat rs).map fun r => (r.1, r.2.1)).Nodup := by
  intro rs
  induction rs with
  | nil => intro _ _; simp [flat]
  | cons r rs ih =>
    intro h1 h2
    rw [List.map_cons, List.nodup_cons] at h1
    have e : flat (r :: rs) = (r.2.map fun q => (r.1, q.1, q.2)) ++ flat rs := by
      unfold flat
      rw [List.flatMap_cons]
    rw [e, List.map_append, List.nodup_append]
    refine ⟨?_, ih h1.2 (fun x hx => h2 x (List.mem_cons_of_mem _ hx)), ?_⟩
    · rw [List.map_map]
      have := h2 r (by simp)
      have e2 : (r.2.map ((fun r : Nat × Tn × Parsec.TState => (r.1, r.2.1)) ∘
          fun q => (r.1, q.1, q.2))) =
          (r.2.map fun e => e.1).map fun t => (r.1, t) := by
        rw [List.map_map]
        rfl
      rw [e2]
      exact List.Pairwise.map _ (fun a b hab h => hab (by simpa using h)) this
    · intro a ha b hb hab
      subst hab
      obtain ⟨x, hx, rfl⟩ := List.mem_map.mp ha
      obtain ⟨y, hy, hxy⟩ := List.mem_map.mp hb
      obtain ⟨q, hq, rfl⟩ := List.mem_map.mp hx
      obtain ⟨j, t, st⟩ := y
      simp only [Prod.mk.injEq] at hxy
      obtain ⟨ts, h3, _⟩ := mem_flat.mp hy
      exact h1.1 (List.mem_map.mpr ⟨_, h3, hxy.1⟩)

/-- The tickets of a new broker after all reports are exactly what was
reported. -/
theorem gathered {s : State} (hs : s.tickets = [])
    {rs : List (Nat × List (Tn × Parsec.TState))}
    (h1 : (rs.map fun r => r.1).Nodup)
    (h2 : ∀ r ∈ rs, (r.2.map fun e => e.1).Nodup) :
    Gathered (flat rs) (addReports s rs) := by
  rw [addReports_flat]
  have g : Gathered [] s := ⟨by simp [hs], by simp [hs], by simp [hs]⟩
  simpa using g.foldl (L := flat rs) (by simpa using flat_nodup h1 h2)

theorem addReports_rest (rs : List (Nat × List (Tn × Parsec.TState))) (s : State) :
    (addReports s rs).shards = s.shards ∧
      (addReports s rs).recovery = s.recovery := by
  rw [addReports_flat]
  generalize flat rs = L
  induction L generalizing s with
  | nil => exact ⟨rfl, rfl⟩
  | cons r L ih =>
    rw [List.foldl_cons]
    exact ih _

/-! ### Invariant -/

/-- What a request made during recovery says about the reports. -/
def CallOk (h : Hist) : Call → Prop
  | .commit j t _ => (∃ st, Reports h j t st) ∧ ¬Reports h j t .committed ∧
    ∃ k, Reports h k t .committed
  | .rollback j t _ => (∃ st, Reports h j t st) ∧ ∀ k, ¬Reports h k t .committed
  | .finish j t _ => (∃ st, Reports h j t st) ∧ (∃ k, Reports h k t .committed) ∧
    ∀ k st, Reports h k t st →
      Reports h k t .committed ∨ ConfirmedCommit h k t
  | .tryLock _ _ _ _ _ _ => False
  | .prepare _ _ _ _ => False
  | .getTickets _ _ => True

/-- Recovery of the transaction is complete: every shard that knows it committed
and finished it, or every shard that knows it rolled it back. -/
def Resolved (h : Hist) (t : Tn) : Prop :=
  ((∃ k, Reports h k t .committed) ∧ ∀ j st, Reports h j t st →
    (Reports h j t .committed ∨ ConfirmedCommit h j t) ∧ ConfirmedFinish h j t) ∨
  ((∀ k, ¬Reports h k t .committed) ∧ ∀ j st, Reports h j t st →
    ConfirmedRollback h j t)

/-- A ticket being recovered. -/
structure TR (t : Tn) (h : Hist) (tk : Ticket) : Prop where
  keyed : Keyed tk.shards
  known : ∀ j, has tk.shards j ↔ ∃ st, Reports h j t st
  live : tk.state ≠ .aborted
  decided : tk.state = .prepared ∨ tk.state = .committed →
    ∃ k, Reports h k t .committed
  undecided : tk.state = .begun → ∀ k, ¬Reports h k t .committed
  pre : tk.state = .prepared → ∀ e ∈ tk.shards,
    (e.2.state = .committed →
      Reports h e.1 t .committed ∨ ConfirmedCommit h e.1 t) ∧
    (e.2.state ≠ .committed → ¬Reports h e.1 t .committed)
  done : tk.state = .committed → ∀ e ∈ tk.shards,
    (Reports h e.1 t .committed ∨ ConfirmedCommit h e.1 t) ∧
    (e.2.state = .finished → ConfirmedFinish h e.1 t)
  back : tk.state = .begun → ∀ e ∈ tk.shards, e.2.state = .rolledBack →
    ConfirmedRollback h e.1 t

/-- All shards have reported. -/
structure PB (n : Nat) (h : Hist) (f : Tn → Option Ticket) : Prop where
  started : h ≠ []
  complete : ∀ i, i < n → Answered h i
  ticket : ∀ t tk, f t = some tk → TR t h tk
  gone : ∀ t, f t = none → (∃ j st, Reports h j t st) → Resolved h t
  calls : ∀ c, Ever h c → CallOk h c

/-- Some shards have reported. -/
structure Collect (n : Nat) (h : Hist) (s : State) : Prop where
  tickets : s.tickets = []
  keys : (s.recovery.map fun r => r.1).Nodup
  lt : ∀ r ∈ s.recovery, r.1 < n
  sent : ∀ i ts, (i, ts) ∈ s.recovery ↔ Sent h i ts
  nodup : ∀ r ∈ s.recovery, (r.2.map fun e => e.1).Nodup
  calls : ∀ c, Ever h c → ∃ i cb, c = .getTickets i cb

structure RInv (n : Nat) (h : Hist) (s : State) : Prop where
  shards : s.shards = n
  asked : ∀ i cb, Ever h (.getTickets i cb) → i < n
  phase : Collect n h s ∨ PB n h (fun t => s.tickets.lookup t)

/-! ### Events that are not reports -/

/-- Not an answer to `get_tickets`. -/
def Event.isReport : Event → Bool
  | .gotTickets _ _ (some _) _ => true
  | _ => false

theorem sent_cons {h : Hist} {x : Event × Out} (hx : x.1.isReport = false)
    {j : Nat} {ts : List (Tn × Parsec.TState)} :
    Sent (x :: h) j ts ↔ Sent h j ts := by
  constructor
  · rintro ⟨y, hy, cb, p, h1⟩
    rcases List.mem_cons.mp hy with rfl | hy
    · rw [h1] at hx
      simp [Event.isReport] at hx
    · exact ⟨y, hy, cb, p, h1⟩
  · rintro ⟨y, hy, h1⟩
    exact ⟨y, List.mem_cons_of_mem _ hy, h1⟩

theorem reports_cons {h : Hist} {x : Event × Out} (hx : x.1.isReport = false)
    {j : Nat} {t : Tn} {st : Parsec.TState} :
    Reports (x :: h) j t st ↔ Reports h j t st := by
  unfold Reports
  simp only [sent_cons hx]

theorem ConfirmedCommit.mono {h : Hist} {x : Event × Out} {j : Nat} {t : Tn}
    (hc : ConfirmedCommit h j t) : ConfirmedCommit (x :: h) j t := by
  obtain ⟨y, hy, h1⟩ := hc
  exact ⟨y, List.mem_cons_of_mem _ hy, h1⟩

theorem ConfirmedRollback.mono {h : Hist} {x : Event × Out} {j : Nat} {t : Tn}
    (hc : ConfirmedRollback h j t) : ConfirmedRollback (x :: h) j t := by
  obtain ⟨y, hy, h1⟩ := hc
  exact ⟨y, List.mem_cons_of_mem _ hy, h1⟩

theorem ConfirmedFinish.mono {h : Hist} {x : Event × Out} {j : Nat} {t : Tn}
    (hc : ConfirmedFinish h j t) : ConfirmedFinish (x :: h) j t := by
  obtain ⟨y, hy, h1⟩ := hc
  exact ⟨y, List.mem_cons_of_mem _ hy, h1⟩

theorem CallOk.mono {h : Hist} {x : Event × Out} (hx : x.1.isReport = false)
    {c : Call} (hc : CallOk h c) : CallOk (x :: h) c := by
  cases c <;> simp only [CallOk, reports_cons hx] at hc ⊢ <;> try exact hc
  refine ⟨hc.1, hc.2.1, fun k st hk => ?_⟩
  exact (hc.2.2 k st hk).imp id ConfirmedCommit.mono

theorem Resolved.mono {h : Hist} {x : Event × Out} (hx : x.1.isReport = false)
    {t : Tn} (hc : Resolved h t) : Resolved (x :: h) t := by
  unfold Resolved at *
  simp only [reports_cons hx]
  rcases hc with hc | hc
  · refine .inl ⟨hc.1, fun j st hj => ?_⟩
    obtain ⟨h1, h2⟩ := hc.2 j st hj
    exact ⟨h1.imp id ConfirmedCommit.mono, h2.mono⟩
  · exact .inr ⟨hc.1, fun j st hj => (hc.2 j st hj).mono⟩

theorem TR.mono {h : Hist} {x : Event × Out} (hx : x.1.isReport = false)
    {t : Tn} {tk : Ticket} (ht : TR t h tk) : TR t (x :: h) tk := by
  constructor
  · exact ht.keyed
  · simpa only [reports_cons hx] using ht.known
  · exact ht.live
  · simpa only [reports_cons hx] using ht.decided
  · simpa only [reports_cons hx] using ht.undecided
  · simp only [reports_cons hx]
    intro hs e he
    exact ⟨fun h1 => ((ht.pre hs e he).1 h1).imp id ConfirmedCommit.mono,
      (ht.pre hs e he).2⟩
  · simp only [reports_cons hx]
    intro hs e he
    exact ⟨(ht.done hs e he).1.imp id ConfirmedCommit.mono,
      fun h1 => ((ht.done hs e he).2 h1).mono⟩
  · exact fun hs e he h1 => (ht.back hs e he h1).mono

/-- What an event does when all shards have reported. -/
theorem PB.next {n : Nat} {h : Hist} {f g : Tn → Option Ticket} (b : PB n h f)
    {x : Event × Out} (hx : x.1.isReport = false) {t : Tn}
    (ho : ∀ y, y ≠ t → g y = f y)
    (hc : ∀ c ∈ x.2.calls, CallOk (x :: h) c)
    (hs : ∀ tk, g t = some tk → TR t (x :: h) tk)
    (hn : g t = none → (f t = none ∨ Resolved (x :: h) t)) :
    PB n (x :: h) g where
  started := by simp
  complete := by
    intro i hi
    obtain ⟨y, hy, h1⟩ := b.complete i hi
    exact ⟨y, List.mem_cons_of_mem _ hy, h1⟩
  ticket := by
    intro y tk hy
    by_cases h1 : y = t
    · subst h1
      exact hs tk hy
    · rw [ho y h1] at hy
      exact (b.ticket y tk hy).mono hx
  gone := by
    intro y hy hr
    simp only [reports_cons hx] at hr
    by_cases h1 : y = t
    · subst h1
      rcases hn hy with h2 | h2
      · exact (b.gone y h2 hr).mono hx
      · exact h2
    · rw [ho y h1] at hy
      exact (b.gone y hy hr).mono hx
  calls := by
    rintro c ⟨y, hy, h1⟩
    rcases List.mem_cons.mp hy with rfl | hy
    · exact hc c h1
    · exact (b.calls c ⟨y, hy, h1⟩).mono hx

/-- An event that changes no ticket. -/
theorem PB.same {n : Nat} {h : Hist} {f : Tn → Option Ticket} (b : PB n h f)
    {x : Event × Out} (hx : x.1.isReport = false) (hc : x.2.calls = []) :
    PB n (x :: h) f :=
  b.next hx (t := 0) (fun _ _ => rfl) (by simp [hc])
    (fun tk htk => (b.ticket 0 tk htk).mono hx) .inl

/-- Finishing a committed ticket. -/
theorem TR.finish {h : Hist} {t : Tn} {l : List (Nat × Sh)}
    (ht : TR t h ⟨.committed, l⟩) (c : Cont) (p : Option Stop) :
    TR t h (Ticket.finish ⟨.committed, l⟩ t c p).1 ∧
    ∀ d ∈ (Ticket.finish ⟨.committed, l⟩ t c p).2.1, CallOk h d := by
  constructor
  · simp only [Ticket.finish]
    have hk : Keyed l := ht.keyed
    refine ⟨hk.mark (fun x => x = .finished) .finishing
        (stops l (fun x => x = .finished) p), ?_, by simp, ?_, by simp,
      by simp, ?_, by simp⟩
    · intro j
      rw [has_mark]
      exact ht.known j
    · exact fun _ => ht.decided (.inr rfl)
    · intro _ e he
      have he : e ∈ mark l (fun x => x = .finished) .finishing
        (stops l (fun x => x = .finished) p) := he
      rcases mem_mark he with h1 | ⟨sh, h1, _, _, h2⟩
      · exact ht.done rfl e h1
      · refine ⟨(ht.done rfl _ h1).1, ?_⟩
        rw [h2]
        simp
  · intro d hd
    simp only [Ticket.finish, List.mem_map] at hd
    obtain ⟨e, he, rfl⟩ := hd
    have he := (List.mem_filter.mp he).1
    refine ⟨(ht.known e.1).mp ⟨e, he, rfl⟩, ht.decided (.inr rfl), ?_⟩
    intro k st hk
    obtain ⟨e', he', rfl⟩ := (ht.known k).mpr ⟨st, hk⟩
    exact (ht.done rfl e' he').1

theorem commitDone_rec {c : Cont} (hc : c.recovery = true) (s : State) (t : Tn)
    (e : Fail) (p : Option Stop) : commitDone s c t (some e) p =
      (s, { said := [.recover c.cb (some .commitError)] }) := by
  simp [commitDone, hc]

theorem commitDone_ok {c : Cont} (hc : c.recovery = true) (s : State) (t : Tn)
    (p : Option Stop) : commitDone s c t none p = finish s t c p := by
  simp [commitDone, hc]

theorem rollbackDone_rec {c : Cont} (hc : c.recovery = true) (s : State) (t : Tn)
    (e : Fail) (p : Option Stop) : rollbackDone s c t (some e) p =
      (s, { said := [.recover c.cb (some .rollbackError)] }) := by
  simp [rollbackDone, hc]

theorem rollbackDone_ok {c : Cont} (hc : c.recovery = true) (s : State) (t : Tn)
    (p : Option Stop) : rollbackDone s c t none p = finish s t c p := by
  simp [rollbackDone, hc]

theorem PB.committed {n : Nat} {h : Hist} {s : State} {c : Cont} {t : Tn}
    {i : Nat} {r : Option ShardError} {p : Option Stop}
    (b : PB n h fun t => s.tickets.lookup t)
    (hp : Recov h (.committed c t i r p)) :
    PB n ((.committed c t i r p, (handleCommit s c t i r p).2) :: h)
      fun y => (handleCommit s c t i r p).1.tickets.lookup y := by
  obtain ⟨hc, he⟩ := hp
  unfold handleCommit
  simp only [commitDone_rec hc, commitDone_ok hc]
  cases hl : s.tickets.lookup t with
  | none => exact b.same rfl (by rfl)
  | some tk =>
    have ht := b.ticket t tk hl
    simp only
    cases hst : tk.state with
    | begun => exact b.same rfl (by rfl)
    | committed => exact b.same rfl (by rfl)
    | aborted => exact b.same rfl (by rfl)
    | prepared =>
      simp only
      have hhas : has tk.shards i := (ht.known i).mpr (b.calls _ he).1
      rw [touch_of_has hhas]
      have hset : ∀ (o : Out), o.calls = [] →
          PB n ((.committed c t i r p, o) :: h)
            fun y => (s.set t ⟨.prepared, tk.shards⟩).tickets.lookup y := by
        intro o ho
        have e : (fun y => (s.set t ⟨.prepared, tk.shards⟩).tickets.lookup y) =
            fun y => s.tickets.lookup y := by
          funext y
          rw [lookup_set]
          split
          · rename_i hy
            rw [hy, hl, ← hst]
          · rfl
        rw [e]
        exact b.same rfl ho
      by_cases h1 : stateOf tk.shards i = .committing
      · rw [if_neg (by simp [h1])]
        cases r with
        | some e =>
          rw [if_pos (by simp)]
          exact b.same rfl (by rfl)
        | none =>
          rw [if_neg (by simp)]
          -- the new list
          have hconf : ∀ o, ConfirmedCommit
              ((.committed c t i none p, o) :: h) i t :=
            fun o => ⟨_, List.mem_cons_self, c, p, rfl⟩
          have hnew : ∀ o, TR t ((.committed c t i none p, o) :: h)
              ⟨.prepared, setState tk.shards i .committed⟩ := by
            intro o
            have hm := ht.mono (x := (Event.committed c t i none p, o)) rfl
            refine ⟨by exact hm.keyed.setState i _, ?_, by simp,
              fun _ => hm.decided (.inl hst), by simp, ?_, by simp, by simp⟩
            · intro j
              simp only [has_setState]
              exact hm.known j
            · intro _ e he
              have he : e ∈ update tk.shards i
                (fun sh => { sh with state := .committed }) := he
              rcases mem_update he with ⟨_, h2⟩ | ⟨h2, sh, h3, h4⟩
              · exact hm.pre hst e h2
              · rw [h2, h4]
                exact ⟨fun _ => .inr (hconf o), by simp⟩
          split
          · rename_i hall
            have hdone : ∀ o, TR t ((.committed c t i none p, o) :: h)
                ⟨.committed, setState tk.shards i .committed⟩ := by
              intro o
              have hm := hnew o
              refine ⟨hm.keyed, hm.known, by simp, fun _ => hm.decided (.inl rfl),
                by simp, by simp, ?_, by simp⟩
              intro _ e he
              have h2 := (List.all_eq_true.mp hall) e he
              simp only [decide_eq_true_eq] at h2
              exact ⟨(hm.pre rfl e he).1 h2, by simp [h2]⟩
            unfold Broker.finish
            rw [lookup_set, if_pos rfl]
            simp only
            refine b.next rfl (t := t) ?_ ?_ ?_ ?_
            · intro y hy
              simp only [lookup_set, if_neg hy]
            · exact ((hdone _).finish c p).2
            · intro tk' h2
              simp only [lookup_set, if_pos] at h2
              rw [← Option.some.inj h2]
              exact ((hdone _).finish c p).1
            · intro h2
              simp only [lookup_set, if_pos] at h2
              simp at h2
          · refine b.next rfl (t := t) ?_ (by simp) ?_ ?_
            · intro y hy
              simp only [lookup_set, if_neg hy]
            · intro tk' h2
              simp only [lookup_set, if_pos] at h2
              rw [← Option.some.inj h2]
              exact hnew _
            · intro h2
              simp only [lookup_set, if_pos] at h2
              simp at h2
      · rw [if_pos h1]
        exact hset _ (by rfl)

theorem PB.rolledBack {n : Nat} {h : Hist} {s : State} {c : Cont} {t : Tn}
    {i : Nat} {r : Option ShardError} {p : Option Stop}
    (b : PB n h fun t => s.tickets.lookup t)
    (hp : Recov h (.rolledBack c t i r p)) :
    PB n ((.rolledBack c t i r p, (handleRollback s c t i r p).2) :: h)
      fun y => (handleRollback s c t i r p).1.tickets.lookup y := by
  obtain ⟨hc, he⟩ := hp
  unfold handleRollback
  simp only [rollbackDone_rec hc, rollbackDone_ok hc]
  cases hl : s.tickets.lookup t with
  | none => exact b.same rfl (by rfl)
  | some tk =>
    have ht := b.ticket t tk hl
    simp only
    cases hst : tk.state with
    | prepared => exact b.same rfl (by rfl)
    | committed => exact b.same rfl (by rfl)
    | aborted => exact b.same rfl (by rfl)
    | begun =>
      simp only
      have hhas : has tk.shards i := (ht.known i).mpr (b.calls _ he).1
      rw [touch_of_has hhas]
      have hset : ∀ (o : Out), o.calls = [] →
          PB n ((.rolledBack c t i r p, o) :: h)
            fun y => (s.set t ⟨.begun, tk.shards⟩).tickets.lookup y := by
        intro o ho
        have e : (fun y => (s.set t ⟨.begun, tk.shards⟩).tickets.lookup y) =
            fun y => s.tickets.lookup y := by
          funext y
          rw [lookup_set]
          split
          · rename_i hy
            rw [hy, hl, ← hst]
          · rfl
        rw [e]
        exact b.same rfl ho
      by_cases h1 : stateOf tk.shards i = .rollingBack
      · rw [if_neg (by simp [h1])]
        cases r with
        | some e =>
          rw [if_pos (by simp)]
          exact b.same rfl (by rfl)
        | none =>
          rw [if_neg (by simp)]
          have hnew : ∀ o, TR t ((.rolledBack c t i none p, o) :: h)
              ⟨.begun, update tk.shards i
                fun _ => { state := .rolledBack, keys := [] }⟩ := by
            intro o
            have hm := ht.mono (x := (Event.rolledBack c t i none p, o)) rfl
            refine ⟨hm.keyed.update i fun _ => { state := .rolledBack, keys := [] }, ?_, by simp, by simp,
              fun _ => hm.undecided hst, by simp, by simp, ?_⟩
            · intro j
              simp only [has_update]
              exact hm.known j
            · intro _ e he h5
              have he : e ∈ update tk.shards i
                (fun _ => { state := .rolledBack, keys := [] }) := he
              rcases mem_update he with ⟨_, h2⟩ | ⟨h2, sh, h3, h4⟩
              · exact hm.back hst e h2 h5
              · rw [h2]
                exact ⟨_, List.mem_cons_self, c, p, rfl⟩
          split
          · rename_i hall
            unfold Broker.finish
            rw [lookup_set, if_pos rfl]
            simp only
            refine b.next rfl (t := t) ?_ (by simp) ?_ ?_
            · intro y hy
              simp only [lookup_erase, lookup_set, if_neg hy]
            · intro tk' h2
              simp only [lookup_erase, if_pos] at h2
              simp at h2
            · intro _
              right
              have hm := hnew { said := finishDone ((s.set t ⟨.aborted,
                update tk.shards i fun _ =>
                  { state := .rolledBack, keys := [] }⟩).erase t) c t none }
              refine .inr ⟨hm.undecided rfl, ?_⟩
              intro j st hj
              obtain ⟨e, he, rfl⟩ := (hm.known j).mpr ⟨st, hj⟩
              have h2 := (List.all_eq_true.mp hall) e he
              simp only [decide_eq_true_eq] at h2
              exact hm.back rfl e he h2
          · refine b.next rfl (t := t) ?_ (by simp) ?_ ?_
            · intro y hy
              simp only [lookup_set, if_neg hy]
            · intro tk' h2
              simp only [lookup_set, if_pos] at h2
              rw [← Option.some.inj h2]
              exact hnew _
            · intro h2
              simp only [lookup_set, if_pos] at h2
              simp at h2
      · rw [if_pos h1]
        exact hset _ (by rfl)

theorem PB.finished {n : Nat} {h : Hist} {s : State} {c : Cont} {t : Tn}
    {i : Nat} {r : Option ShardError}
    (b : PB n h fun t => s.tickets.lookup t)
    (hp : Recov h (.finished c t i r)) :
    PB n ((.finished c t i r, (handleFinish s c t i r).2) :: h)
      fun y => (handleFinish s c t i r).1.tickets.lookup y := by
  obtain ⟨hc, he⟩ := hp
  unfold handleFinish
  cases hl : s.tickets.lookup t with
  | none => exact b.same rfl (by rfl)
  | some tk =>
    have ht := b.ticket t tk hl
    simp only
    cases hst : tk.state with
    | prepared => exact b.same rfl (by rfl)
    | begun => exact b.same rfl (by rfl)
    | aborted => exact b.same rfl (by rfl)
    | committed =>
      simp only
      have hhas : has tk.shards i := (ht.known i).mpr (b.calls _ he).1
      rw [touch_of_has hhas]
      have hset : ∀ (o : Out), o.calls = [] →
          PB n ((.finished c t i r, o) :: h)
            fun y => (s.set t ⟨.committed, tk.shards⟩).tickets.lookup y := by
        intro o ho
        have e : (fun y => (s.set t ⟨.committed, tk.shards⟩).tickets.lookup y) =
            fun y => s.tickets.lookup y := by
          funext y
          rw [lookup_set]
          split
          · rename_i hy
            rw [hy, hl, ← hst]
          · rfl
        rw [e]
        exact b.same rfl ho
      by_cases h1 : stateOf tk.shards i = .finishing
      · rw [if_neg (by simp [h1])]
        cases r with
        | some e =>
          rw [if_pos (by simp)]
          exact b.same rfl (by rfl)
        | none =>
          rw [if_neg (by simp)]
          have hnew : ∀ o, TR t ((.finished c t i none, o) :: h)
              ⟨.committed, setState tk.shards i .finished⟩ := by
            intro o
            have hm := ht.mono (x := (Event.finished c t i none, o)) rfl
            refine ⟨by exact hm.keyed.setState i _, ?_, by simp,
              fun _ => hm.decided (.inr hst), by simp, by simp, ?_, by simp⟩
            · intro j
              simp only [has_setState]
              exact hm.known j
            · intro _ e he
              have he : e ∈ update tk.shards i
                (fun sh => { sh with state := .finished }) := he
              rcases mem_update he with ⟨_, h2⟩ | ⟨h2, sh, h3, h4⟩
              · exact hm.done hst e h2
              · rw [h2]
                exact ⟨(hm.done hst _ h3).1, fun _ => ⟨_, List.mem_cons_self, c, rfl⟩⟩
          split
          · rename_i hall
            refine b.next rfl (t := t) ?_ (by simp) ?_ ?_
            · intro y hy
              simp only [lookup_erase, if_neg hy]
            · intro tk' h2
              simp only [lookup_erase, if_pos] at h2
              simp at h2
            · intro _
              right
              have hm := hnew { said := finishDone (s.erase t) c t none }
              refine .inl ⟨hm.decided (.inr rfl), ?_⟩
              intro j st hj
              obtain ⟨e, he, rfl⟩ := (hm.known j).mpr ⟨st, hj⟩
              have h2 := (List.all_eq_true.mp hall) e he
              simp only [decide_eq_true_eq] at h2
              exact ⟨(hm.done rfl e he).1, (hm.done rfl e he).2 h2⟩
          · refine b.next rfl (t := t) ?_ (by simp) ?_ ?_
            · intro y hy
              simp only [lookup_set, if_neg hy]
            · intro tk' h2
              simp only [lookup_set, if_pos] at h2
              rw [← Option.some.inj h2]
              exact hnew _
            · intro h2
              simp only [lookup_set, if_pos] at h2
              simp at h2
      · rw [if_pos h1]
        exact hset _ (by rfl)

/-! ### Reports -/

theorem inj_of_nodup_map {α β : Type} {f : α → β} : ∀ {l : List α},
    (l.map f).Nodup → ∀ {a b : α}, a ∈ l → b ∈ l → f a = f b → a = b := by
  intro l
  induction l with
  | nil => intro _ a b ha; simp at ha
  | cons x l ih =>
    intro hn a b ha hb hab
    rw [List.map_cons, List.nodup_cons] at hn
    rcases List.mem_cons.mp ha with ha' | ha'
    · rcases List.mem_cons.mp hb with hb' | hb'
      · rw [ha', hb']
      · rw [ha'] at hab
        exact absurd (List.mem_map.mpr ⟨b, hb', hab.symm⟩) hn.1
    · rcases List.mem_cons.mp hb with hb' | hb'
      · rw [hb'] at hab
        exact absurd (List.mem_map.mpr ⟨a, ha', hab⟩) hn.1
      · exact ih hn.2 ha' hb' hab

theorem lookup_of_mem {β : Type} {l : List (Nat × β)}
    (hn : (l.map fun e => e.1).Nodup) {e : Nat × β} (he : e ∈ l) :
    l.lookup e.1 = some e.2 := by
  induction l with
  | nil => simp at he
  | cons x l ih =>
    rw [List.map_cons, List.nodup_cons] at hn
    rw [List.lookup_cons]
    rcases List.mem_cons.mp he with rfl | he
    · simp
    · have : (e.1 == x.1) = false := by
        cases h : e.1 == x.1 with
        | false => rfl
        | true =>
          exact absurd (List.mem_map.mpr ⟨e, he, by simpa using h⟩) hn.1
      rw [this]
      exact ih hn.2 he

theorem lookup_map' {β γ : Type} (l : List (Nat × β)) (f : Nat → β → γ) (t : Nat) :
    (l.map fun e => (e.1, f e.1 e.2)).lookup t = (l.lookup t).map (f t) := by
  induction l with
  | nil => rfl
  | cons x l ih =>
    obtain ⟨a, b⟩ := x
    by_cases h : t = a
    · subst h
      simp
    · have h : (t == a) = false := by simpa using h
      simp only [List.map_cons, List.lookup_cons, h]
      exact ih

theorem not_mem_of_lookup_none {β : Type} {l : List (Nat × β)} {i : Nat}
    (h : l.lookup i = none) : ∀ e ∈ l, e.1 ≠ i := by
  intro e he hi
  have := List.lookup_eq_none_iff.mp h
  have := this e he
  simp [hi] at this

/-- A ticket put together from reports. -/
structure Fresh (t : Tn) (h : Hist) (tk : Ticket) : Prop where
  keyed : Keyed tk.shards
  states : ∀ j sh, (j, sh) ∈ tk.shards → sh.keys = [] ∧
    ∃ st, Reports h j t st ∧ sh.state = reported st
  all : ∀ j st, Reports h j t st → has tk.shards j
  one : ∀ j st st', Reports h j t st → Reports h j t st' → st = st'

theorem Fresh.committed {t : Tn} {h : Hist} {tk : Ticket} (f : Fresh t h tk)
    {e : Nat × Sh} (he : e ∈ tk.shards) :
    e.2.state = .committed ↔ Reports h e.1 t .committed := by
  obtain ⟨_, st, h1, h2⟩ := f.states e.1 e.2 he
  constructor
  · intro h3
    rw [h3] at h2
    cases st <;> simp [reported] at h2
    exact h1
  · intro h3
    rw [h2, f.one _ _ _ h1 h3]
    rfl

theorem Fresh.known {t : Tn} {h : Hist} {tk : Ticket} (f : Fresh t h tk) (j : Nat) :
    has tk.shards j ↔ ∃ st, Reports h j t st := by
  constructor
  · rintro ⟨e, he, rfl⟩
    obtain ⟨_, st, h1, _⟩ := f.states e.1 e.2 he
    exact ⟨st, h1⟩
  · rintro ⟨st, h1⟩
    exact f.all j st h1

/-- What recovery does with one ticket. -/
theorem Fresh.recover {t : Tn} {h : Hist} {tk : Ticket} (f : Fresh t h tk)
    (hne : ∃ j st, Reports h j t st) (cb : Nat) (p : Option Stop) :
    TR t h (tk.recover t cb p).1 ∧
    (∀ c ∈ (tk.recover t cb p).2.calls, CallOk h c) ∧
    (p = none → ∀ j st, Reports h j t st →
      ((∀ k st', Reports h k t st' → st' = .committed) →
        Call.finish j t ⟨cb, true⟩ ∈ (tk.recover t cb p).2.calls) ∧
      ((∃ k, Reports h k t .committed) → st ≠ .committed →
        Call.commit j t ⟨cb, true⟩ ∈ (tk.recover t cb p).2.calls) ∧
      ((∀ k, ¬Reports h k t .committed) →
        Call.rollback j t ⟨cb, true⟩ ∈ (tk.recover t cb p).2.calls)) := by
  obtain ⟨j0, st0, hj0⟩ := hne
  have hcount : tk.committedCount = tk.shards.length ↔
      ∀ e ∈ tk.shards, e.2.state = .committed := by
    unfold Ticket.committedCount
    rw [← List.countP_eq_length_filter, List.countP_eq_length]
    simp
  have hpos : 0 < tk.committedCount ↔ ∃ e ∈ tk.shards, e.2.state = .committed := by
    unfold Ticket.committedCount
    rw [← List.countP_eq_length_filter, List.countP_pos_iff]
    simp
  unfold Ticket.recover
  simp only
  by_cases h1 : tk.committedCount = tk.shards.length
  · rw [if_pos h1]
    rw [hcount] at h1
    have hall : ∀ k st, Reports h k t st → Reports h k t .committed := by
      intro k st hk
      obtain ⟨e, he, rfl⟩ := f.all k st hk
      exact (f.committed he).mp (h1 e he)
    have ht : TR t h ⟨.committed, tk.shards⟩ := by
      refine ⟨f.keyed, f.known, by simp, fun _ => ⟨j0, hall j0 st0 hj0⟩, by simp,
        by simp, ?_, by simp⟩
      intro _ e he
      refine ⟨.inl ((f.committed he).mp (h1 e he)), ?_⟩
      rw [h1 e he]
      simp
    refine ⟨(ht.finish ⟨cb, true⟩ p).1, (ht.finish ⟨cb, true⟩ p).2, ?_⟩
    rintro rfl j st hj
    refine ⟨fun _ => ?_, fun _ hn => ?_, fun hn => ?_⟩
    · obtain ⟨e, he, rfl⟩ := f.all j st hj
      simp only [Ticket.finish, stops, List.mem_map]
      refine ⟨e, ?_, rfl⟩
      simp [targets, passed, he, h1 e he]
    · exact absurd (f.one _ _ _ hj (hall j st hj)) hn
    · exact absurd (hall j st hj) (hn j)
  · rw [if_neg h1]
    rw [hcount] at h1
    by_cases h2 : 0 < tk.committedCount
    · rw [if_pos h2]
      rw [hpos] at h2
      obtain ⟨e0, he0, hc0⟩ := h2
      have herr : Ticket.commitError { tk with state := .prepared } [] = none := by
        unfold Ticket.commitError
        rw [if_neg (by simp), if_neg (by simp), if_neg, if_neg (by simp)]
        · intro hany
          obtain ⟨e, he, hk⟩ := List.any_eq_true.mp hany
          rw [(f.states e.1 e.2 he).1] at hk
          simp at hk
      have hcm : Ticket.commit { tk with state := .prepared } t [] ⟨cb, true⟩ p =
          Ticket.doCommit { tk with state := .prepared } t ⟨cb, true⟩ p := by
        unfold Ticket.commit
        rw [herr]
        simp
      rw [hcm]
      refine ⟨?_, ?_, ?_⟩
      · simp only [Ticket.doCommit]
        refine ⟨f.keyed.mark (fun x => x = .committed) .committing
            (stops tk.shards (fun x => x = .committed) p), ?_, by simp,
          fun _ => ⟨e0.1, (f.committed he0).mp hc0⟩, by simp, ?_, by simp,
          by simp⟩
        · intro j
          rw [has_mark]
          exact f.known j
        · intro _ e he
          have he : e ∈ mark tk.shards (fun x => x = .committed) .committing
            (stops tk.shards (fun x => x = .committed) p) := he
          rcases mem_mark he with h3 | ⟨sh, h3, h4, _, h5⟩
          · refine ⟨fun h6 => .inl ((f.committed h3).mp h6), fun h6 h7 => ?_⟩
            exact h6 ((f.committed h3).mpr h7)
          · rw [h5]
            refine ⟨by simp, fun _ h7 => ?_⟩
            have := (f.committed h3).mpr h7
            simp only [decide_eq_false_iff_not] at h4
            exact h4 this
      · intro c hc
        simp only [Ticket.doCommit, List.mem_map] at hc
        obtain ⟨e, he, rfl⟩ := hc
        have hf := List.mem_filter.mp he
        refine ⟨(f.known e.1).mp ⟨e, hf.1, rfl⟩, ?_,
          e0.1, (f.committed he0).mp hc0⟩
        intro h3
        have := (f.committed hf.1).mpr h3
        simp [this] at hf
      · rintro rfl j st hj
        refine ⟨fun hn => ?_, fun _ hn => ?_, fun hn => ?_⟩
        · exfalso
          apply h1
          intro e he
          obtain ⟨_, st', h3, h4⟩ := f.states e.1 e.2 he
          rw [h4, hn _ _ h3]
          rfl
        · obtain ⟨e, he, rfl⟩ := f.all j st hj
          simp only [Ticket.doCommit, stops, List.mem_map]
          refine ⟨e, ?_, rfl⟩
          have : e.2.state ≠ .committed := by
            intro h3
            exact hn (f.one _ _ _ hj ((f.committed he).mp h3))
          simp [targets, passed, he, this]
        · exact absurd ((f.committed he0).mp hc0) (hn e0.1)
    · rw [if_neg h2]
      rw [hpos] at h2
      have hno : ∀ k, ¬Reports h k t .committed := by
        intro k hk
        obtain ⟨e, he, rfl⟩ := f.all k _ hk
        exact h2 ⟨e, he, (f.committed he).mpr hk⟩
      have hrb : ∀ e ∈ tk.shards, e.2.state ≠ .rolledBack := by
        intro e he
        obtain ⟨_, st, _, h4⟩ := f.states e.1 e.2 he
        rw [h4]
        cases st <;> simp [reported]
      refine ⟨?_, ?_, ?_⟩
      · simp only [Ticket.rollback]
        refine ⟨f.keyed.mark (fun x => x = .rolledBack) .rollingBack
            (stops tk.shards (fun x => x = .rolledBack) p), ?_, by simp,
          by simp, fun _ => hno, by simp, by simp, ?_⟩
        · intro j
          rw [has_mark]
          exact f.known j
        · intro _ e he h5
          have he : e ∈ mark tk.shards (fun x => x = .rolledBack) .rollingBack
            (stops tk.shards (fun x => x = .rolledBack) p) := he
          rcases mem_mark he with h3 | ⟨sh, h3, h4, _, h6⟩
          · exact absurd h5 (hrb e h3)
          · rw [h6] at h5
            simp at h5
      · intro c hc
        simp only [Ticket.rollback, List.mem_map] at hc
        obtain ⟨e, he, rfl⟩ := hc
        have hf := List.mem_filter.mp he
        exact ⟨(f.known e.1).mp ⟨e, hf.1, rfl⟩, hno⟩
      · rintro rfl j st hj
        refine ⟨fun hn => ?_, fun hn => ?_, fun _ => ?_⟩
        · exact absurd (hn j st hj ▸ hj) (hno j)
        · obtain ⟨k, hk⟩ := hn
          exact absurd hk (hno k)
        · obtain ⟨e, he, rfl⟩ := f.all j st hj
          simp only [Ticket.rollback, stops, List.mem_map]
          refine ⟨e, ?_, rfl⟩
          simp [targets, passed, he, hrb e he]

/-- The requests made when the last shard has reported are complete. -/
def Complete (h : Hist) (cb : Nat) (p : Tn → Option Stop) (o : Out) : Prop :=
  ∀ j t st, p t = none → Reports h j t st →
    ((∀ k st', Reports h k t st' → st' = .committed) →
      Call.finish j t ⟨cb, true⟩ ∈ o.calls) ∧
    ((∃ k, Reports h k t .committed) → st ≠ .committed →
      Call.commit j t ⟨cb, true⟩ ∈ o.calls) ∧
    ((∀ k, ¬Reports h k t .committed) →
      Call.rollback j t ⟨cb, true⟩ ∈ o.calls)

/-- A report. -/
theorem Collect.report {n : Nat} {h : Hist} {s : State} (col : Collect n h s)
    (hn : s.shards = n) {cb i : Nat} {ts : List (Tn × Parsec.TState)}
    {p : Tn → Option Stop} (hi : i < n) (ha : ¬Answered h i)
    (hts : (ts.map fun e => e.1).Nodup) :
    ∃ s' o, handleGetTickets s cb i (some ts) p = some (s', o) ∧
      s'.shards = n ∧ (∀ j d, Call.getTickets j d ∉ o.calls) ∧
      (Collect n ((.gotTickets cb i (some ts) p, o) :: h) s' ∧
          o = {} ∧ (∃ j, j < n ∧ ∀ us,
            ¬Sent ((.gotTickets cb i (some ts) p, o) :: h) j us) ∨
        PB n ((.gotTickets cb i (some ts) p, o) :: h)
          (fun t => s'.tickets.lookup t) ∧
        Complete ((.gotTickets cb i (some ts) p, o) :: h) cb p o) := by
  have hsent : ∀ o j us, Sent ((.gotTickets cb i (some ts) p, o) :: h) j us ↔
      (j, us) ∈ s.recovery ++ [(i, ts)] := by
    intro o j us
    rw [List.mem_append, col.sent, List.mem_singleton, Prod.mk.injEq]
    constructor
    · rintro ⟨y, hy, cb', p', h1⟩
      rcases List.mem_cons.mp hy with rfl | hy
      · simp only [Event.gotTickets.injEq, Option.some.injEq] at h1
        exact .inr ⟨h1.2.1.symm, h1.2.2.1.symm⟩
      · exact .inl ⟨y, hy, cb', p', h1⟩
    · rintro (⟨y, hy, h1⟩ | ⟨rfl, rfl⟩)
      · exact ⟨y, List.mem_cons_of_mem _ hy, h1⟩
      · exact ⟨_, List.mem_cons_self, cb, p, rfl⟩
  have hnew : ∀ r ∈ s.recovery, r.1 ≠ i := by
    rintro ⟨j, us⟩ hr rfl
    obtain ⟨y, hy, cb', p', h1⟩ := (col.sent _ _).mp hr
    exact ha ⟨y, hy, cb', some us, p', h1⟩
  have hl : (s.recovery.lookup i).isSome = false := by
    cases h1 : s.recovery.lookup i with
    | none => rfl
    | some us =>
      have : (s.recovery.lookup i) ≠ none := by rw [h1]; simp
      rw [ne_eq, List.lookup_eq_none_iff] at this
      exfalso
      apply this
      intro r hr
      simpa using fun h => hnew r hr h.symm
  have hkeys : ((s.recovery ++ [(i, ts)]).map fun r => r.1).Nodup := by
    rw [List.map_append, List.nodup_append]
    refine ⟨col.keys, by simp, ?_⟩
    intro a ha b hb
    obtain ⟨r, hr, rfl⟩ := List.mem_map.mp ha
    simp only [List.map_cons, List.map_nil, List.mem_singleton] at hb
    rw [hb]
    exact hnew r hr
  have hlt : ∀ r ∈ s.recovery ++ [(i, ts)], r.1 < n := by
    intro r hr
    rcases List.mem_append.mp hr with hr | hr
    · exact col.lt r hr
    · rw [List.mem_singleton] at hr
      rw [hr]
      exact hi
  have hnd : ∀ r ∈ s.recovery ++ [(i, ts)], (r.2.map fun e => e.1).Nodup := by
    intro r hr
    rcases List.mem_append.mp hr with hr | hr
    · exact col.nodup r hr
    · rw [List.mem_singleton] at hr
      rw [hr]
      exact hts
  unfold handleGetTickets
  simp only [hl, Bool.false_eq_true, if_false]
  by_cases hlen : (s.recovery ++ [(i, ts)]).length = s.shards
  · rw [if_neg (by simpa using hlen)]
    rw [hn] at hlen
    have hcomplete : ∀ o j, j < n →
        Answered ((.gotTickets cb i (some ts) p, o) :: h) j := by
      intro o j hj
      have : j ∈ (s.recovery ++ [(i, ts)]).map fun r => r.1 := by
        apply Classical.byContradiction
        intro hnot
        have h1 : (j :: (s.recovery ++ [(i, ts)]).map fun r => r.1).Nodup :=
          List.nodup_cons.mpr ⟨hnot, hkeys⟩
        have h2 := Verif.Util.length_le_of_subset (l := List.range n) h1 (by
          intro x hx
          rw [List.mem_range]
          rcases List.mem_cons.mp hx with rfl | hx
          · exact hj
          · obtain ⟨r, hr, rfl⟩ := List.mem_map.mp hx
            exact hlt r hr)
        rw [List.length_cons, List.length_map, hlen, List.length_range] at h2
        omega
      obtain ⟨⟨k, us⟩, hr, rfl⟩ := List.mem_map.mp this
      obtain ⟨y, hy, cb', p', h1⟩ := (hsent o k us).mpr hr
      exact ⟨y, hy, cb', some us, p', h1⟩
    have hg := gathered (s := { s with recovery := s.recovery ++ [(i, ts)] })
      col.tickets hkeys hnd
    have hrest := addReports_rest (s.recovery ++ [(i, ts)])
      { s with recovery := s.recovery ++ [(i, ts)] }
    generalize hs' : addReports { s with recovery := s.recovery ++ [(i, ts)] }
      (s.recovery ++ [(i, ts)]) = s' at hg hrest
    have hrep : ∀ o j t st, Reports
        ((.gotTickets cb i (some ts) p, o) :: h) j t st ↔
        (j, t, st) ∈ flat (s.recovery ++ [(i, ts)]) := by
      intro o j t st
      unfold Reports
      simp only [hsent, mem_flat]
    have hcalls : ∀ c, Ever h c → ∀ o,
        CallOk ((.gotTickets cb i (some ts) p, o) :: h) c := by
      intro c hc o
      obtain ⟨j, cb', rfl⟩ := col.calls c hc
      trivial
    by_cases hemp : s'.tickets.isEmpty = true
    · rw [if_pos hemp]
      have hemp' : s'.tickets = [] := by simpa using hemp
      have hnone : ∀ o j t st, ¬Reports
          ((.gotTickets cb i (some ts) p, o) :: h) j t st := by
        intro o j t st
        rw [hrep]
        exact (hg.none t).mp (by rw [hemp']; rfl) j st
      refine ⟨s', _, rfl, by rw [hrest.1, hn], by simp, .inr ⟨?_, ?_⟩⟩
      · refine ⟨by simp, hcomplete _, ?_, ?_, ?_⟩
        · intro t tk ht
          simp [hemp'] at ht
        · rintro t _ ⟨j, st, hj⟩
          exact absurd hj (hnone _ _ _ _)
        · rintro c ⟨y, hy, h1⟩
          rcases List.mem_cons.mp hy with rfl | hy
          · simp at h1
          · exact hcalls c ⟨y, hy, h1⟩ _
      · intro j t st _ hj
        exact absurd hj (hnone _ _ _ _)
    · rw [if_neg hemp]
      have hfresh : ∀ o t tk, s'.tickets.lookup t = some tk →
          Fresh t ((.gotTickets cb i (some ts) p, o) :: h) tk := by
        intro o t tk ht
        obtain ⟨k1, k2, k3⟩ := hg.some t tk ht
        refine ⟨k1, ?_, ?_, ?_⟩
        · simpa only [hrep] using k2
        · simpa only [hrep] using k3
        · intro j st st'
          rw [hrep, hrep]
          intro h1 h2
          have := inj_of_nodup_map (flat_nodup hkeys hnd) h1 h2 rfl
          simpa using this
      have hall : (s'.tickets.all fun e => e.2.shards.all fun q =>
          recoverable q.2.state) = true := by
        rw [List.all_eq_true]
        intro e he
        rw [List.all_eq_true]
        intro q hq
        obtain ⟨_, k2, _⟩ := hg.some e.1 e.2 (lookup_of_mem hg.keys he)
        obtain ⟨_, st, _, h1⟩ := k2 q.1 q.2 hq
        rw [h1]
        cases st <;> rfl
      rw [if_pos hall]
      refine ⟨_, _, rfl, by simp only [doRecovery]; rw [hrest.1, hn], ?_,
        .inr ⟨?_, ?_⟩⟩
      · intro j d hd
        simp only [doRecovery, List.mem_flatMap, List.mem_map] at hd
        obtain ⟨_, ⟨e, he, rfl⟩, hd⟩ := hd
        simp only [Ticket.recover, Ticket.finish, Ticket.rollback, Ticket.commit,
          Ticket.doCommit, Ticket.doPrepare] at hd
        repeat' split at hd
        all_goals simp at hd
      · refine ⟨by simp, hcomplete _, ?_, ?_, ?_⟩
        · intro t tk ht
          simp only [doRecovery, List.map_map] at ht
          have := lookup_map' s'.tickets
            (fun t tk => (tk.recover t cb (p t)).1) t
          simp only [Function.comp_def] at ht
          rw [this] at ht
          cases hlk : s'.tickets.lookup t with
          | none => simp [hlk] at ht
          | some tk0 =>
            rw [hlk] at ht
            simp only [Option.map_some, Option.some.injEq] at ht
            rw [← ht]
            refine ((hfresh _ t tk0 hlk).recover ?_ cb (p t)).1
            apply Classical.byContradiction
            intro hno
            have : s'.tickets.lookup t = none := by
              rw [hg.none]
              intro j st hj
              exact hno ⟨j, st, (hrep _ _ _ _).mpr hj⟩
            rw [hlk] at this
            simp at this
        · rintro t ht ⟨j, st, hj⟩
          simp only [doRecovery, List.map_map, Function.comp_def] at ht
          have := lookup_map' s'.tickets
            (fun t tk => (tk.recover t cb (p t)).1) t
          rw [this] at ht
          have ht : s'.tickets.lookup t = none := by simpa using ht
          exact absurd ((hrep _ _ _ _).mp hj) ((hg.none t).mp ht j st)
        · rintro c ⟨y, hy, h1⟩
          rcases List.mem_cons.mp hy with rfl | hy
          · simp only [doRecovery, List.mem_flatMap, List.mem_map] at h1
            obtain ⟨_, ⟨e, he, rfl⟩, h1⟩ := h1
            have hlk := lookup_of_mem hg.keys he
            refine ((hfresh _ e.1 e.2 hlk).recover ?_ cb (p e.1)).2.1 c h1
            apply Classical.byContradiction
            intro hno
            have : s'.tickets.lookup e.1 = none := by
              rw [hg.none]
              intro j st hj
              exact hno ⟨j, st, (hrep _ _ _ _).mpr hj⟩
            rw [hlk] at this
            simp at this
          · exact hcalls c ⟨y, hy, h1⟩ _
      · intro j t st hp hj
        cases hlk : s'.tickets.lookup t with
        | none => exact absurd ((hrep _ _ _ _).mp hj) ((hg.none t).mp hlk j st)
        | some tk0 =>
          have h1 := ((hfresh _ t tk0 hlk).recover ⟨j, st, hj⟩ cb (p t)).2.2 hp
            j st hj
          have hmem : (t, tk0) ∈ s'.tickets := by
            have := List.lookup_eq_some_iff.mp hlk
            obtain ⟨l1, l2, h2, _⟩ := this
            rw [h2]
            simp
          have hsub : ∀ c ∈ (tk0.recover t cb (p t)).2.calls, c ∈
              (doRecovery { s' with recovery := [] } cb p).2.calls := by
            intro c hc
            simp only [doRecovery, List.mem_flatMap, List.mem_map]
            exact ⟨_, ⟨_, hmem, rfl⟩, hc⟩
          exact ⟨fun h2 => hsub _ (h1.1 h2), fun h2 h3 => hsub _ (h1.2.1 h2 h3),
            fun h2 => hsub _ (h1.2.2 h2)⟩
  · rw [if_pos (by simpa using hlen)]
    refine ⟨_, _, rfl, hn, by simp, .inl ⟨?_, rfl, ?_⟩⟩
    · refine ⟨col.tickets, hkeys, hlt, ?_, hnd, ?_⟩
      · intro j us
        rw [hsent]
      · rintro c ⟨y, hy, h1⟩
        rcases List.mem_cons.mp hy with rfl | hy
        · simp at h1
        · exact col.calls c ⟨y, hy, h1⟩
    · apply Classical.byContradiction
      intro hno
      have hall : ∀ j, j < n → j ∈ (s.recovery ++ [(i, ts)]).map fun r => r.1 := by
        intro j hj
        apply Classical.byContradiction
        intro hnot
        refine hno ⟨j, hj, fun us hus => hnot ?_⟩
        exact List.mem_map.mpr ⟨_, (hsent _ _ _).mp hus, rfl⟩
      have h1 := Verif.Util.length_le_of_subset (List.nodup_range (n := n))
        (fun j hj => hall j (List.mem_range.mp hj))
      have h2 := Verif.Util.length_le_of_subset (l := List.range n) hkeys (by
        intro x hx
        obtain ⟨r, hr, rfl⟩ := List.mem_map.mp hx
        exact List.mem_range.mpr (hlt r hr))
      rw [List.length_range, List.length_map] at h1 h2
      rw [hn] at hlen
      omega

/-! ### All events -/

theorem Collect.same {n : Nat} {h : Hist} {s : State} (col : Collect n h s)
    {x : Event × Out} (hx : x.1.isReport = false)
    (hc : ∀ c ∈ x.2.calls, ∃ i cb, c = .getTickets i cb) :
    Collect n (x :: h) s := by
  refine ⟨col.tickets, col.keys, col.lt, ?_, col.nodup, ?_⟩
  · intro i ts
    rw [sent_cons hx]
    exact col.sent i ts
  · rintro c ⟨y, hy, h1⟩
    rcases List.mem_cons.mp hy with rfl | hy
    · exact hc c h1
    · exact col.calls c ⟨y, hy, h1⟩

theorem finish_rest (s : State) (t : Tn) (c : Cont) (p : Option Stop) :
    (finish s t c p).1.shards = s.shards ∧
      ∀ j d, Call.getTickets j d ∉ (finish s t c p).2.calls := by
  unfold finish
  repeat' split
  all_goals simp [State.set, State.erase, Ticket.finish]

theorem handleCommit_rest (s : State) {c : Cont} (hc : c.recovery = true) (t : Tn)
    (i : Nat) (r : Option ShardError) (p : Option Stop) :
    (handleCommit s c t i r p).1.shards = s.shards ∧
      ∀ j d, Call.getTickets j d ∉ (handleCommit s c t i r p).2.calls := by
  unfold handleCommit
  simp only [commitDone_rec hc, commitDone_ok hc]
  repeat' split
  all_goals first
    | exact finish_rest _ _ _ _
    | simp [State.set]

theorem handleRollback_rest (s : State) {c : Cont} (hc : c.recovery = true)
    (t : Tn) (i : Nat) (r : Option ShardError) (p : Option Stop) :
    (handleRollback s c t i r p).1.shards = s.shards ∧
      ∀ j d, Call.getTickets j d ∉ (handleRollback s c t i r p).2.calls := by
  unfold handleRollback
  simp only [rollbackDone_rec hc, rollbackDone_ok hc]
  repeat' split
  all_goals first
    | exact finish_rest _ _ _ _
    | simp [State.set]

theorem handleFinish_rest (s : State) (c : Cont)
    (t : Tn) (i : Nat) (r : Option ShardError) :
    (handleFinish s c t i r).1.shards = s.shards ∧
      ∀ j d, Call.getTickets j d ∉ (handleFinish s c t i r).2.calls := by
  unfold handleFinish
  repeat' split
  all_goals
    simp only
    repeat' split
    all_goals simp [State.set, State.erase]

/-- Every event is handled, and the invariant is kept. -/
theorem RInv.step {n : Nat} {h : Hist} {s : State} (inv : RInv n h s) {e : Event}
    (hp : Recov h e) :
    ∃ s' o, Broker.step s e = some (s', o) ∧ RInv n ((e, o) :: h) s' := by
  have asked : ∀ o : Out, (∀ j d, Call.getTickets j d ∉ o.calls) →
      ∀ i cb, Ever ((e, o) :: h) (.getTickets i cb) → i < n := by
    rintro o ho i cb ⟨y, hy, h1⟩
    rcases List.mem_cons.mp hy with rfl | hy
    · exact absurd h1 (ho i cb)
    · exact inv.asked i cb ⟨y, hy, h1⟩
  cases e with
  | recover cb =>
    have hp : h = [] := hp
    subst hp
    have col : Collect n [] s := by
      rcases inv.phase with h1 | h1
      · exact h1
      · exact absurd rfl h1.started
    refine ⟨_, _, rfl, ?_⟩
    simp only [recover, col.tickets, List.isEmpty_nil, if_true]
    refine ⟨inv.shards, ?_, .inl (col.same rfl ?_)⟩
    · rintro i d ⟨y, hy, h1⟩
      rw [List.mem_singleton] at hy
      subst hy
      simp only [List.mem_map, List.mem_range, Call.getTickets.injEq] at h1
      obtain ⟨j, hj, rfl, _⟩ := h1
      rw [← inv.shards]
      exact hj
    · intro c hc
      obtain ⟨j, _, rfl⟩ := List.mem_map.mp hc
      exact ⟨j, cb, rfl⟩
  | gotTickets cb i r p =>
    obtain ⟨h1, h2, h3⟩ := hp
    have hi := inv.asked i cb h1
    have col : Collect n h s := by
      rcases inv.phase with h4 | h4
      · exact h4
      · exact absurd (h4.complete i hi) h2
    cases r with
    | none =>
      refine ⟨_, _, rfl, inv.shards, asked _ (by simp), .inl (col.same rfl ?_)⟩
      simp
    | some ts =>
      obtain ⟨s', o, h4, h5, h6, h7⟩ := col.report (p := p) (cb := cb) inv.shards hi
        h2 (h3 ts rfl)
      exact ⟨s', o, h4, h5, asked _ h6, h7.imp (fun h => h.1) (fun h => h.1)⟩
  | committed c t i r p =>
    have hr := handleCommit_rest s hp.1 t i r p
    refine ⟨_, _, rfl, hr.1.trans inv.shards, asked _ hr.2, .inr ?_⟩
    rcases inv.phase with col | b
    · obtain ⟨_, _, hj⟩ := col.calls _ hp.2
      simp at hj
    · exact b.committed hp
  | rolledBack c t i r p =>
    have hr := handleRollback_rest s hp.1 t i r p
    refine ⟨_, _, rfl, hr.1.trans inv.shards, asked _ hr.2, .inr ?_⟩
    rcases inv.phase with col | b
    · obtain ⟨_, _, hj⟩ := col.calls _ hp.2
      simp at hj
    · exact b.rolledBack hp
  | finished c t i r =>
    have hr := handleFinish_rest s c t i r
    refine ⟨_, _, rfl, hr.1.trans inv.shards, asked _ hr.2, .inr ?_⟩
    rcases inv.phase with col | b
    · obtain ⟨_, _, hj⟩ := col.calls _ hp.2
      simp at hj
    · exact b.finished hp
  | ticketNumber cb r => exact hp.elim
  | tryLock cb t ok => exact hp.elim
  | foundKey cb t k ty r ok => exact hp.elim
  | locked cb t k i r => exact hp.elim
  | commit cb t u p => exact hp.elim
  | prepared c t i r p => exact hp.elim
  | rollback cb t p => exact hp.elim
  | finish cb t p => exact hp.elim

theorem RRun.inv {n : Nat} {h : Hist} {s : State} (hr : RRun n h s) :
    RInv n h s := by
  induction hr with
  | start =>
    refine ⟨rfl, ?_, .inl ⟨rfl, by simp, by simp, ?_, by simp, ?_⟩⟩
    · rintro i cb ⟨x, hx, _⟩
      simp at hx
    · intro i ts
      simp [Sent]
    · rintro c ⟨x, hx, _⟩
      simp at hx
  | @step h s s' e o hr hp hs ih =>
    obtain ⟨s1, o1, h1, h2⟩ := ih.step hp
    rw [hs] at h1
    simp only [Option.some.injEq, Prod.mk.injEq] at h1
    rw [h1.1, h1.2]
    exact h2

end Verif.Parsec.Broker
