import Verif.Parsec.ManyShard

/-!
# What a broker's requests and the records at the shards have to do with each other
-/
namespace Verif.Parsec.Broker

theorem CommitAsked.own {n : Nat} {own : Tn → Prop} {w : World} (hl : Link n own w) {t : Tn} (h : CommitAsked t w.h) :
    own t := by
  obtain ⟨x, h1, i, c, h2⟩ := h
  exact hl.own t (hl.run.inv.called x h1 _ h2 i t rfl)

theorem Committed.settled {n me : Nat} {own : Tn → Prop} {w : World} (hr : Runs n me own Orderly w) :
    ∀ i t, Committed w i t → phaseOf (w.shard i) t = some .committed ∨ phaseOf (w.shard i) t = none := by
  induction hr with
  | start h =>
    rintro i t ⟨a, h1, _⟩
    rw [h.log] at h1
    cases h1
  | @step w w' hr h ih =>
    have hl := hr.link
    have hh := hr.held
    intro j t hc
    cases h with
    | event hp ho hj hn hs => exact ih j t hc
    | lose h => exact ih j t hc
    | @other i op s o hn he =>
      have h1 : Committed w j t := hc
      show phaseOf (put w.shard i s j) t = _ ∨ phaseOf (put w.shard i s j) t = _
      by_cases hj : j = i
      · subst hj
        rw [put_same]
        have ht : t ≠ op.ticket := by
          rintro rfl
          obtain ⟨c, h2⟩ := h1.asked hl
          exact hn ((asked_commit h2).own hl)
        rw [isPrepared_other (hh j).reach he ht]
        exact ih j t h1
      · rw [put_other _ _ hj]
        exact ih j t h1
    | @serve i r rest op s o hn ho he =>
      show phaseOf (put w.shard i s j) t = _ ∨ phaseOf (put w.shard i s j) t = _
      obtain ⟨a, h1, h2, h3⟩ := hc
      by_cases hj : j = i
      · subst hj
        rw [put_same]
        have hr' : r ∈ w.seq j := List.mem_append_right _ (by rw [hn]; exact List.mem_cons_self)
        obtain ⟨t0, hor⟩ := hl.origin j r hr'
        have hop := op_ticket ho hor.ticket
        by_cases ht : t = t0
        · subst ht
          rw [exec_phase (hh j).reach.inv he]
          have h1 : a ∈ put w.log j _ j := h1
          rw [put_same] at h1
          rcases List.mem_append.mp h1 with h1 | h1
          · have hcom : Committed w j t := ⟨a, h1, h2, h3⟩
            have hph := ih j t hcom
            obtain ⟨i', c, h2⟩ := h2
            obtain ⟨t', h4⟩ := hl.origin j a.req (log_seq h1)
            have h5 := h4.ticket
            rw [h2] at h5
            cases h5
            have hord := hl.order j
            unfold World.seq at hord
            rw [List.pairwise_append] at hord
            have h6 := hord.2.2 a.req (List.mem_map.mpr ⟨a, h1, rfl⟩) r (by rw [hn]; exact List.mem_cons_self) j j t
              h4.ticket hor.ticket
            have h7 : a.req.ep = epoch t w.h := by
              obtain ⟨⟨call, ep⟩, res, bf, af⟩ := a
              dsimp only at h2
              subst h2
              exact hl.commits j t c ep (log_seq h1)
            unfold Request.stage at h6
            rw [h2, h7] at h6
            have hold := hor.old
            have hrank : r.call.rank = 2 := by
              have := rank_le r.call
              generalize r.call.rank = q at h6 this ⊢
              dsimp only [Call.rank] at h6
              omega
            unfold phaseStep
            cases hrc : r.call <;> rw [hrc] at hrank ho <;> simp [Call.rank] at hrank <;> cases ho
            · cases hop
              simp only [Op.ticket, ne_eq, not_true_eq_false, if_false]
              split
              · simp
              · exact hph
            · cases hop
              simp only [Op.ticket, ne_eq, not_true_eq_false, if_false]
              split
              · simp
              · exact hph
          · rw [List.mem_singleton] at h1
            subst h1
            obtain ⟨i', c, h2⟩ := h2
            dsimp only at h2 h3
            rw [h2] at ho
            cases ho
            left
            simp [phaseStep, Op.ticket, h3]
        · rw [isPrepared_other (hh j).reach he (by rw [hop]; exact ht)]
          refine ih j t ⟨a, ?_, h2, h3⟩
          have h1 : a ∈ put w.log j _ j := h1
          rw [put_same] at h1
          rcases List.mem_append.mp h1 with h1 | h1
          · exact h1
          · rw [List.mem_singleton] at h1
            subst h1
            obtain ⟨i', c, h2⟩ := h2
            have := hor.ticket
            dsimp only at h2
            rw [h2] at this
            cases this
            exact absurd rfl ht
      · rw [put_other _ _ hj]
        refine ih j t ⟨a, ?_, h2, h3⟩
        have h1 : a ∈ put w.log i _ j := h1
        rw [put_other _ _ hj] at h1
        exact h1

/-- A record belongs to the current attempt. -/
theorem record_now {n me : Nat} {own : Tn → Prop} {w : World} (hr : Runs n me own Orderly w) {t : Tn} (ho : own t) {i : Nat}
    (hne : (w.shard i).ticket t ≠ none) :
    ∃ a ∈ w.log i, ∃ k ty f cb, a.req = ⟨.tryLock i t k ty f cb, epoch t w.h⟩ ∧
      Asked t w.h (.tryLock i t k ty f cb) := by
  have hl := hr.link
  obtain ⟨r, h1, k, ty, f, cb, h2, h3⟩ := (hr.held i).fresh t ho hne
  have h4 := log_seq h1
  obtain ⟨t', h5⟩ := hl.origin i r.req h4
  have h6 := h5.ticket
  rw [h2] at h6
  cases h6
  obtain ⟨⟨call, ep⟩, res, bf, af⟩ := r
  have h8 := h5.old
  dsimp only at h2 h3 h4 h5 h8
  subst h2
  by_cases h7 : ep = epoch t w.h
  · have := h5.now h7
    subst h7
    exact ⟨_, h1, k, ty, f, cb, rfl, this⟩
  · obtain ⟨a, h9, c, h10, h11⟩ := hl.ended i t k ty f cb ep h4 (by omega)
    have h12 := h3 a h9 c (by rw [h10]) h11
    rw [h10] at h12
    dsimp only at h12
    omega

/-- The request being served belongs to the current attempt if there is a record. -/
theorem serve_now {n me : Nat} {own : Tn → Prop} {w : World} (hr : Runs n me own Orderly w) {t : Tn} (ho : own t) {i : Nat}
    (hne : (w.shard i).ticket t ≠ none) {r : Request} (hn : r ∈ w.net i) (ht : r.call.ticket = some (i, t)) :
    r.ep = epoch t w.h := by
  have hl := hr.link
  obtain ⟨a, h1, k, ty, f, cb, h2, _⟩ := record_now hr ho hne
  obtain ⟨t', hor⟩ := hl.origin i r (List.mem_append_right _ hn)
  have h3 := hor.ticket
  rw [ht] at h3
  cases h3
  have hord := hl.order i
  unfold World.seq at hord
  rw [List.pairwise_append] at hord
  have h6 := hord.2.2 a.req (List.mem_map.mpr ⟨a, h1, rfl⟩) r hn i i t (by rw [h2]; rfl) ht
  unfold Request.stage at h6
  rw [h2] at h6
  have hold := hor.old
  have := rank_le r.call
  generalize r.call.rank = q at h6 this
  dsimp only [Call.rank] at h6
  omega

/-- Once a shard was asked to commit, the shards with a record hold it prepared or committed. -/
theorem decided_record {n me : Nat} {own : Tn → Prop} {w : World} (hr : Runs n me own Orderly w) {t : Tn}
    (hc : CommitAsked t w.h) {i : Nat} (hne : (w.shard i).ticket t ≠ none) :
    Touched t w.h i ∧ ∃ u, UserUpdate w t u ∧ (WillWritePart w i t u ∨ WrotePart w i t u) := by
  have hl := hr.link
  obtain ⟨a, _, k, ty, f, cb, _, h1⟩ := record_now hr (hc.own hl) hne
  have ht : Touched t w.h i := ⟨k, ty, f, cb, h1⟩
  obtain ⟨h2, h3, _⟩ := hl.decided t hc
  obtain ⟨_, _, _, h4⟩ := reported_kept hl (hr.held i) (h3 i ht) h2
  exact ⟨ht, h4⟩

theorem decided_phase {n me : Nat} {own : Tn → Prop} {w : World} (hr : Runs n me own Orderly w) {t : Tn}
    (hc : CommitAsked t w.h) (i : Nat) : phaseOf (w.shard i) t ≠ some .active := by
  intro hp
  have hne : (w.shard i).ticket t ≠ none := by
    intro h
    rw [ticket_of_phase, hp] at h
    cases h
  obtain ⟨_, u, _, h1 | h1⟩ := decided_record hr hc hne
  · obtain ⟨_, tk, h2, h3, _⟩ := h1
    unfold phaseOf at hp
    rw [h2] at hp
    simp [Parsec.Ticket.phase, h3] at hp
  · obtain ⟨_, a, h2, h3, _⟩ := h1
    rcases Committed.settled hr i t ⟨a, h2, h3⟩ with h4 | h4 <;> rw [h4] at hp <;> cases hp

/-- What a decided transaction is going to write changes only when it is committed. -/
theorem decided_pending {n me : Nat} {own : Tn → Prop} {w : World} (hr : Runs n me own Orderly w) {t : Tn}
    (hc : CommitAsked t w.h) {i : Nat} {r : Request} {rest : List Request} {op : Op} {s : Parsec.State} {o : Parsec.Out}
    (hn : w.net i = r :: rest) (ho : r.call.op me = some op) (he : exec (w.shard i) op = some (s, o)) :
    (∀ k, Many.pendingWrite s t k = Many.pendingWrite (w.shard i) t k) ∨
      (op = .commit t ∧ o.result = none ∧ ∀ k, Many.pendingWrite s t k = none) := by
  have hl := hr.link
  have hreach := (hr.held i).reach
  have hr' : Runs n me own Orderly (w.serve i r rest s o) := .step hr (.serve hn ho he)
  by_cases ht : t = op.ticket
  · by_cases hp : isPrepared (w.shard i) t
    · obtain ⟨tk, h1, h2⟩ := hp
      by_cases hcm : op = .commit t
      · subst hcm
        have h3 := (commit_prepared he h1 h2).1
        refine .inr ⟨rfl, h3, fun k => Many.pending_none ?_ k⟩
        rw [← phase_eq_prepared, exec_phase hreach.inv he]
        simp [phaseStep, Op.ticket, h3]
      · by_cases hrb : op = .rollback t
        · exfalso
          subst hrb
          have hne : (w.shard i).ticket t ≠ none := by rw [h1]; simp
          have hpre : ¬Committed w i t := by
            intro h3
            have hp : phaseOf (w.shard i) t = some .prepared := phase_eq_prepared.mpr ⟨tk, h1, h2⟩
            rcases Committed.settled hr i t h3 with h4 | h4 <;> rw [h4] at hp <;> cases hp
          have hti := (decided_record hr hc hne).1
          obtain ⟨h3, h4, _⟩ := hr'.link.decided t hc
          obtain ⟨_, _, _, u, _, h5⟩ := reported_kept hr'.link (hr'.held i) (h4 i hti) h3
          have hs : (w.serve i r rest s o).shard i = s := put_same _ _ _
          have hgone : s.ticket t = none := by
            rw [ticket_of_phase, exec_phase hreach.inv he]
            have : o.result = none := by
              have h' : Parsec.rollback (w.shard i) t = (s, o) := Option.some.inj he
              rcases rollback_cases (w.shard i) t with h6 | ⟨_, _, h6⟩
              · exact absurd h6.1 hne
              · rw [h'] at h6
                simp only [Prod.mk.injEq] at h6
                rw [h6.2]
            simp [phaseStep, Op.ticket, this]
          rcases h5 with ⟨_, tk', h6, _⟩ | ⟨_, a, h6, h7, _⟩
          · rw [hs, hgone] at h6
            cases h6
          · apply hpre
            refine ⟨a, ?_, h7⟩
            have h6 : a ∈ put w.log i _ i := h6
            rw [put_same] at h6
            rcases List.mem_append.mp h6 with h6 | h6
            · exact h6
            · rw [List.mem_singleton] at h6
              subst h6
              obtain ⟨⟨j, c, h8⟩, _⟩ := h7
              dsimp only at h8
              rw [h8] at ho
              cases ho
        · refine .inl fun k => Many.pending_congr ?_ k
          rw [h1]
          exact exec_prepared hreach.inv h1 h2 he hcm hrb
    · refine .inl fun k => ?_
      rw [Many.pending_none hp, Many.pending_none]
      intro hp'
      have hph := decided_phase hr hc i
      rw [← phase_eq_prepared] at hp hp'
      rw [exec_phase hreach.inv he] at hp'
      unfold phaseStep at hp'
      rw [if_neg (by rw [← ht]; simp)] at hp'
      cases op with
      | prepare x u =>
        have hx : t = x := ht
        subst hx
        by_cases h3 : o.result = none
        · have h4 : prepare (w.shard i) t u = (s, o) := Option.some.inj he
          rcases prepare_cases (w.shard i) t u with h5 | ⟨tk, h5, h6, h7⟩
          · rw [h4] at h5
            exact absurd h3 h5.2
          · apply hph
            unfold phaseOf
            rw [h5]
            simp [Parsec.Ticket.phase, (prepareError_none h6).1]
        · simp only [if_neg h3] at hp'
          exact hp hp'
      | tryLock x b k ty f cb =>
        simp only at hp'
        split at hp'
        · cases hp'
        · exact hp hp'
      | commit x =>
        simp only at hp'
        split at hp'
        · cases hp'
        · exact hp hp'
      | rollback x =>
        simp only at hp'
        split at hp'
        · cases hp'
        · exact hp hp'
      | finish x =>
        simp only at hp'
        split at hp'
        · cases hp'
        · exact hp hp'
  · exact .inl (Many.pending_other hreach he ht)

end Verif.Parsec.Broker
