import Verif.Http.ServerInv

/-!
# The HTTP server answers each request once, with what is due (C125)
-/
namespace Verif.Http.Server

open Verif.Serial Verif.Hex Verif.Http

variable {J : Type}

/-! ### Helpers -/

theorem next_of {cfg : Cfg J} {tr : List (Event J)} {e : Event J} {s' : State}
    (h : run cfg (tr ++ [e]) = .next s') : ∃ s, run cfg tr = .next s ∧ step cfg s e = .next s' := by
  rw [run_snoc] at h
  cases hr : run cfg tr with
  | next s => rw [hr] at h; exact ⟨s, rfl, h⟩
  | off => rw [hr] at h; nomatch h
  | undefined => rw [hr] at h; nomatch h

/-- What the functions of the server leave alone. -/
structure Kept (s s' : State) : Prop where
  given : s'.given = s.given
  running : s'.running = s.running
  stopped : s'.stopped = s.stopped
  sent : s'.sent = s.sent

theorem kept_response {cfg : Cfg J} {s s' : State} {n code : Nat} {body : Bytes}
    (h : sendResponse cfg s n code body = .next s') : Kept s s' := by
  unfold sendResponse at h
  split at h
  · nomatch h
  · split at h
    · nomatch h
    · cases h; exact ⟨rfl, rfl, rfl, rfl⟩

theorem kept_cors {s s' : State} {n : Nat} (h : sendCors s n = .next s') : Kept s s' := by
  unfold sendCors at h
  split at h
  · nomatch h
  · split at h
    · nomatch h
    · cases h; exact ⟨rfl, rfl, rfl, rfl⟩

theorem Kept.trans {s s' s'' : State} (h : Kept s s') (h' : Kept s' s'') : Kept s s'' :=
  ⟨h'.given.trans h.given, h'.running.trans h.running, h'.stopped.trans h.stopped,
    h'.sent.trans h.sent⟩

theorem kept_all {cfg : Cfg J} {n : Nat} {id : UInt64} {l : List (Option J)} {s s' : State}
    (h : handleAll cfg n id l s = .next s') : Kept s s' := by
  induction l generalizing s with
  | nil => cases h; exact ⟨rfl, rfl, rfl, rfl⟩
  | cons a l ih =>
    rw [handleAll, handleResponse_eq] at h
    cases hr : sendResponse cfg s n (textOf cfg id a).1 (textOf cfg id a).2 with
    | next s1 => rw [hr] at h; exact (kept_response hr).trans (ih h)
    | off => rw [hr] at h; nomatch h
    | undefined => rw [hr] at h; nomatch h

theorem kept_chunk {cfg : Cfg J} {s s' : State} {c n : Nat} {v : Verb} {k : Conn} {b : Bytes}
    (h : onChunk cfg s c n v k b = .next s') : Kept s s' := by
  unfold onChunk at h
  split at h
  · exact ⟨(kept_cors h).given, (kept_cors h).running, (kept_cors h).stopped, (kept_cors h).sent⟩
  · split at h
    · exact ⟨(kept_response h).given, (kept_response h).running, (kept_response h).stopped,
        (kept_response h).sent⟩
    · split at h
      · nomatch h
      · cases h; exact ⟨rfl, rfl, rfl, rfl⟩

/-- The end of a request hands it to the application, or nobody. -/
theorem finish_cases {cfg : Cfg J} {s s' : State} {c n : Nat} {v : Verb} {k : Conn}
    {now : List (Option J)} {ret : Bool} (h : onFinish cfg s c n v k now ret = .next s') :
    s'.running = s.running ∧ s'.stopped = s.stopped ∧ s'.sent = s.sent ∧
    (s'.given = s.given ∨ s.running = true ∧ v = .post ∧ ∃ r id, s.reqs n = some r ∧
      cfg.parse r.body = some id ∧ s'.given = upd s.given n (some id)) := by
  unfold onFinish at h
  split at h
  · have hk := kept_cors h
    exact ⟨hk.running, hk.stopped, hk.sent, .inl hk.given⟩
  · split at h
    · have hk := kept_response h
      exact ⟨hk.running, hk.stopped, hk.sent, .inl hk.given⟩
    · next hv =>
      split at h
      · next hrun =>
        split at h
        · nomatch h
        · next r hr =>
          unfold handleRequest at h
          split at h
          · have hk := kept_response h
            exact ⟨hk.running, hk.stopped, hk.sent, .inl hk.given⟩
          · next id hp =>
            generalize hs2 : ({ suspend { s with
                conns := upd s.conns c (some { k with complete := true }) } c
                { k with complete := true } with given := upd s.given n (some id) } : State) = s2 at h
            cases ha : handleAll cfg n id now s2 with
            | off => rw [ha] at h; nomatch h
            | undefined => rw [ha] at h; nomatch h
            | next s3 =>
              rw [ha] at h
              dsimp only [Res.andThen] at h
              have h3 : Kept s2 s' := by
                split at h
                · cases h; exact kept_all ha
                · exact (kept_all ha).trans (kept_response h)
              refine ⟨?_, ?_, ?_, .inr ⟨hrun, Decidable.not_not.mp hv, r, id, hr, hp, ?_⟩⟩
              · rw [h3.running, ← hs2]; rfl
              · rw [h3.stopped, ← hs2]; rfl
              · rw [h3.sent, ← hs2]; rfl
              · rw [h3.given, ← hs2]
      · cases hr : sendResponse cfg { s with conns := upd s.conns c (some { k with complete := true }) }
          n 503 (lit "Server is shutting down") with
        | off => rw [hr] at h; nomatch h
        | undefined => rw [hr] at h; nomatch h
        | next s1 =>
          rw [hr] at h
          cases h
          have hk := kept_response hr
          exact ⟨hk.running, hk.stopped, hk.sent, .inl hk.given⟩

/-- The event `finish`, in full. -/
theorem finish_at {cfg : Cfg J} {s s' : State} {c n : Nat} {now : List (Option J)} {ret : Bool}
    (h : step cfg s (.finish c n now ret) = .next s') :
    ∃ k v, s.conns c = some k ∧ k.req = some (n, v) ∧ k.complete = false ∧
      onFinish cfg s c n v k now ret = .next s' := by
  dsimp only [step] at h
  split at h
  · nomatch h
  · next k hk =>
    split at h
    · nomatch h
    · next e he =>
      split at h
      · next hc =>
        obtain ⟨rfl, h2, h3⟩ := hc
        exact ⟨k, e.2, hk, he, by simpa using h2, h⟩
      · nomatch h

theorem chunk_at {cfg : Cfg J} {s s' : State} {c n : Nat} {b : Bytes}
    (h : step cfg s (.chunk c n b) = .next s') : Kept s s' := by
  dsimp only [step] at h
  split at h
  · nomatch h
  · split at h
    · nomatch h
    · split at h
      · exact kept_chunk h
      · nomatch h

theorem send_at {cfg : Cfg J} {s s' : State} {c n : Nat} {keep : Bool}
    (h : step cfg s (.send c n keep) = .next s') :
    ∃ k v a, s.conns c = some k ∧ k.req = some (n, v) ∧ k.response = some a ∧
      s' = { complete s c k keep with sent := s.sent ++ [(c, n, a)] } := by
  dsimp only [step] at h
  split at h
  · nomatch h
  · next k hk =>
    split at h
    · nomatch h
    · next a ha =>
      split at h
      · next hc =>
        cases h
        obtain ⟨e, he, hn⟩ := Option.map_eq_some_iff.mp hc.1
        subst hn
        exact ⟨k, e.2, a, hk, he, ha, rfl⟩
      · nomatch h

/-- What the application was given stays what it is; and only the end of a request gives it anything. -/
theorem given_cases {cfg : Cfg J} {s s' : State} {e : Event J} (h : step cfg s e = .next s') :
    s'.given = s.given ∨ ∃ c n now ret k r id, e = .finish c n now ret ∧ s.running = true ∧
      s.conns c = some k ∧ k.req = some (n, .post) ∧ k.complete = false ∧ s.reqs n = some r ∧
      cfg.parse r.body = some id ∧ s'.given = upd s.given n (some id) := by
  cases e with
  | finish c n now ret =>
    obtain ⟨k, v, h1, h2, h3, h4⟩ := finish_at h
    rcases (finish_cases h4).2.2.2 with h5 | ⟨h5, rfl, r, id, h6, h7, h8⟩
    · exact .inl h5
    · exact .inr ⟨c, n, now, ret, k, r, id, rfl, h5, h1, h2, h3, h6, h7, h8⟩
  | chunk c n b => exact .inl (chunk_at h).given
  | send c n keep =>
    obtain ⟨k, v, a, _, _, _, rfl⟩ := send_at h
    exact .inl rfl
  | respond n a =>
    dsimp only [step] at h
    split at h
    · nomatch h
    · rw [handleResponse_eq] at h; exact .inl (kept_response h).given
  | connect c =>
    dsimp only [step] at h
    split at h
    · cases h; exact .inl rfl
    · nomatch h
  | headers c n v o =>
    dsimp only [step] at h
    split at h
    · cases h; exact .inl rfl
    · nomatch h
  | drop c =>
    dsimp only [step] at h
    split at h
    · nomatch h
    · split at h
      · nomatch h
      · cases h; exact .inl rfl
  | quiesce =>
    dsimp only [step] at h
    split at h
    · nomatch h
    · split at h
      · cases h; exact .inl rfl
      · nomatch h
  | stop =>
    dsimp only [step] at h
    split at h
    · cases h; exact .inl rfl
    · nomatch h

/-- The server runs until its destructor begins. -/
theorem running_cases {cfg : Cfg J} {s s' : State} {e : Event J} (h : step cfg s e = .next s') :
    (e = .quiesce ∧ s'.running = false) ∨ (e ≠ .quiesce ∧ s'.running = s.running) := by
  cases e with
  | finish c n now ret =>
    obtain ⟨k, v, h1, h2, h3, h4⟩ := finish_at h
    exact .inr ⟨(nomatch ·), (finish_cases h4).1⟩
  | chunk c n b => exact .inr ⟨(nomatch ·), (chunk_at h).running⟩
  | send c n keep =>
    obtain ⟨k, v, a, _, _, _, rfl⟩ := send_at h
    exact .inr ⟨(nomatch ·), rfl⟩
  | respond n a =>
    dsimp only [step] at h
    split at h
    · nomatch h
    · rw [handleResponse_eq] at h; exact .inr ⟨(nomatch ·), (kept_response h).running⟩
  | connect c =>
    dsimp only [step] at h
    split at h
    · cases h; exact .inr ⟨(nomatch ·), rfl⟩
    · nomatch h
  | headers c n v o =>
    dsimp only [step] at h
    split at h
    · cases h; exact .inr ⟨(nomatch ·), rfl⟩
    · nomatch h
  | drop c =>
    dsimp only [step] at h
    split at h
    · nomatch h
    · split at h
      · nomatch h
      · cases h; exact .inr ⟨(nomatch ·), rfl⟩
  | quiesce =>
    dsimp only [step] at h
    split at h
    · nomatch h
    · split at h
      · cases h; exact .inl ⟨rfl, rfl⟩
      · nomatch h
  | stop =>
    dsimp only [step] at h
    split at h
    · cases h; exact .inr ⟨(nomatch ·), rfl⟩
    · nomatch h

theorem running_run {cfg : Cfg J} (tr : List (Event J)) {s : State} (h : run cfg tr = .next s) :
    s.running = true ↔ .quiesce ∉ tr := by
  induction tr using List.reverseRecOn generalizing s with
  | nil => cases h; simp
  | append_singleton tr e ih =>
    obtain ⟨s1, h1, h2⟩ := next_of h
    rcases running_cases h2 with ⟨rfl, hr⟩ | ⟨hne, hr⟩
    · simp [hr]
    · rw [hr, ih h1]
      simp [Ne.symm hne]

theorem run_append {cfg : Cfg J} (tr tr' : List (Event J)) {s : State}
    (h : run cfg (tr ++ tr') = .next s) : ∃ s1, run cfg tr = .next s1 := by
  induction tr' using List.reverseRecOn generalizing s with
  | nil => rw [List.append_nil] at h; exact ⟨s, h⟩
  | append_singleton l e ih =>
    rw [← List.append_assoc] at h
    obtain ⟨s1, h1, _⟩ := next_of h
    exact ih h1

theorem given_mono {cfg : Cfg J} (tr tr' : List (Event J)) {s s' : State} {n : Nat}
    (h : run cfg tr = .next s) (h' : run cfg (tr ++ tr') = .next s') (hg : s.given n ≠ none) :
    s'.given n ≠ none := by
  induction tr' using List.reverseRecOn generalizing s' with
  | nil => rw [List.append_nil, h] at h'; cases h'; exact hg
  | append_singleton l e ih =>
    rw [← List.append_assoc] at h'
    obtain ⟨s1, h1, h2⟩ := next_of h'
    rcases given_cases h2 with h3 | ⟨c, m, now, ret, k, r, id, rfl, _, _, _, _, _, _, h3⟩
    · rw [h3]; exact ih h1
    · rw [h3]
      by_cases hm : n = m
      · subst hm; rw [upd_same]; exact Option.some_ne_none _
      · rw [upd_other _ _ hm]; exact ih h1

theorem late_append (n : Nat) (l l' : List (Event J)) : late n (l ++ l') = late n l ++ late n l' :=
  List.filterMap_append

/-- Whoever waits, waits for the application. -/
theorem owes_of_waiting {cfg : Cfg J} (tr : List (Event J)) {s : State} (h : run cfg tr = .next s)
    {n : Nat} (hg : s.given n ≠ none)
    (hw : ∃ c v o r k, Live tr s n c v o r k ∧ k.suspended = true) : Owes cfg tr n := by
  induction tr using List.reverseRecOn generalizing s with
  | nil => cases h; exact absurd rfl hg
  | append_singleton tr e ih =>
    obtain ⟨s1, h1, h2⟩ := next_of h
    have hi1 := inv_run cfg tr h1
    have hi := inv_run cfg _ h
    obtain ⟨c, v, o, r, k, hl, hs⟩ := hw
    have hwait : finishes n (tr ++ [e]) = [([], true)] ∧ late n (tr ++ [e]) = [] ∧ v = .post := by
      have key {c' v' o' r' k'} (h : Live (tr ++ [e]) s n c' v' o' r' k') : k' = k ∧ v' = v := by
        have h1 := h.req; rw [hl.req] at h1; cases h1
        have h2 := h.conn; rw [hl.conn] at h2; cases h2
        have h3 := h.isOpen; rw [hl.isOpen] at h3; cases h3
        have h4 := h.kreq; rw [hl.kreq] at h4; cases h4
        exact ⟨rfl, rfl⟩
      cases hi.stat n with
      | fresh _ h => rw [hl.req] at h; nomatch h
      | gone _ h => rw [hl.req] at h; nomatch h
      | reading h _ h3 => obtain ⟨rfl, rfl⟩ := key h; rw [hs] at h3; nomatch h3
      | answering h _ h3 => obtain ⟨rfl, rfl⟩ := key h; rw [hs] at h3; nomatch h3
      | waiting h _ _ _ h5 _ _ h8 => obtain ⟨rfl, rfl⟩ := key h; exact ⟨h5, h8, rfl⟩
    obtain ⟨hfin, hlate, hv⟩ := hwait
    subst hv
    have hlate0 : late n tr = [] ∧ late n [e] = [] := by
      rw [late_append] at hlate; exact List.append_eq_nil_iff.mp hlate
    by_cases hg1 : s1.given n = none
    · rcases given_cases h2 with h3 | ⟨c1, m, now, ret, k1, r1, id, rfl, hrun, hk1, hkr, hkc, hr1, hp, h3⟩
      · rw [h3] at hg; exact absurd hg1 hg
      · have hm : n = m := by
          by_cases hm : n = m
          · exact hm
          · rw [h3, upd_other _ _ hm] at hg; exact absurd hg1 hg
        subst hm
        obtain ⟨o1, r2, hd⟩ := hi1.atConn hk1 hkr hkc
        have hr2 := hd.live.req
        rw [hr1] at hr2; cases hr2
        rw [finishes_snoc, hd.fin] at hfin
        have hnow : now = [] ∧ ret = true := by simpa [finishes] using hfin
        obtain ⟨rfl, rfl⟩ := hnow
        refine ⟨tr, [], c1, c1, o1, id, rfl, (running_run tr h1).mp hrun, hd.live.hdr, ?_, rfl⟩
        rw [← hd.live.body rfl]; exact hp
    · have hsame : finishes n tr = [([], true)] := by
        rcases given_cases h2 with h3 | ⟨c1, m, now, ret, k1, r1, id, rfl, hrun, hk1, hkr, hkc, hr1, hp, h3⟩
        · cases hf : finishes n [e] with
          | nil => rw [finishes_snoc, hf, List.append_nil] at hfin; exact hfin
          | cons x l =>
            have hx : finishes n tr = [] := by
              cases hf2 : finishes n tr with
              | nil => rfl
              | cons y l2 =>
                rw [finishes_snoc, hf, hf2] at hfin
                have := congrArg List.length hfin
                simp at this
            cases hi1.stat n with
            | fresh _ _ h => exact absurd h hg1
            | reading _ _ _ _ _ h => exact absurd h hg1
            | waiting _ _ _ _ h => rw [hx] at h; nomatch h
            | answering _ _ _ _ h => rw [hx] at h; nomatch h
            | gone _ _ _ h =>
              obtain ⟨_, _, h, _⟩ := h hg1
              rw [hx] at h; nomatch h
        · by_cases hm : m = n
          · subst hm
            obtain ⟨o1, r2, hd⟩ := hi1.atConn hk1 hkr hkc
            exact absurd hd.noCb hg1
          · rw [finishes_snoc] at hfin
            simpa [finishes, hm] using hfin
      have hprev : ∃ c v o r k, Live tr s1 n c v o r k ∧ k.suspended = true := by
        cases hi1.stat n with
        | fresh _ _ h => exact absurd h hg1
        | reading _ _ _ _ _ h => exact absurd h hg1
        | waiting h _ h3 => exact ⟨_, _, _, _, _, h, h3⟩
        | answering _ _ _ _ _ _ h =>
          obtain ⟨_, _, h4, h5⟩ := h hg1
          rw [hsame] at h4; cases h4
          exact absurd hlate0.1 (h5 rfl rfl)
        | gone _ _ _ h =>
          obtain ⟨_, _, h4, h5⟩ := h hg1
          rw [hsame] at h4; cases h4
          exact absurd hlate0.1 (h5 rfl rfl)
      obtain ⟨b, a, c1, c2, o1, id, rfl, h5, h6, h7, h8⟩ := ih h1 hg1 hprev
      exact ⟨b, a ++ [e], c1, c2, o1, id, by simp, h5, h6, h7, by rw [late_append, h8, hlate0.2]; rfl⟩

/-- A request for which the application owes an answer waits. -/
theorem waiting_of_owes {cfg : Cfg J} (tr : List (Event J)) {s : State} (h : run cfg tr = .next s)
    {n : Nat} (ho : Owes cfg tr n) :
    s.given n ≠ none ∧ ∃ c v o r k, Live tr s n c v o r k ∧ k.suspended = true := by
  obtain ⟨b, a, c, c', o, id, rfl, hq, hh, hp, hl⟩ := ho
  rw [show b ++ .finish c n [] true :: a = (b ++ [.finish c n [] true]) ++ a by simp] at h ⊢
  obtain ⟨s2, h2⟩ := run_append _ _ h
  obtain ⟨s1, h1, h3⟩ := next_of h2
  have hi1 := inv_run cfg b h1
  obtain ⟨k, v, hk, hkr, hkc, hf⟩ := finish_at h3
  obtain ⟨o1, r1, hd⟩ := hi1.atConn hk hkr hkc
  have hv : v = .post := by
    have := hd.live.hdr; rw [hh] at this; cases this; rfl
  subst hv
  have hg2 : s2.given n ≠ none := by
    have hrun := (running_run b h1).mpr hq
    unfold onFinish at hf
    rw [if_neg (fun h => nomatch h.1), if_neg (fun h => h rfl), if_pos hrun, hd.live.req] at hf
    dsimp only [handleRequest] at hf
    rw [hd.live.body rfl, hp] at hf
    dsimp only [handleAll, Res.andThen] at hf
    rw [if_pos rfl] at hf
    cases hf
    dsimp only [suspend]
    rw [upd_same]; exact Option.some_ne_none _
  have hg := given_mono _ a h2 h hg2
  have hi := inv_run cfg _ h
  have hfin : ([], true) ∈ finishes n ((b ++ [.finish c n [] true]) ++ a) := by
    unfold finishes
    rw [List.mem_filterMap]
    exact ⟨.finish c n [] true, by simp, by simp⟩
  have hlate : late n ((b ++ [.finish c n [] true]) ++ a) = [] := by
    rw [late_append, hl, late_append, hd.aft]; simp [late]
  refine ⟨hg, ?_⟩
  cases hi.stat n with
  | fresh _ _ h => exact absurd h hg
  | reading _ _ _ _ _ h => exact absurd h hg
  | waiting h _ h3 => exact ⟨_, _, _, _, _, h, h3⟩
  | answering _ _ _ _ _ _ h =>
    obtain ⟨_, _, h4, h5⟩ := h hg
    rw [h4] at hfin; cases List.mem_singleton.mp hfin
    exact absurd hlate (h5 rfl rfl)
  | gone _ _ _ h =>
    obtain ⟨_, _, h4, h5⟩ := h hg
    rw [h4] at hfin; cases List.mem_singleton.mp hfin
    exact absurd hlate (h5 rfl rfl)

/-! ### The theorems -/

/-- **C125.** What is sent on a connection is what is due to the request that was received on it: to its
method, its whole body and the first answer of the application. -/
theorem C125_right {cfg : Cfg J} {tr : List (Event J)} {s s' : State} {c n : Nat} {keep : Bool}
    (h : run cfg tr = .next s) (h' : step cfg s (.send c n keep) = .next s') :
    ∃ v o now ret a, headersOf n tr = [(c, v, o)] ∧ finishes n tr = [(now, ret)] ∧
      Due cfg v o (bodyOf n tr) now ret (late n tr) a ∧ s'.sent = s.sent ++ [(c, n, a)] := by
  obtain ⟨k, v, a, h1, h2, h3, rfl⟩ := send_at h'
  obtain ⟨o, r, now, ret, hl, h4, h5, _, _⟩ := (inv_run cfg tr h).atAnswer h1 h2 h3
  exact ⟨v, o, now, ret, a, hl.hdr, h4, h5, rfl⟩

/-- **C125.** A request is answered at most once. -/
theorem C125_once {cfg : Cfg J} {tr : List (Event J)} {s : State} (h : run cfg tr = .next s) (n : Nat) :
    (sends n tr).length ≤ 1 := by
  cases (inv_run cfg tr h).stat n with
  | fresh _ _ _ _ _ _ _ h => rw [h]; exact Nat.zero_le _
  | gone _ _ _ _ h => exact h
  | reading h => rw [h.unsent]; exact Nat.zero_le _
  | waiting h => rw [h.unsent]; exact Nat.zero_le _
  | answering h => rw [h.unsent]; exact Nat.zero_le _

/-- **C125.** A request that was received in full, and is still served, can be answered at once, unless the
application owes the answer. -/
theorem C125_ready {cfg : Cfg J} {tr : List (Event J)} {s : State} (h : run cfg tr = .next s) {c n : Nat}
    (hp : InProgress s c n) (hf : finishes n tr ≠ []) :
    Owes cfg tr n ∨ ∀ keep, ∃ s', step cfg s (.send c n keep) = .next s' := by
  have hi := inv_run cfg tr h
  obtain ⟨k, v, hk, hkr⟩ := hp
  obtain ⟨r, hr, hrc⟩ := hi.busy c k n v hk hkr
  have key {c' v' o r' k'} (h : Live tr s n c' v' o r' k') : k' = k := by
    have h1 := h.req; rw [hr] at h1; cases h1
    have h2 := h.conn; rw [hrc] at h2; cases h2
    have h3 := h.isOpen; rw [hk] at h3; cases h3
    rfl
  cases hi.stat n with
  | fresh _ h => rw [h] at hr; nomatch hr
  | gone _ h => rw [h] at hr; nomatch hr
  | reading _ _ _ _ h => exact absurd h hf
  | waiting h1 _ h3 _ _ h6 =>
    exact .inl (owes_of_waiting tr h (by rw [h6]; exact Option.some_ne_none _) ⟨_, _, _, _, _, h1, h3⟩)
  | answering h1 _ h3 h4 =>
    cases key h1
    obtain ⟨a, ha⟩ : ∃ a, k.response = some a := ⟨_, h4⟩
    refine .inr fun keep => ⟨{ complete s c k keep with sent := s.sent ++ [(c, n, a)] }, ?_⟩
    dsimp only [step]
    rw [hk]; dsimp only
    rw [ha]; dsimp only
    rw [if_pos ⟨by rw [hkr]; rfl, by rw [h3]; rfl⟩]

/-- **C125** for an application that calls each callback at most once, and not after it refused the request
or answered it in its handler, and a server that listens: there is no undefined behaviour. -/
theorem C125_safe_partial {cfg : Cfg J} (hlis : cfg.listening = true) {tr : List (Event J)}
    (hb : Behaved tr) : run cfg tr ≠ .undefined := by
  induction tr using List.reverseRecOn with
  | nil => intro h; nomatch h
  | append_singleton tr e ih =>
    intro h
    have hpre : Behaved tr := by
      intro n now ret h1 h2
      have h3 : (now, ret) ∈ finishes n (tr ++ [e]) := by
        rw [finishes_snoc]; exact List.mem_append_left _ h1
      obtain ⟨a, b, c⟩ := hb n now ret h3 (by
        rw [late_snoc]; exact fun h => h2 (List.append_eq_nil_iff.mp h).1)
      refine ⟨a, b, ?_⟩
      rw [late_snoc, List.length_append] at c
      have := List.length_pos_iff.mpr h2
      omega
    rw [run_snoc] at h
    cases hr : run cfg tr with
    | undefined => exact ih hpre hr
    | off => rw [hr] at h; nomatch h
    | next s =>
      rw [hr] at h
      have hi := inv_run cfg tr hr
      change step cfg s e = .undefined at h
      have hresp {s : State} {n code : Nat} {body : Bytes} {r : Req} {k : Conn}
          (h1 : s.reqs n = some r) (h2 : s.conns r.conn = some k)
          (h : sendResponse cfg s n code body = .undefined) : False := by
        obtain ⟨s', r', h3, _⟩ := touch_response cfg h1 h2 code body
        rw [h3] at h; nomatch h
      cases e with
      | connect c => dsimp only [step] at h; split at h <;> nomatch h
      | headers c n v o => dsimp only [step] at h; split at h <;> nomatch h
      | chunk c n b =>
        dsimp only [step] at h
        split at h
        · nomatch h
        · next k hk =>
          split at h
          · nomatch h
          · next e he =>
            split at h
            · next hc =>
              obtain ⟨rfl, h2, h3⟩ := hc
              obtain ⟨o, r, hd⟩ := hi.atConn (v := e.2) hk he (by simpa using h2)
              have hk1 : ({ s with conns := upd s.conns c (some { k with stuck := true }) } :
                  State).conns r.conn = some { k with stuck := true } := by
                dsimp only; rw [hd.live.conn]; exact upd_same _ _ _
              unfold onChunk at h
              split at h
              · obtain ⟨s', r', h3, _⟩ := touch_cors
                  (s := { s with conns := upd s.conns c (some { k with stuck := true }) })
                  hd.live.req hk1
                rw [h3] at h; nomatch h
              · split at h
                · exact hresp (s := { s with conns := upd s.conns c (some { k with stuck := true }) })
                    hd.live.req hk1 h
                · rw [hd.live.req] at h; nomatch h
            · nomatch h
      | finish c n now ret =>
        dsimp only [step] at h
        split at h
        · nomatch h
        · next k hk =>
          split at h
          · nomatch h
          · next e he =>
            split at h
            · next hc =>
              obtain ⟨rfl, h2, h3⟩ := hc
              obtain ⟨o, r, hd⟩ := hi.atConn (v := e.2) hk he (by simpa using h2)
              have hk1 : ({ s with conns := upd s.conns c (some { k with complete := true }) } :
                  State).conns r.conn = some { k with complete := true } := by
                dsimp only; rw [hd.live.conn]; exact upd_same _ _ _
              unfold onFinish at h
              split at h
              · obtain ⟨s', r', h3, _⟩ := touch_cors
                  (s := { s with conns := upd s.conns c (some { k with complete := true }) })
                  hd.live.req hk1
                rw [h3] at h; nomatch h
              · split at h
                · exact hresp (s := { s with conns := upd s.conns c (some { k with complete := true }) })
                    hd.live.req hk1 h
                · split at h
                  · rw [hd.live.req] at h
                    dsimp only [handleRequest] at h
                    split at h
                    · exact hresp (s := { s with
                        conns := upd s.conns c (some { k with complete := true }) })
                        hd.live.req hk1 h
                    · next id hp =>
                      generalize hs2 : ({ suspend { s with
                          conns := upd s.conns c (some { k with complete := true }) } c
                          { k with complete := true } with
                            given := upd s.given e.1 (some id) } : State) = s2 at h
                      have hr2 : s2.reqs e.1 = some r := by rw [← hs2]; exact hd.live.req
                      have hk2 : ∃ k2, s2.conns r.conn = some k2 := by
                        refine ⟨{ k with
                          complete := true
                          suspended := true }, ?_⟩
                        rw [← hs2, hd.live.conn]; exact upd_same _ _ _
                      have hall : ∀ (l : List (Option J)) (s : State) (r : Req),
                          s.reqs e.1 = some r → (∃ k, s.conns r.conn = some k) →
                          ∃ s' r', handleAll cfg e.1 id l s = .next s' ∧ s'.reqs e.1 = some r' ∧
                            ∃ k, s'.conns r'.conn = some k := by
                        intro l
                        induction l with
                        | nil => intro s r h1 h2; exact ⟨s, r, rfl, h1, h2⟩
                        | cons x l ih =>
                          intro s r h1 ⟨k, h2⟩
                          obtain ⟨s', r', h3, h4⟩ := touch_response cfg h1 h2 (textOf cfg id x).1
                            (textOf cfg id x).2
                          obtain ⟨s'', r'', h5, h6⟩ := ih s' r' h4.reqs ⟨_, h4.conns⟩
                          refine ⟨s'', r'', ?_, h6⟩
                          rw [handleAll, handleResponse_eq, h3]; exact h5
                      obtain ⟨s3, r3, h5, h6, k3, h7⟩ := hall now s2 r hr2 hk2
                      rw [h5] at h
                      dsimp only [Res.andThen] at h
                      split at h
                      · nomatch h
                      · exact hresp h6 h7 h
                  · obtain ⟨s', r', h3, _⟩ := touch_response cfg
                      (s := { s with conns := upd s.conns c (some { k with complete := true }) })
                      hd.live.req hk1 503 (lit "Server is shutting down")
                    rw [h3] at h; nomatch h
            · nomatch h
      | respond n a =>
        dsimp only [step] at h
        split at h
        · nomatch h
        · next id hg =>
          rw [handleResponse_eq] at h
          have hlive {c v o r k} (hl : Live tr s n c v o r k) : False := hresp hl.req hl.at h
          cases hi.stat n with
          | fresh _ _ h => rw [hg] at h; nomatch h
          | reading h => exact hlive h
          | waiting h => exact hlive h
          | answering h => exact hlive h
          | gone _ _ _ hset =>
            obtain ⟨now, ret, h1, h2⟩ := hset (by rw [hg]; exact Option.some_ne_none _)
            have h3 : late n (tr ++ [.respond n a]) = late n tr ++ [a] := by simp [late]
            obtain ⟨h4, h5, h6⟩ := hb n now ret (by rw [finishes_snoc, h1]; simp) (by rw [h3]; simp)
            rw [h3, List.length_append, List.length_singleton] at h6
            have := List.length_pos_iff.mpr (h2 h4 h5)
            omega
      | send c n keep =>
        dsimp only [step] at h
        split at h
        · nomatch h
        · split at h
          · nomatch h
          · split at h <;> nomatch h
      | drop c =>
        dsimp only [step] at h
        split at h
        · nomatch h
        · split at h <;> nomatch h
      | quiesce =>
        dsimp only [step] at h
        rw [hlis, if_neg (by simp)] at h
        split at h <;> nomatch h
      | stop => dsimp only [step] at h; split at h <;> nomatch h

/-- **C125 is violated**: the application may call a callback when its request is over, which is
a use after free: the second call of a callback, and any call after the handler returned false. -/
theorem C125_twice_violated {cfg : Cfg J} {tr : List (Event J)} {s : State} (h : run cfg tr = .next s)
    {n : Nat} (hg : s.given n ≠ none) (hd : ∀ c, ¬ InProgress s c n) (a : Option J) : run cfg (tr ++ [.respond n a]) = .undefined := by
  have hi := inv_run cfg tr h
  have hnone : s.reqs n = none := by
    cases hr : s.reqs n with
    | none => rfl
    | some r =>
      obtain ⟨k, v, h1, h2⟩ := (hi.stat n).conn hr
      exact absurd ⟨k, v, h1, h2⟩ (hd r.conn)
  rw [run_snoc, h]
  dsimp only [Res.andThen, step]
  cases hgn : s.given n with
  | none => exact absurd hgn hg
  | some id =>
    dsimp only
    rw [handleResponse_eq, sendResponse, hnone]

/-- **C125 is violated**: as long as the application owes an answer the destructor waits. -/
theorem C125_hang_violated {cfg : Cfg J} {tr : List (Event J)} {s : State} (h : run cfg tr = .next s)
    {n : Nat} (ho : Owes cfg tr n) : s.stopped = false ∧ step cfg s .stop = .off := by
  have hi := inv_run cfg tr h
  obtain ⟨_, c, v, o, r, k, hl, _⟩ := waiting_of_owes tr h ho
  have hmem := (hi.count c).mpr (by rw [hl.isOpen]; exact Option.some_ne_none k)
  have hne : s.opened ≠ [] := fun h => by rw [h] at hmem; nomatch hmem
  constructor
  · cases hs : s.stopped with
    | false => rfl
    | true => exact absurd (hi.ended hs).1 hne
  · dsimp only [step]
    rw [if_neg fun h => hne h.2.1]

/-- **C125.** If it owes nothing, the destructor comes to an end: the clients that stay connected
are dropped. -/
theorem C125_drains {cfg : Cfg J} {tr : List (Event J)} {s : State} (h : run cfg tr = .next s)
    (hq : s.running = false) (hs : s.stopped = false) (ho : ∀ n, ¬ Owes cfg tr n) :
    ∃ (cs : List Nat) (s' : State), run cfg (tr ++ (cs.map .drop ++ [.stop])) = .next s' ∧ s'.stopped = true := by
  have hi := inv_run cfg tr h
  have hawake : ∀ c k, s.conns c = some k → k.suspended = false := by
    intro c k hk
    cases hkr : k.req with
    | none => rw [hi.idle c k hk hkr]
    | some e =>
      obtain ⟨r, hr, hrc⟩ := hi.busy c k e.1 e.2 hk hkr
      have key {c' v' o r' k'} (h : Live tr s e.1 c' v' o r' k') : k' = k := by
        have h1 := h.req; rw [hr] at h1; cases h1
        have h2 := h.conn; rw [hrc] at h2; cases h2
        have h3 := h.isOpen; rw [hk] at h3; cases h3
        rfl
      cases hi.stat e.1 with
      | fresh _ h => rw [h] at hr; nomatch hr
      | gone _ h => rw [h] at hr; nomatch hr
      | reading h1 _ h3 => cases key h1; exact h3
      | answering h1 _ h3 => cases key h1; exact h3
      | waiting h1 _ h3 _ _ h6 =>
        exact absurd (owes_of_waiting tr h (by rw [h6]; exact Option.some_ne_none _)
          ⟨_, _, _, _, _, h1, h3⟩) (ho e.1)
  clear ho
  generalize hm : s.opened.length = m
  induction m using Nat.strongRecOn generalizing s tr with
  | ind m ih =>
    cases hop : s.opened with
    | nil =>
      refine ⟨[], { s with stopped := true }, ?_, rfl⟩
      rw [List.map_nil, List.nil_append, run_snoc, h]
      dsimp only [Res.andThen, step]
      rw [if_pos ⟨by rw [hq]; rfl, hop, by rw [hs]; rfl⟩]
    | cons c l =>
      have hc := (hi.count c).mp (by rw [hop]; exact List.mem_cons_self)
      obtain ⟨k, hk⟩ := Option.ne_none_iff_exists'.mp hc
      have hk' := hawake c k hk
      have hstep : run cfg (tr ++ [.drop c]) = .next (complete s c k false) := by
        rw [run_snoc, h]
        dsimp only [Res.andThen, step]
        rw [hk]; dsimp only
        rw [if_neg (by rw [hk']; exact (nomatch ·))]
      have hlen : (complete s c k false).opened.length < m := by
        rw [← hm]
        dsimp only [complete]
        rw [if_neg (fun h => nomatch h)]
        rw [hop, List.filter_cons_of_neg (by simp)]
        exact Nat.lt_succ_of_le (List.length_filter_le _ _)
      obtain ⟨cs, s', h1, h2⟩ := ih _ hlen hstep hq hs (step_drop hi hk hk') (fun c1 k1 h1 => by
        dsimp only [complete] at h1
        by_cases hcc : c1 = c
        · rw [hcc, upd_same] at h1; nomatch h1
        · rw [upd_other _ _ hcc] at h1; exact hawake c1 k1 h1) rfl
      refine ⟨c :: cs, s', ?_, h2⟩
      rw [List.map_cons, List.cons_append]
      rw [List.append_assoc] at h1
      exact h1

/-- **C125 is violated**: nobody is ever told that the server is shutting down. -/
theorem C125_shutdown_violated {cfg : Cfg J} {tr : List (Event J)} {s : State}
    (h : run cfg tr = .next s) : ∀ e ∈ s.sent, e.2.2.code ≠ 503 :=
  (inv_run cfg tr h).codes

/-- **C125 is violated**: a request with another method than `POST` is not refused but never
answered, if it has a body. -/
theorem C125_upload_violated {cfg : Cfg J} {tr : List (Event J)} {s : State} (h : run cfg tr = .next s)
    {c n : Nat} {v : Verb} {o : Option Text} (hh : (c, v, o) ∈ headersOf n tr) (hv : v ≠ .post)
    (hu : uploads n tr ≠ []) : sends n tr = [] := by
  cases (inv_run cfg tr h).stat n with
  | fresh _ _ _ _ _ _ _ h => exact h
  | gone _ _ h3 _ _ h6 =>
    rw [h3] at hh; cases List.mem_singleton.mp hh
    exact h6 hv hu
  | reading h => exact h.unsent
  | waiting h => exact h.unsent
  | answering h => exact h.unsent

/-- **C125 is violated**: destroying a server that could not listen is undefined. -/
theorem C125_init_violated {cfg : Cfg J} (h : cfg.listening = false) :
    run cfg [.quiesce] = .undefined := by
  simp [run, step, Res.andThen, h]

/-! ### The hypotheses can be met -/

/-- A server whose requests have a number in their only byte, and whose answers are bytes. -/
def small : Cfg UInt8 :=
  { cors := true
    listening := true
    parse := fun b => match b with | [x] => some x.toUInt64 | _ => none
    render := fun id j => [id.toUInt8, j] }

/-- A request which the application answers later, with another connection in between. -/
def asked : List (Event UInt8) :=
  [.connect 0, .headers 0 0 .post none, .connect 1, .chunk 0 0 [7], .headers 1 1 .options none,
    .finish 0 0 [] true]

/-- what was sent -/
def sentBy (r : Res) : Option (List (Nat × Nat × Answer)) :=
  match r with
  | .next s => some s.sent
  | _ => none

/-- whether the destructor is through -/
def overBy (r : Res) : Bool :=
  match r with
  | .next s => s.stopped
  | _ => false

/-- whether something undefined happened -/
def undefinedBy (r : Res) : Bool :=
  match r with
  | .undefined => true
  | _ => false

/-- Two requests are answered, the one that came last first. -/
example : sentBy (run small (asked ++ [.finish 1 1 [] true, .send 1 1 true, .respond 0 (some 9),
    .send 0 0 false])) =
    some [(1, 1, ⟨200, [], some (lit "*"), true⟩), (0, 0, ⟨200, [7, 9], some (lit "*"), false⟩)] := by
  decide +kernel

/-- and then the server is destroyed -/
example : overBy (run small (asked ++ [.finish 1 1 [] true, .send 1 1 true, .respond 0 (some 9),
    .send 0 0 false, .quiesce, .drop 1, .stop])) = true := by decide +kernel

/-- The application owes an answer. -/
example : Owes small asked 0 :=
  ⟨asked.take 5, [], 0, 0, none, 7, by rfl, by simp [asked], by rfl, by rfl, by rfl⟩

/-- meanwhile the destructor cannot get on -/
example : overBy (run small (asked ++ [.quiesce, .drop 1, .stop])) = false ∧
    sentBy (run small (asked ++ [.quiesce, .drop 1])) = some [] := by decide +kernel

/-- The application answers twice. -/
example : undefinedBy (run small (asked ++ [.respond 0 (some 9), .send 0 0 true,
    .respond 0 (some 9)])) = true ∧
    undefinedBy (run small (asked ++ [.respond 0 (some 9), .respond 0 (some 8)])) = false := by
  decide +kernel

/-- It refuses the request and answers it nevertheless. -/
example : undefinedBy (run small [.connect 0, .headers 0 0 .post none, .chunk 0 0 [7],
    .finish 0 0 [] false, .send 0 0 true, .respond 0 (some 9)]) = true := by decide +kernel

/-- What a well behaved application makes of it. -/
example : Behaved (asked ++ [.respond 0 (some 9), .send 0 0 true]) := by
  intro n now ret h1 h2
  by_cases hn : n = 0
  · subst hn
    have : (now, ret) = (([] : List (Option UInt8)), true) := by simpa [asked, finishes] using h1
    cases this
    exact ⟨rfl, rfl, rfl⟩
  · have : (0 : Nat) ≠ n := fun h => hn h.symm
    simp [asked, late, this] at h2

/-- A request that ends when the server shuts down gets no answer: its connection is gone. -/
example : sentBy (run small (asked ++ [.quiesce, .finish 1 1 [] true])) = some [] ∧
    sentBy (run small [.connect 0, .headers 0 0 .post none, .chunk 0 0 [7], .quiesce,
      .finish 0 0 [] true]) = some [] ∧
    overBy (run small [.connect 0, .headers 0 0 .post none, .chunk 0 0 [7], .quiesce,
      .finish 0 0 [] true, .stop]) = true := by decide +kernel

/-- A `PUT` with a body is stuck, one without is refused. -/
example : sentBy (run small [.connect 0, .headers 0 0 .other none, .chunk 0 0 [7],
    .drop 0]) = some [] ∧
    sentBy (run small [.connect 0, .headers 0 0 .other none, .chunk 0 0 [7],
      .send 0 0 true]) = none ∧
    sentBy (run small [.connect 0, .headers 0 0 .other (some [1]), .finish 0 0 [] true,
      .send 0 0 true]) =
      some [(0, 0, ⟨405, lit "HTTP method not allowed", some [1], false⟩)] := by decide +kernel

end Verif.Http.Server
