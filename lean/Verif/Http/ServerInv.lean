import Verif.Http.ServerLemmas
import Mathlib.Data.List.Induction

/-!
# The HTTP server (C125): every event keeps the invariant
-/
namespace Verif.Http.Server

open Verif.Serial Verif.Hex Verif.Http

variable {J : Type}

/-! ### What an event adds to what is known of its request -/

@[simp] theorem headersOf_snoc (n : Nat) (tr : List (Event J)) (e : Event J) :
    headersOf n (tr ++ [e]) = headersOf n tr ++ headersOf n [e] := List.filterMap_append
@[simp] theorem uploads_snoc (n : Nat) (tr : List (Event J)) (e : Event J) :
    uploads n (tr ++ [e]) = uploads n tr ++ uploads n [e] := List.filterMap_append
@[simp] theorem finishes_snoc (n : Nat) (tr : List (Event J)) (e : Event J) :
    finishes n (tr ++ [e]) = finishes n tr ++ finishes n [e] := List.filterMap_append
@[simp] theorem late_snoc (n : Nat) (tr : List (Event J)) (e : Event J) :
    late n (tr ++ [e]) = late n tr ++ late n [e] := List.filterMap_append
@[simp] theorem sends_snoc (n : Nat) (tr : List (Event J)) (e : Event J) :
    sends n (tr ++ [e]) = sends n tr ++ sends n [e] := List.filterMap_append

theorem fin_empty {cfg : Cfg J} : Inv cfg [] {} where
  stat _ := .fresh (fun h => nomatch h) rfl rfl rfl rfl rfl rfl rfl
  idle _ _ h := nomatch h
  busy _ _ _ _ h := nomatch h
  count _ := ⟨fun h => (nomatch h), fun h => absurd rfl h⟩
  codes _ h := nomatch h
  ended h := nomatch h

theorem header_eq (cfg : Cfg J) {r : Req} {o : Option Text} (h : allowed r.origin = allowed o) :
    (if cfg.cors then some (allowed r.origin) else none) = header cfg o := by
  rw [h]; rfl

/-- A request that is being received. -/
structure Reading (cfg : Cfg J) (tr : List (Event J)) (s : State) (n c : Nat) (v : Verb) (o : Option Text)
    (r : Req) (k : Conn) : Prop where
  live : Live tr s n c v o r k
  part : k.complete = false
  awake : k.suspended = false
  quiet : k.response = none
  fin : finishes n tr = []
  noCb : s.given n = none
  aft : late n tr = []

theorem Inv.atConn {cfg : Cfg J} {tr : List (Event J)} {s : State} (hi : Inv cfg tr s) {c n : Nat}
    {v : Verb} {k : Conn} (hk : s.conns c = some k) (hkr : k.req = some (n, v))
    (hc : k.complete = false) : ∃ o r, Reading cfg tr s n c v o r k := by
  obtain ⟨r, hr, hrc⟩ := hi.busy c k n v hk hkr
  have key {c' v' o r' k'} (h : Live tr s n c' v' o r' k') : r' = r ∧ c' = c ∧ k' = k ∧ v' = v := by
    have h1 := h.req; rw [hr] at h1; cases h1
    have h2 := h.conn; rw [hrc] at h2; cases h2
    have h3 := h.isOpen; rw [hk] at h3; cases h3
    have h4 := h.kreq; rw [hkr] at h4; cases h4
    exact ⟨rfl, rfl, rfl, rfl⟩
  cases hi.stat n with
  | fresh _ h => rw [h] at hr; nomatch hr
  | gone _ h => rw [h] at hr; nomatch hr
  | reading h h2 h3 h4 h5 h6 h7 =>
    obtain ⟨rfl, rfl, rfl, rfl⟩ := key h
    exact ⟨_, _, h, h2, h3, h4, h5, h6, h7⟩
  | waiting h h2 =>
    obtain ⟨rfl, rfl, rfl, _⟩ := key h
    rw [h2] at hc; nomatch hc
  | answering h h2 =>
    obtain ⟨rfl, rfl, rfl, _⟩ := key h
    rw [h2] at hc; nomatch hc

/-- The connection of a request in progress. -/
theorem Live.at {tr : List (Event J)} {s : State} {n c : Nat} {v : Verb} {o : Option Text} {r : Req}
    {k : Conn} (h : Live tr s n c v o r k) : s.conns r.conn = some k := by
  rw [h.conn]; exact h.isOpen

/-! ### The functions, at a request in progress -/

/-- Any answer which is queued before the request is complete is refused. -/
theorem early {k : Conn} (h : k.complete = false) (h' : k.suspended = false) (a : Answer) :
    (k.queue a).resume = k := by
  cases k; simp_all [Conn.queue, Conn.resume]

/-- The first answer after that is kept. -/
theorem kept {k : Conn} (h : k.complete = true) (h' : k.response = none) (a : Answer) :
    (k.queue a).resume = { k with
      response := some a
      suspended := false } := by
  cases k; simp_all [Conn.queue, Conn.resume]

theorem step_chunk {cfg : Cfg J} {tr : List (Event J)} {s s' : State} (hi : Inv cfg tr s) {c n : Nat}
    {v : Verb} {o : Option Text} {r : Req} {k : Conn} (hd : Reading cfg tr s n c v o r k) (b : Bytes)
    (h : onChunk cfg s c n v k b = .next s') : Inv cfg (tr ++ [.chunk c n b]) s' := by
  have hl := hd.live
  have refused {s1 : State} {r' : Req} (hv : v ≠ .post)
      (ht : Touch { s with conns := upd s.conns c (some { k with stuck := true }) } s1 n r r'
        { k with stuck := true }) : Inv cfg (tr ++ [.chunk c n b]) s1 := by
    have heq : s1 = { s with
        reqs := upd s.reqs n (some r')
        conns := upd s.conns r.conn (some { k with stuck := true })
        given := s.given } := by
      rw [ht.eq]; dsimp only; rw [hl.conn, upd_upd]
    refine hi.change (k' := { k with stuck := true }) rfl hl.req hl.at hl.kreq heq (fun _ _ => rfl)
      ht.conn hl.kreq ?_
    refine .reading (hl.step (k' := { k with stuck := true }) (by rw [heq]) ht.reqs ht.conn ?_ rfl
      ht.orig (fun h => absurd h hv) ?_ ?_ (fun _ _ => rfl)) hd.part hd.awake hd.quiet ?_ ?_ ?_
    · rw [← ht.conn]; exact ht.conns
    · simp [headersOf]
    · simp [sends]
    · simpa [finishes] using hd.fin
    · rw [heq]; exact hd.noCb
    · simpa [late] using hd.aft
  have hk1 : ({ s with conns := upd s.conns c (some { k with stuck := true }) } : State).conns r.conn
      = some { k with stuck := true } := by
    dsimp only; rw [hl.conn]; exact upd_same _ _ _
  have hr1 : ({ s with conns := upd s.conns c (some { k with stuck := true }) } : State).reqs n
      = some r := hl.req
  unfold onChunk at h
  split at h
  · next hv =>
    obtain ⟨s1, r', h1, h2⟩ := touch_cors hr1 hk1
    rw [early (k := { k with stuck := true }) hd.part hd.awake] at h2
    rw [h1] at h; cases h
    exact refused (by rw [hv.1]; exact fun h => nomatch h) h2
  · split at h
    · next hv =>
      obtain ⟨s1, r', h1, h2⟩ := touch_response cfg hr1 hk1 405 (lit "HTTP method not allowed")
      rw [early (k := { k with stuck := true }) hd.part hd.awake] at h2
      rw [h1] at h; cases h
      exact refused hv h2
    · next hv =>
      have hv : v = .post := Decidable.not_not.mp hv
      rw [hl.req] at h
      cases h
      have hself : upd s.conns r.conn (some k) = s.conns := by
        funext x; simp only [upd]; split
        · next h => rw [h, hl.at]
        · rfl
      refine hi.change (k' := k) (r' := { r with body := r.body ++ b }) (g := s.given) rfl hl.req hl.at
        hl.kreq (by rw [hself]) (fun _ _ => rfl) rfl hl.kreq ?_
      refine .reading (hl.step (k' := k) (r' := { r with body := r.body ++ b }) rfl (upd_same _ _ _) rfl
        hl.at rfl rfl (fun _ => ?_) ?_ ?_ (fun h => absurd hv h)) hd.part hd.awake hd.quiet
        ?_ hd.noCb ?_
      · dsimp only
        rw [hl.body hv, bodyOf, bodyOf]
        simp [uploads]
      · simp [headersOf]
      · simp [sends]
      · simpa [finishes] using hd.fin
      · simpa [late] using hd.aft

/-- An answer to a request that was just received in full. -/
theorem answered {cfg : Cfg J} {tr : List (Event J)} {s s' : State} (hi : Inv cfg tr s) {c n : Nat}
    {v : Verb} {o : Option Text} {r r' : Req} {k : Conn} (hd : Reading cfg tr s n c v o r k)
    (hf : k.stuck = false) {now : List (Option J)} {ret : Bool} {a : Answer}
    {g : Nat → Option UInt64}
    (heq : s' = { s with
      reqs := upd s.reqs n (some r')
      conns := upd s.conns r.conn (some { k with
        complete := true
        response := some a })
      given := g }) (hg : ∀ m, m ≠ n → g m = s.given m)
    (hc : r'.conn = r.conn) (hb : r'.body = r.body) (ho : allowed r'.origin = allowed r.origin)
    (hdue : Due cfg v o (bodyOf n tr) now ret [] a)
    (hset : g n ≠ none → now = [] → ret = true → False) :
    Inv cfg (tr ++ [.finish c n now ret]) s' := by
  have hl := hd.live
  have hbody : bodyOf n (tr ++ [.finish c n now ret]) = bodyOf n tr := by
    rw [bodyOf, bodyOf]; simp [uploads]
  have hfin : finishes n (tr ++ [.finish c n now ret]) = [(now, ret)] := by
    rw [finishes_snoc, hd.fin]; simp [finishes]
  have hlate : late n (tr ++ [.finish c n now ret]) = [] := by
    rw [late_snoc, hd.aft]; simp [late]
  refine hi.change rfl hl.req hl.at hl.kreq heq hg hc hl.kreq ?_
  refine .answering (hl.step (k' := { k with
        complete := true
        response := some a }) (r' := r') (by rw [heq]) (by rw [heq]; exact upd_same _ _ _) hc
      (by rw [heq]; exact upd_same _ _ _) rfl ho (fun hv => ?_) ?_ ?_ (fun hv hu => ?_)) rfl
      hd.awake rfl hfin ?_ ?_ hf
  · rw [hb, hbody]; exact hl.body hv
  · simp [headersOf]
  · simp [sends]
  · refine hl.stuck hv fun h => hu ?_
    rw [uploads_snoc, h]; simp [uploads]
  · rw [hbody, hlate]; exact hdue
  · intro hn
    refine ⟨now, ret, hfin, fun h1 h2 => ?_⟩
    rw [heq] at hn
    exact (hset hn h1 h2).elim

theorem step_finish {cfg : Cfg J} {tr : List (Event J)} {s s' : State} (hi : Inv cfg tr s) {c n : Nat}
    {v : Verb} {o : Option Text} {r : Req} {k : Conn} (hd : Reading cfg tr s n c v o r k)
    (hf : k.stuck = false) (now : List (Option J)) (ret : Bool)
    (h : onFinish cfg s c n v k now ret = .next s') :
    Inv cfg (tr ++ [.finish c n now ret]) s' := by
  have hl := hd.live
  have hk1 : ({ s with conns := upd s.conns c (some { k with complete := true }) } : State).conns r.conn
      = some { k with complete := true } := by
    dsimp only; rw [hl.conn]; exact upd_same _ _ _
  have hr1 : ({ s with conns := upd s.conns c (some { k with complete := true }) } : State).reqs n
      = some r := hl.req
  have hnoCb : s.given n ≠ none → now = [] → ret = true → False := fun h => absurd hd.noCb h
  have hkept (a : Answer) : (({ k with complete := true } : Conn).queue a).resume = { k with
      complete := true
      response := some a } := by
    rw [kept (k := { k with complete := true }) rfl hd.quiet]
    have := hd.awake
    cases k; simp_all
  have first {s1 : State} {r' : Req} {a : Answer}
      (ht : Touch { s with conns := upd s.conns c (some { k with complete := true }) } s1 n r r'
        (({ k with complete := true } : Conn).queue a).resume)
      (hdue : Due cfg v o (bodyOf n tr) now ret [] a) :
      Inv cfg (tr ++ [.finish c n now ret]) s1 := by
    rw [hkept] at ht
    refine answered hi hd hf (g := s.given) ?_ (fun _ _ => rfl) ht.conn ht.body ht.orig hdue hnoCb
    rw [ht.eq]; dsimp only; rw [hl.conn, upd_upd]
  unfold onFinish at h
  split at h
  · next hv =>
    obtain ⟨s1, r', h1, h2⟩ := touch_cors hr1 hk1
    rw [h1] at h; cases h
    refine first h2 ?_
    rw [hl.orig]
    exact .preflight hv.1 hv.2
  · next hnv =>
    split at h
    · next hv =>
      obtain ⟨s1, r', h1, h2⟩ := touch_response cfg hr1 hk1 405 (lit "HTTP method not allowed")
      rw [h1] at h; cases h
      refine first h2 ?_
      rw [header_eq cfg hl.orig]
      refine .method hv fun ho => ?_
      cases hcc : cfg.cors with
      | false => rfl
      | true => exact absurd ⟨ho, hcc⟩ hnv
    · next hv =>
      have hv : v = .post := Decidable.not_not.mp hv
      split at h
      · next hrun =>
        rw [hl.req] at h
        dsimp only [handleRequest] at h
        have hbody := hl.body hv
        cases hp : cfg.parse r.body with
        | none =>
          rw [hp] at h
          obtain ⟨s1, r', h1, h2⟩ := touch_response cfg hr1 hk1 400 (lit "Invalid request payload")
          dsimp only [invalid] at h
          rw [h1] at h; cases h
          refine first h2 ?_
          rw [header_eq cfg hl.orig]
          exact .malformed hv (hbody ▸ hp)
        | some id =>
          rw [hp] at h
          rw [hbody] at hp
          dsimp only [suspend] at h
          generalize hs2 : ({ s with
            conns := upd (upd s.conns c (some { k with complete := true })) c
              (some { k with
                complete := true
                suspended := true })
            given := upd s.given n (some id) } : State) = s2 at h
          have hr2 : s2.reqs n = some r := by rw [← hs2]; exact hl.req
          have hk2 : s2.conns r.conn = some { k with
                complete := true
                suspended := true } := by
            rw [← hs2, hl.conn]; exact upd_same _ _ _
          have hkept2 (a : Answer) : (({ k with
                complete := true
                suspended := true } : Conn).queue a).resume = { k with
              complete := true
              response := some a } := by
            rw [kept (k := { k with
                complete := true
                suspended := true }) rfl hd.quiet]
            have := hd.awake
            cases k; simp_all
          have first2 {s1 : State} {r' : Req} {a : Answer}
              (ht : Touch s2 s1 n r r' { k with
                complete := true
                response := some a })
              (hdue : Due cfg v o (bodyOf n tr) now ret [] a)
              (hset : now = [] → ret = true → False) :
              Inv cfg (tr ++ [.finish c n now ret]) s1 := by
            refine answered hi hd hf (g := upd s.given n (some id)) ?_ (fun m hm => upd_other _ _ hm)
              ht.conn ht.body ht.orig hdue (fun _ => hset)
            rw [ht.eq, ← hs2]; dsimp only; rw [hl.conn, upd_upd, upd_upd]
          cases now with
          | nil =>
            dsimp only [handleAll, Res.andThen] at h
            cases ret with
            | false =>
              dsimp only [invalid] at h
              rw [if_neg (fun h => nomatch h)] at h
              obtain ⟨s1, r', h1, h2⟩ := touch_response cfg hr2 hk2 400 (lit "Invalid request payload")
              rw [h1] at h; cases h
              rw [hkept2] at h2
              refine first2 h2 ?_ (fun _ h => nomatch h)
              rw [header_eq cfg hl.orig]
              exact .unhandled id hv hp rfl rfl
            | true =>
              rw [if_pos rfl] at h
              cases h
              have hself : upd s.reqs n (some r) = s.reqs := by
                funext x; simp only [upd]; split
                · next h => rw [h, hl.req]
                · rfl
              refine hi.change (r' := r) rfl hl.req hl.at hl.kreq
                (k' := { k with
                  complete := true
                  suspended := true })
                (g := upd s.given n (some id)) ?_ (fun m hm => upd_other _ _ hm) rfl hl.kreq ?_
              · rw [← hs2, hself, hl.conn, upd_upd]
              · subst hv
                refine .waiting (id := id) (hl.step (r' := r) (by rw [← hs2]) hr2 rfl hk2 rfl rfl
                  (fun hv => ?_) ?_ ?_ (fun h => absurd rfl h)) rfl rfl hd.quiet ?_ ?_ ?_ ?_ hf
                · rw [hl.body hv, bodyOf, bodyOf]; simp [uploads]
                · simp [headersOf]
                · simp [sends]
                · rw [finishes_snoc, hd.fin]; simp [finishes]
                · rw [← hs2]; exact upd_same _ _ _
                · rw [show bodyOf n (tr ++ [.finish c n [] true]) = bodyOf n tr by
                    rw [bodyOf, bodyOf]; simp [uploads]]
                  exact hp
                · rw [late_snoc, hd.aft]; simp [late]
          | cons x l =>
            obtain ⟨s3, r3, h3, h4⟩ := touch_response cfg hr2 hk2 (textOf cfg id x).1 (textOf cfg id x).2
            rw [hkept2] at h4
            obtain ⟨s4, r4, h5, h6⟩ := settled_all cfg n id l h4.reqs h4.conns rfl hd.awake
            have hall : handleAll cfg n id (x :: l) s2 = .next s4 := by
              rw [handleAll, handleResponse_eq, h3]; exact h5
            have ht := h4.trans h6
            rw [hall] at h
            dsimp only [Res.andThen] at h
            have hdue : Due cfg v o (bodyOf n tr) (x :: l) ret [] ⟨(textOf cfg id x).1,
                (textOf cfg id x).2, if cfg.cors then some (allowed r.origin) else none, false⟩ := by
              rw [header_eq cfg hl.orig]
              cases x with
              | none => exact .noReply id hv hp (.inl rfl)
              | some j => exact .reply id j hv hp (.inl rfl)
            cases ret with
            | true =>
              rw [if_pos rfl] at h; cases h
              exact first2 ht hdue (fun h => nomatch h)
            | false =>
              rw [if_neg (fun h => nomatch h)] at h
              dsimp only [invalid] at h
              obtain ⟨s5, r5, h7, h8⟩ := touch_response cfg ht.reqs ht.conns 400
                (lit "Invalid request payload")
              rw [h7] at h; cases h
              have hq (a b : Answer) : (({ k with
                  complete := true
                  response := some a } : Conn).queue b).resume = { k with
                complete := true
                response := some a } := by
                have := hd.awake
                cases k; simp_all [Conn.queue, Conn.resume]
              rw [hq] at h8
              exact first2 (ht.trans h8) hdue (fun h => nomatch h)
      · obtain ⟨s1, r', h1, h2⟩ := touch_response cfg hr1 hk1 503 (lit "Server is shutting down")
        rw [h1] at h
        dsimp only [Res.andThen] at h
        cases h
        have heq : complete s1 c k false = { complete s c k false with sent := s.sent } := by
          rw [h2.eq]; dsimp only [complete]; rw [hl.kreq]; dsimp only
          rw [hl.conn, upd_upd, upd_upd, upd_upd]
        rw [heq]
        refine hi.over (fun m hm => ?_) hl.isOpen rfl hi.codes (fun m w hw => ?_)
        · intro hh
          cases hh
          exact hm v hl.kreq
        · rw [hl.kreq] at hw; cases hw
          refine .gone (c := c) (v := v) (o := o) hl.inUse ?_ ?_ ?_ ?_ ?_
          · dsimp only [complete]; rw [hl.kreq]; exact upd_same _ _ _
          · rw [headersOf_snoc, hl.hdr]; simp [headersOf]
          · exact fun h => absurd hd.noCb h
          · rw [sends_snoc, hl.unsent]; simp [sends]
          · intro h; exact absurd hv h

theorem step_respond {cfg : Cfg J} {tr : List (Event J)} {s s' : State} (hi : Inv cfg tr s) {n : Nat}
    {id : UInt64} (hg : s.given n = some id) (a : Option J)
    (h : handleResponse cfg s n id a = .next s') : Inv cfg (tr ++ [.respond n a]) s' := by
  have hbody : bodyOf n (tr ++ [.respond n a]) = bodyOf n tr := by
    rw [bodyOf, bodyOf]; simp [uploads]
  have hfin : finishes n (tr ++ [.respond n a]) = finishes n tr := by simp [finishes]
  have hlate : late n (tr ++ [.respond n a]) = late n tr ++ [a] := by simp [late]
  have hupl : uploads n (tr ++ [.respond n a]) = uploads n tr := by simp [uploads]
  rw [handleResponse_eq] at h
  cases hi.stat n with
  | fresh _ _ h' => rw [hg] at h'; nomatch h'
  | reading _ _ _ _ _ h' => rw [hg] at h'; nomatch h'
  | gone _ h' => rw [sendResponse, h'] at h; nomatch h
  | @waiting c o r k id' hl h1 h2 h3 h4 h5 h6 h7 h10 =>
    rw [hg] at h5; cases h5
    obtain ⟨s1, r', h8, h9⟩ := touch_response cfg hl.req hl.at (textOf cfg id a).1 (textOf cfg id a).2
    rw [h8] at h; cases h
    rw [kept h1 h3] at h9
    have hc := h9.conns
    rw [h9.conn] at hc
    refine hi.change rfl hl.req hl.at hl.kreq (g := s.given) h9.eq (fun _ _ => rfl) h9.conn hl.kreq ?_
    refine .answering (hl.step (by rw [h9.eq]) h9.reqs h9.conn hc rfl
      h9.orig (fun hv => ?_) ?_ ?_ (fun h => absurd rfl h)) h1 rfl rfl (hfin.trans h4) ?_ ?_ ?_
    · rw [h9.body, hbody]; exact hl.body hv
    · simp [headersOf]
    · simp [sends]
    · rw [hbody, hlate, h7, header_eq cfg hl.orig]
      cases a with
      | none => exact .noReply id rfl h6 (.inr ⟨rfl, rfl, rfl⟩)
      | some j => exact .reply id j rfl h6 (.inr ⟨rfl, rfl, rfl⟩)
    · exact fun _ => ⟨_, _, hfin.trans h4, fun _ _ => by rw [hlate]; simp⟩
    · exact h10
  | @answering c v o r k b now ret hl h1 h2 h3 h4 h5 h6 h7 =>
    obtain ⟨s1, r', h8, h9⟩ := touch_response cfg hl.req hl.at (textOf cfg id a).1 (textOf cfg id a).2
    rw [h8] at h; cases h
    have hq : (k.queue ⟨(textOf cfg id a).1, (textOf cfg id a).2,
        if cfg.cors then some (allowed r.origin) else none, false⟩).resume = k := by
      cases k; simp_all [Conn.queue, Conn.resume]
    rw [hq] at h9
    refine hi.change rfl hl.req hl.at hl.kreq (g := s.given) h9.eq (fun _ _ => rfl) h9.conn hl.kreq ?_
    refine .answering (hl.step (by rw [h9.eq]) h9.reqs h9.conn (by rw [← h9.conn]; exact h9.conns) rfl
      h9.orig (fun hv => ?_) ?_ ?_ (fun hv hu => hl.stuck hv (hupl ▸ hu))) h1 h2 h3 (hfin.trans h4)
      ?_ ?_ h7
    · rw [h9.body, hbody]; exact hl.body hv
    · simp [headersOf]
    · simp [sends]
    · rw [hbody, hlate]; exact h5.more a
    · exact fun _ => ⟨_, _, hfin.trans h4, fun _ _ => by rw [hlate]; simp⟩

/-- What is known of a connection with an answer. -/
theorem Inv.atAnswer {cfg : Cfg J} {tr : List (Event J)} {s : State} (hi : Inv cfg tr s) {c n : Nat}
    {v : Verb} {k : Conn} {a : Answer} (hk : s.conns c = some k) (hkr : k.req = some (n, v))
    (ha : k.response = some a) :
    ∃ o r now ret, Live tr s n c v o r k ∧ finishes n tr = [(now, ret)] ∧
      Due cfg v o (bodyOf n tr) now ret (late n tr) a ∧ Settled tr s n ∧ k.stuck = false := by
  obtain ⟨r, hr, hrc⟩ := hi.busy c k n v hk hkr
  have key {c' v' o r' k'} (h : Live tr s n c' v' o r' k') : r' = r ∧ c' = c ∧ k' = k ∧ v' = v := by
    have h1 := h.req; rw [hr] at h1; cases h1
    have h2 := h.conn; rw [hrc] at h2; cases h2
    have h3 := h.isOpen; rw [hk] at h3; cases h3
    have h4 := h.kreq; rw [hkr] at h4; cases h4
    exact ⟨rfl, rfl, rfl, rfl⟩
  cases hi.stat n with
  | fresh _ h => rw [h] at hr; nomatch hr
  | gone _ h => rw [h] at hr; nomatch hr
  | reading h _ _ h4 =>
    obtain ⟨rfl, rfl, rfl, rfl⟩ := key h
    rw [h4] at ha; nomatch ha
  | waiting h _ _ h4 =>
    obtain ⟨rfl, rfl, rfl, _⟩ := key h
    rw [h4] at ha; nomatch ha
  | answering h _ _ h4 h5 h6 h7 h8 =>
    obtain ⟨rfl, rfl, rfl, rfl⟩ := key h
    rw [h4] at ha; cases ha
    exact ⟨_, _, _, _, h, h5, h6, h7, h8⟩

theorem step_send {cfg : Cfg J} {tr : List (Event J)} {s : State} (hi : Inv cfg tr s) {c n : Nat}
    {v : Verb} {k : Conn} {a : Answer} (hk : s.conns c = some k) (hkr : k.req = some (n, v))
    (ha : k.response = some a) (keep : Bool) :
    Inv cfg (tr ++ [.send c n keep]) { complete s c k keep with sent := s.sent ++ [(c, n, a)] } := by
  obtain ⟨o, r, now, ret, hl, hf, hd, hs, hst⟩ := hi.atAnswer hk hkr ha
  refine hi.over (fun m hm => ?_) hk rfl (fun e he => ?_) (fun m w hw => ?_)
  · intro hh; cases hh; exact hm v hkr
  · rcases List.mem_append.mp he with he | he
    · exact hi.codes e he
    · cases List.mem_singleton.mp he; exact hd.code
  · rw [hkr] at hw; cases hw
    refine .gone (c := c) (v := v) (o := o) hl.inUse ?_ ?_ ?_ ?_ ?_
    · dsimp only [complete]; rw [hkr]; exact upd_same _ _ _
    · rw [headersOf_snoc, hl.hdr]; simp [headersOf]
    · intro hg
      obtain ⟨now', ret', h1, h2⟩ := hs hg
      exact ⟨now', ret', by simpa [finishes] using h1, fun a b => by simpa [late] using h2 a b⟩
    · rw [sends_snoc, hl.unsent]; simp [sends]
    · intro hv hu
      have := hl.stuck hv (by simpa [uploads] using hu)
      rw [hst] at this; nomatch this

theorem step_drop {cfg : Cfg J} {tr : List (Event J)} {s : State} (hi : Inv cfg tr s) {c : Nat}
    {k : Conn} (hk : s.conns c = some k) (hs : k.suspended = false) :
    Inv cfg (tr ++ [.drop c]) (complete s c k false) := by
  refine hi.over (l := s.sent) (fun m hm => (nomatch ·)) hk rfl hi.codes (fun m w hw => ?_)
  obtain ⟨r, hr, hrc⟩ := hi.busy c k m w hk hw
  have key {c' v' o r' k'} (h : Live tr s m c' v' o r' k') : k' = k := by
    have h1 := h.req; rw [hr] at h1; cases h1
    have h2 := h.conn; rw [hrc] at h2; cases h2
    have h3 := h.isOpen; rw [hk] at h3; cases h3
    rfl
  have hgone {c' v' o r' k'} (h : Live tr s m c' v' o r' k') (hset : Settled tr s m) :
      Stat cfg (tr ++ [.drop c]) (complete s c k false) m := by
    refine .gone (c := c') (v := v') (o := o) h.inUse ?_ ?_ ?_ ?_ ?_
    · dsimp only [complete]; rw [hw]; exact upd_same _ _ _
    · rw [headersOf_snoc, h.hdr]; simp [headersOf]
    · intro hg
      obtain ⟨now', ret', h1, h2⟩ := hset hg
      exact ⟨now', ret', by simpa [finishes] using h1, fun a b => by simpa [late] using h2 a b⟩
    · rw [sends_snoc, h.unsent]; simp [sends]
    · intro _ _; rw [sends_snoc, h.unsent]; simp [sends]
  cases hi.stat m with
  | fresh _ h => rw [h] at hr; nomatch hr
  | gone _ h => rw [h] at hr; nomatch hr
  | reading h _ _ _ _ h6 => exact hgone h fun hg => absurd h6 hg
  | waiting h _ h3 =>
    cases key h
    rw [h3] at hs; nomatch hs
  | answering h _ _ _ _ _ h7 => exact hgone h h7

theorem step_headers {cfg : Cfg J} {tr : List (Event J)} {s : State} (hi : Inv cfg tr s) {c n : Nat}
    (v : Verb) (o : Option Text) (hk : s.conns c = some {}) (hn : n ∉ s.used) :
    Inv cfg (tr ++ [.headers c n v o]) (onHeaders s c n v o) := by
  have hfresh : s.reqs n = none ∧ s.given n = none ∧ headersOf n tr = [] ∧ uploads n tr = [] ∧
      finishes n tr = [] ∧ late n tr = [] ∧ sends n tr = [] := by
    cases hi.stat n with
    | fresh _ h1 h2 h3 h4 h5 h6 h7 => exact ⟨h1, h2, h3, h4, h5, h6, h7⟩
    | gone h => exact absurd h hn
    | reading h => exact absurd h.inUse hn
    | waiting h => exact absurd h.inUse hn
    | answering h => exact absurd h.inUse hn
  obtain ⟨f1, f2, f3, f4, f5, f6, f7⟩ := hfresh
  constructor
  · intro m
    by_cases hm : m = n
    · subst hm
      refine .reading (c := c) (v := v) (o := o) (r := { conn := c, origin := o })
        (k := { req := some (m, v) }) ⟨List.mem_cons_self, upd_same _ _ _, rfl, upd_same _ _ _, rfl,
        ?_, rfl, fun _ => ?_, ?_, fun _ h => ?_⟩ rfl rfl rfl ?_ f2 ?_
      · rw [headersOf_snoc, f3]; simp [headersOf]
      · rw [bodyOf, uploads_snoc, f4]; simp [uploads]
      · rw [sends_snoc, f7]; simp [sends]
      · rw [uploads_snoc, f4] at h; simp [uploads] at h
      · rw [finishes_snoc, f5]; simp [finishes]
      · rw [late_snoc, f6]; simp [late]
    · refine (hi.stat m).frame (.other (fun h => by cases h; exact hm rfl)) (upd_other _ _ hm) rfl ?_ ?_
      · exact ⟨fun h => (List.mem_cons.mp h).resolve_left hm, List.mem_cons_of_mem _⟩
      · intro r hr
        exact upd_other _ _ (hi.apart hk (fun _ h => nomatch h) hr)
  · intro c1 k1 h1 h2
    by_cases hc : c1 = c
    · subst hc
      dsimp only [onHeaders] at h1; rw [upd_same] at h1; cases h1; nomatch h2
    · exact hi.idle c1 k1 ((upd_other s.conns _ hc).symm.trans h1) h2
  · intro c1 k1 m w h1 h2
    by_cases hc : c1 = c
    · subst hc
      dsimp only [onHeaders] at h1; rw [upd_same] at h1; cases h1; cases h2
      exact ⟨_, upd_same _ _ _, rfl⟩
    · obtain ⟨r, h3, h4⟩ := hi.busy c1 k1 m w ((upd_other s.conns _ hc).symm.trans h1) h2
      refine ⟨r, (upd_other _ _ fun hm => ?_).trans h3, h4⟩
      rw [hm, f1] at h3; nomatch h3
  · intro c1
    by_cases hc : c1 = c
    · subst hc
      have := (hi.count c1).mpr (by rw [hk]; exact Option.some_ne_none _)
      exact ⟨fun _ => by dsimp only [onHeaders]; rw [upd_same]; exact Option.some_ne_none _,
        fun _ => this⟩
    · dsimp only [onHeaders]; rw [upd_other _ _ hc]; exact hi.count c1
  · exact hi.codes
  · exact hi.ended

theorem step_connect {cfg : Cfg J} {tr : List (Event J)} {s : State} (hi : Inv cfg tr s) {c : Nat}
    (hrun : s.running = true) (hc : s.conns c = none) :
    Inv cfg (tr ++ [.connect c]) { s with
      conns := upd s.conns c (some {})
      opened := c :: s.opened } := by
  constructor
  · intro m
    refine (hi.stat m).frame (.other (nomatch ·)) rfl rfl Iff.rfl fun r hr => upd_other _ _ ?_
    intro h
    obtain ⟨k, v, h1, _⟩ := (hi.stat m).conn hr
    rw [h, hc] at h1; nomatch h1
  · intro c1 k1 h1 h2
    by_cases hh : c1 = c
    · subst hh; dsimp only at h1; rw [upd_same] at h1; cases h1; rfl
    · exact hi.idle c1 k1 ((upd_other s.conns _ hh).symm.trans h1) h2
  · intro c1 k1 m w h1 h2
    by_cases hh : c1 = c
    · subst hh; dsimp only at h1; rw [upd_same] at h1; cases h1; nomatch h2
    · exact hi.busy c1 k1 m w ((upd_other s.conns _ hh).symm.trans h1) h2
  · intro c1
    by_cases hh : c1 = c
    · subst hh
      exact ⟨fun _ => by dsimp only; rw [upd_same]; exact Option.some_ne_none _,
        fun _ => List.mem_cons_self⟩
    · dsimp only; rw [upd_other _ _ hh, List.mem_cons, hi.count c1]
      exact ⟨fun h => h.resolve_left hh, .inr⟩
  · exact hi.codes
  · intro h
    rw [(hi.ended h).2] at hrun; nomatch hrun

/-- Every event keeps the invariant. -/
theorem Inv.step {cfg : Cfg J} {tr : List (Event J)} {s s' : State} (hi : Inv cfg tr s) {e : Event J}
    (h : step cfg s e = .next s') : Inv cfg (tr ++ [e]) s' := by
  cases e with
  | connect c =>
    dsimp only [Server.step] at h
    split at h
    · next hc => cases h; exact step_connect hi hc.2.1 hc.2.2
    · nomatch h
  | headers c n v o =>
    dsimp only [Server.step] at h
    split at h
    · next hc => cases h; exact step_headers hi v o hc.1 hc.2
    · nomatch h
  | chunk c n b =>
    dsimp only [Server.step] at h
    split at h
    · nomatch h
    · next k hk =>
      split at h
      · nomatch h
      · next e he =>
        split at h
        · next hc =>
          obtain ⟨rfl, h2, h3⟩ := hc
          obtain ⟨o, r, hd⟩ := hi.atConn (v := e.2) hk he (by simpa using h2)
          exact step_chunk hi hd b h
        · nomatch h
  | finish c n now ret =>
    dsimp only [Server.step] at h
    split at h
    · nomatch h
    · next k hk =>
      split at h
      · nomatch h
      · next e he =>
        split at h
        · next hc =>
          obtain ⟨rfl, h2, h3⟩ := hc
          obtain ⟨o, r, hd⟩ := hi.atConn (v := e.2) hk he (by simpa using h2)
          exact step_finish hi hd (by simpa using h3) now ret h
        · nomatch h
  | respond n a =>
    dsimp only [Server.step] at h
    split at h
    · nomatch h
    · next id hg => exact step_respond hi hg a h
  | send c n keep =>
    dsimp only [Server.step] at h
    split at h
    · nomatch h
    · next k hk =>
      split at h
      · nomatch h
      · next a ha =>
        split at h
        · next hc =>
          cases h
          obtain ⟨e, he, hn⟩ := Option.map_eq_some_iff.mp hc.1
          subst hn
          exact step_send hi (v := e.2) hk he ha keep
        · nomatch h
  | drop c =>
    dsimp only [Server.step] at h
    split at h
    · nomatch h
    · next k hk =>
      split at h
      · nomatch h
      · next hs => cases h; exact step_drop hi hk (by simpa using hs)
  | quiesce =>
    dsimp only [Server.step] at h
    split at h
    · nomatch h
    · split at h
      · cases h
        exact ⟨fun m => (hi.stat m).frame (.other (nomatch ·)) rfl rfl Iff.rfl fun _ _ => rfl, hi.idle,
          hi.busy, hi.count, hi.codes, fun hh => ⟨(hi.ended hh).1, rfl⟩⟩
      · nomatch h
  | stop =>
    dsimp only [Server.step] at h
    split at h
    · next hc =>
      cases h
      exact ⟨fun m => (hi.stat m).frame (.other (nomatch ·)) rfl rfl Iff.rfl fun _ _ => rfl, hi.idle,
        hi.busy, hi.count, hi.codes, fun _ => ⟨hc.2.1, by simpa using hc.1⟩⟩
    · nomatch h

theorem run_snoc (cfg : Cfg J) (tr : List (Event J)) (e : Event J) :
    run cfg (tr ++ [e]) = (run cfg tr).andThen fun s => step cfg s e := by
  simp [run]

theorem inv_run (cfg : Cfg J) : ∀ (tr : List (Event J)) {s : State}, run cfg tr = .next s →
    Inv cfg tr s := by
  intro tr
  induction tr using List.reverseRecOn with
  | nil => intro s h; cases h; exact fin_empty
  | append_singleton tr e ih =>
    intro s h
    rw [run_snoc] at h
    cases hr : run cfg tr with
    | next s1 => rw [hr] at h; exact (ih hr).step h
    | off => rw [hr] at h; nomatch h
    | undefined => rw [hr] at h; nomatch h

end Verif.Http.Server
