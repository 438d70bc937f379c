import Verif.Http.ServerSpec

/-!
# The HTTP server (C125): invariant
-/
namespace Verif.Http.Server

open Verif.Serial Verif.Hex Verif.Http

variable {J : Type}

theorem upd_same {α : Type} (f : Nat → Option α) (k : Nat) (v : Option α) : upd f k v k = v := by
  simp [upd]

theorem upd_other {α : Type} (f : Nat → Option α) {k x : Nat} (v : Option α) (h : x ≠ k) :
    upd f k v x = f x := by
  simp [upd, h]

theorem upd_upd {α : Type} (f : Nat → Option α) (k : Nat) (v w : Option α) :
    upd (upd f k v) k w = upd f k w := by
  funext x; simp only [upd]; split <;> rfl

/-- The request an event is about. -/
def Event.req : Event J → Option Nat
  | .headers _ n _ _ | .chunk _ n _ | .finish _ n _ _ | .respond n _ | .send _ n _ => some n
  | _ => none

/-- Two traces tell the same of a request. -/
structure Same (m : Nat) (tr tr' : List (Event J)) : Prop where
  hdr : headersOf m tr' = headersOf m tr
  upl : uploads m tr' = uploads m tr
  fin : finishes m tr' = finishes m tr
  aft : late m tr' = late m tr
  snd : sends m tr' = sends m tr

theorem Same.other {m : Nat} {tr : List (Event J)} {e : Event J} (h : e.req ≠ some m) :
    Same m tr (tr ++ [e]) := by
  constructor <;> cases e <;>
    simp_all [Event.req, headersOf, uploads, finishes, late, sends, List.filterMap_append]

/-- A request in progress. -/
structure Live (tr : List (Event J)) (s : State) (n c : Nat) (v : Verb) (o : Option Text) (r : Req)
    (k : Conn) : Prop where
  inUse : n ∈ s.used
  req : s.reqs n = some r
  conn : r.conn = c
  isOpen : s.conns c = some k
  kreq : k.req = some (n, v)
  hdr : headersOf n tr = [(c, v, o)]
  orig : allowed r.origin = allowed o
  body : v = .post → r.body = bodyOf n tr
  unsent : sends n tr = []
  stuck : v ≠ .post → uploads n tr ≠ [] → k.stuck = true

/-- The application has done with a request. -/
def Settled (tr : List (Event J)) (s : State) (n : Nat) : Prop :=
  s.given n ≠ none → ∃ now ret, finishes n tr = [(now, ret)] ∧
    (now = [] → ret = true → late n tr ≠ [])

/-- What can be the matter with a request. -/
inductive Stat (cfg : Cfg J) (tr : List (Event J)) (s : State) (n : Nat) : Prop
  | fresh (unused : n ∉ s.used) (noReq : s.reqs n = none) (noCb : s.given n = none)
      (hdr : headersOf n tr = []) (upl : uploads n tr = []) (fin : finishes n tr = [])
      (aft : late n tr = []) (snd : sends n tr = [])
  | reading {c : Nat} {v : Verb} {o : Option Text} {r : Req} {k : Conn} (live : Live tr s n c v o r k)
      (part : k.complete = false) (awake : k.suspended = false) (quiet : k.response = none)
      (fin : finishes n tr = []) (noCb : s.given n = none) (aft : late n tr = [])
  | waiting {c : Nat} {o : Option Text} {r : Req} {k : Conn} {id : UInt64}
      (live : Live tr s n c .post o r k)
      (full : k.complete = true) (asleep : k.suspended = true) (quiet : k.response = none)
      (fin : finishes n tr = [([], true)]) (cb : s.given n = some id)
      (parsed : cfg.parse (bodyOf n tr) = some id) (aft : late n tr = []) (free : k.stuck = false)
  | answering {c : Nat} {v : Verb} {o : Option Text} {r : Req} {k : Conn} {a : Answer}
      {now : List (Option J)} {ret : Bool} (live : Live tr s n c v o r k)
      (full : k.complete = true) (awake : k.suspended = false) (loud : k.response = some a)
      (fin : finishes n tr = [(now, ret)]) (due : Due cfg v o (bodyOf n tr) now ret (late n tr) a)
      (settled : Settled tr s n) (free : k.stuck = false)
  | gone {c : Nat} {v : Verb} {o : Option Text} (inUse : n ∈ s.used) (noReq : s.reqs n = none)
      (hdr : headersOf n tr = [(c, v, o)]) (settled : Settled tr s n)
      (snd : (sends n tr).length ≤ 1) (upl : v ≠ .post → uploads n tr ≠ [] → sends n tr = [])

/-- What always holds. -/
structure Inv (cfg : Cfg J) (tr : List (Event J)) (s : State) : Prop where
  stat : ∀ n, Stat cfg tr s n
  idle : ∀ c k, s.conns c = some k → k.req = none → k = {}
  busy : ∀ c k n v, s.conns c = some k → k.req = some (n, v) → ∃ r, s.reqs n = some r ∧ r.conn = c
  count : ∀ c, c ∈ s.opened ↔ s.conns c ≠ none
  codes : ∀ e ∈ s.sent, e.2.2.code ≠ 503
  ended : s.stopped = true → s.opened = [] ∧ s.running = false

theorem Live.frame {tr tr' : List (Event J)} {s s' : State} {m c : Nat} {v : Verb} {o : Option Text}
    {r : Req} {k : Conn} (h : Live tr s m c v o r k) (hs : Same m tr tr')
    (hr : s'.reqs m = s.reqs m) (hu : m ∈ s.used → m ∈ s'.used)
    (hc : ∀ r, s.reqs m = some r → s'.conns r.conn = s.conns r.conn) :
    Live tr' s' m c v o r k where
  inUse := hu h.inUse
  req := hr.trans h.req
  conn := h.conn
  isOpen := by rw [← h.conn, hc r h.req, h.conn]; exact h.isOpen
  kreq := h.kreq
  hdr := hs.hdr.trans h.hdr
  orig := h.orig
  body hv := by rw [h.body hv, bodyOf, bodyOf, hs.upl]
  unsent := hs.snd.trans h.unsent
  stuck hv hu := h.stuck hv (hs.upl ▸ hu)

theorem Settled.frame {tr tr' : List (Event J)} {s s' : State} {m : Nat} (h : Settled tr s m)
    (hs : Same m tr tr') (hg : s'.given m = s.given m) : Settled tr' s' m := by
  intro hn
  obtain ⟨now, ret, h1, h2⟩ := h (hg ▸ hn)
  exact ⟨now, ret, hs.fin.trans h1, fun a b => hs.aft ▸ h2 a b⟩

theorem Stat.frame {cfg : Cfg J} {tr tr' : List (Event J)} {s s' : State} {m : Nat}
    (h : Stat cfg tr s m) (hs : Same m tr tr') (hr : s'.reqs m = s.reqs m)
    (hg : s'.given m = s.given m) (hu : m ∈ s'.used ↔ m ∈ s.used)
    (hc : ∀ r, s.reqs m = some r → s'.conns r.conn = s.conns r.conn) : Stat cfg tr' s' m := by
  have hb : bodyOf m tr' = bodyOf m tr := by rw [bodyOf, bodyOf, hs.upl]
  cases h with
  | fresh h1 h2 h3 h4 h5 h6 h7 h8 =>
    exact .fresh (fun h => h1 (hu.mp h)) (hr.trans h2) (hg.trans h3) (hs.hdr.trans h4)
      (hs.upl.trans h5) (hs.fin.trans h6) (hs.aft.trans h7) (hs.snd.trans h8)
  | reading h1 h2 h3 h4 h5 h6 h7 =>
    exact .reading (h1.frame hs hr hu.mpr hc) h2 h3 h4 (hs.fin.trans h5) (hg.trans h6)
      (hs.aft.trans h7)
  | waiting h1 h2 h3 h4 h5 h6 h7 h8 h9 =>
    exact .waiting (h1.frame hs hr hu.mpr hc) h2 h3 h4 (hs.fin.trans h5) (hg.trans h6)
      (hb ▸ h7) (hs.aft.trans h8) h9
  | answering h1 h2 h3 h4 h5 h6 h7 h8 =>
    exact .answering (h1.frame hs hr hu.mpr hc) h2 h3 h4 (hs.fin.trans h5)
      (by rw [hb, hs.aft]; exact h6) (h7.frame hs hg) h8
  | gone h1 h2 h3 h4 h5 h6 =>
    exact .gone (hu.mpr h1) (hr.trans h2) (hs.hdr.trans h3) (h4.frame hs hg) (hs.snd ▸ h5)
      (fun a b => hs.snd ▸ h6 a (hs.upl ▸ b))

theorem Stat.conn {cfg : Cfg J} {tr : List (Event J)} {s : State} {m : Nat} (h : Stat cfg tr s m)
    {r : Req} (hr : s.reqs m = some r) : ∃ k v, s.conns r.conn = some k ∧ k.req = some (m, v) := by
  cases h with
  | fresh _ h => rw [h] at hr; nomatch hr
  | gone _ h => rw [h] at hr; nomatch hr
  | reading h | waiting h | answering h =>
    have := h.req; rw [hr] at this; cases this
    exact ⟨_, _, h.conn ▸ h.isOpen, h.kreq⟩

/-- The requests on other connections are not concerned. -/
theorem Inv.apart {cfg : Cfg J} {tr : List (Event J)} {s : State} (hi : Inv cfg tr s) {c m : Nat}
    {k : Conn} (hk : s.conns c = some k) (hm : ∀ v, k.req ≠ some (m, v)) {r : Req}
    (hr : s.reqs m = some r) : r.conn ≠ c := by
  intro he
  obtain ⟨k', v, h1, h2⟩ := (hi.stat m).conn hr
  rw [he, hk] at h1; cases h1
  exact hm v h2

/-- What the functions of the server do to the state: they change one request, which stays what it was,
and the flags of its connection. -/
structure Touch (s s' : State) (n : Nat) (r r' : Req) (k' : Conn) : Prop where
  eq : s' = { s with
    reqs := upd s.reqs n (some r')
    conns := upd s.conns r.conn (some k') }
  conn : r'.conn = r.conn
  body : r'.body = r.body
  orig : allowed r'.origin = allowed r.origin

theorem allowed_allowed (o : Option Text) : allowed (some (allowed o)) = allowed o := rfl

theorem touch_response (cfg : Cfg J) {s : State} {n : Nat} {r : Req} {k : Conn}
    (hr : s.reqs n = some r) (hk : s.conns r.conn = some k) (code : Nat) (body : Bytes) :
    ∃ s' r', sendResponse cfg s n code body = .next s' ∧ Touch s s' n r r'
      (k.queue ⟨code, body, if cfg.cors then some (allowed r.origin) else none, false⟩).resume := by
  refine ⟨_, { r with
          code := code
          origin := if cfg.cors then some (allowed r.origin) else r.origin }, ?_, rfl, rfl, rfl, ?_⟩
  · simp only [sendResponse, hr, hk]
  · dsimp only
    split <;> rfl

theorem touch_cors {s : State} {n : Nat} {r : Req} {k : Conn}
    (hr : s.reqs n = some r) (hk : s.conns r.conn = some k) :
    ∃ s' r', sendCors s n = .next s' ∧ Touch s s' n r r'
      (k.queue ⟨200, [], some (allowed r.origin), true⟩).resume := by
  refine ⟨_, { r with origin := some (allowed r.origin) }, ?_, rfl, rfl, rfl, rfl⟩
  simp only [sendCors, hr, hk]

/-- The text of an answer of the application. -/
def textOf (cfg : Cfg J) (id : UInt64) : Option J → Nat × Bytes
  | none => (500, lit "Error processing request")
  | some j => (200, cfg.render id j)

theorem handleResponse_eq (cfg : Cfg J) (s : State) (n : Nat) (id : UInt64) (a : Option J) :
    handleResponse cfg s n id a = sendResponse cfg s n (textOf cfg id a).1 (textOf cfg id a).2 := by
  cases a <;> rfl

theorem Touch.trans {s s' s'' : State} {n : Nat} {r r' r'' : Req} {k' k'' : Conn}
    (h : Touch s s' n r r' k') (h' : Touch s' s'' n r' r'' k'') : Touch s s'' n r r'' k'' where
  eq := by
    rw [h'.eq, h.eq]; dsimp only; rw [h.conn, upd_upd, upd_upd]
  conn := h'.conn.trans h.conn
  body := h'.body.trans h.body
  orig := h'.orig.trans h.orig

theorem Touch.reqs {s s' : State} {n : Nat} {r r' : Req} {k' : Conn} (h : Touch s s' n r r' k') :
    s'.reqs n = some r' := by rw [h.eq]; exact upd_same _ _ _

theorem Touch.conns {s s' : State} {n : Nat} {r r' : Req} {k' : Conn} (h : Touch s s' n r r' k') :
    s'.conns r'.conn = some k' := by rw [h.eq, h.conn]; exact upd_same _ _ _

/-- Once there is an answer, others change nothing. -/
theorem settled_all (cfg : Cfg J) (n : Nat) (id : UInt64) (l : List (Option J)) {s : State} {r : Req}
    {k : Conn} {a : Answer} (hr : s.reqs n = some r) (hk : s.conns r.conn = some k)
    (ha : k.response = some a) (hs : k.suspended = false) :
    ∃ s' r', handleAll cfg n id l s = .next s' ∧ Touch s s' n r r' k := by
  induction l generalizing s r with
  | nil =>
    refine ⟨s, r, rfl, ?_, rfl, rfl, rfl⟩
    cases s with
    | mk q c _ _ _ _ _ _ =>
      dsimp only at hr hk ⊢
      congr 1
      · funext x; simp only [upd]; split
        · next h => rw [h, hr]
        · rfl
      · funext x; simp only [upd]; split
        · next h => rw [h, hk]
        · rfl
  | cons x l ih =>
    obtain ⟨s1, r1, h1, h2⟩ := touch_response cfg hr hk (textOf cfg id x).1 (textOf cfg id x).2
    have hq : (k.queue ⟨(textOf cfg id x).1, (textOf cfg id x).2,
        if cfg.cors then some (allowed r.origin) else none, false⟩).resume = k := by
      cases k; simp_all [Conn.queue, Conn.resume]
    rw [hq] at h2
    obtain ⟨s2, r2, h3, h4⟩ := ih h2.reqs h2.conns
    refine ⟨s2, r2, ?_, h2.trans h4⟩
    rw [handleAll, handleResponse_eq, h1]; exact h3

theorem Due.more {cfg : Cfg J} {v : Verb} {o : Option Text} {body : Bytes} {now : List (Option J)}
    {ret : Bool} {l : List (Option J)} {a : Answer} (h : Due cfg v o body now ret l a) (x : Option J) :
    Due cfg v o body now ret (l ++ [x]) a := by
  have hh {y : Option J} (h : l.head? = some y) : (l ++ [x]).head? = some y := by
    cases l with
    | nil => nomatch h
    | cons z l => exact h
  cases h with
  | preflight h1 h2 => exact .preflight h1 h2
  | method h1 h2 => exact .method h1 h2
  | malformed h1 h2 => exact .malformed h1 h2
  | unhandled id h1 h2 h3 h4 => exact .unhandled id h1 h2 h3 h4
  | reply i j h1 h2 h3 => exact .reply i j h1 h2 (h3.imp id fun h => ⟨h.1, h.2.1, hh h.2.2⟩)
  | noReply i h1 h2 h3 => exact .noReply i h1 h2 (h3.imp id fun h => ⟨h.1, h.2.1, hh h.2.2⟩)

theorem Due.code {cfg : Cfg J} {v : Verb} {o : Option Text} {body : Bytes} {now : List (Option J)}
    {ret : Bool} {l : List (Option J)} {a : Answer} (h : Due cfg v o body now ret l a) :
    a.code ≠ 503 := by
  cases h <;> exact fun h => nomatch h

/-- An event that changes one request and its connection. -/
theorem Inv.change {cfg : Cfg J} {tr : List (Event J)} {s s' : State} (hi : Inv cfg tr s) {e : Event J}
    {n : Nat} {r r' : Req} {k k' : Conn} {v : Verb} {g : Nat → Option UInt64}
    (he : e.req = some n) (hr : s.reqs n = some r) (hk : s.conns r.conn = some k)
    (hkr : k.req = some (n, v))
    (hs : s' = { s with
      reqs := upd s.reqs n (some r')
      conns := upd s.conns r.conn (some k')
      given := g })
    (hg : ∀ m, m ≠ n → g m = s.given m) (hr' : r'.conn = r.conn) (hk' : k'.req = some (n, v))
    (hst : Stat cfg (tr ++ [e]) s' n) : Inv cfg (tr ++ [e]) s' where
  stat m := by
    by_cases hm : m = n
    · exact hm ▸ hst
    · refine (hi.stat m).frame (.other (by rw [he]; intro h; cases h; exact hm rfl)) ?_ ?_ ?_ ?_
      · rw [hs]; exact upd_other _ _ hm
      · rw [hs]; exact hg m hm
      · rw [hs]
      · intro r1 h1
        rw [hs]
        refine upd_other _ _ (hi.apart hk (fun w hw => ?_) h1)
        rw [hkr] at hw; cases hw; exact hm rfl
  idle c k1 h1 h2 := by
    rw [hs] at h1
    by_cases hc : c = r.conn
    · subst hc
      dsimp only at h1; rw [upd_same] at h1
      cases h1; rw [hk'] at h2; nomatch h2
    · exact hi.idle c k1 ((upd_other s.conns (some k') hc).symm.trans h1) h2
  busy c k1 m w h1 h2 := by
    rw [hs] at h1 ⊢
    by_cases hc : c = r.conn
    · subst hc
      dsimp only at h1; rw [upd_same] at h1
      cases h1; rw [hk'] at h2; cases h2
      exact ⟨r', upd_same _ _ _, hr'⟩
    · obtain ⟨r1, h3, h4⟩ := hi.busy c k1 m w ((upd_other s.conns (some k') hc).symm.trans h1) h2
      have hm : m ≠ n := by
        intro hm; subst hm; rw [hr] at h3; cases h3; exact hc h4.symm
      exact ⟨r1, (upd_other _ _ hm).trans h3, h4⟩
  count c := by
    rw [hs]
    by_cases hc : c = r.conn
    · subst hc
      have := (hi.count r.conn).mpr (by rw [hk]; exact Option.some_ne_none k)
      exact ⟨fun _ => by dsimp only; rw [upd_same]; exact Option.some_ne_none _, fun _ => this⟩
    · dsimp only; rw [upd_other _ _ hc]; exact hi.count c
  codes := by rw [hs]; exact hi.codes
  ended := by rw [hs]; exact hi.ended

/-- The end of a request, or of a connection. -/
theorem Inv.over {cfg : Cfg J} {tr : List (Event J)} {s s' : State} (hi : Inv cfg tr s) {e : Event J}
    {c : Nat} {k : Conn} {keep : Bool} {l : List (Nat × Nat × Answer)}
    (he : ∀ m, (∀ v, k.req ≠ some (m, v)) → e.req ≠ some m) (hk : s.conns c = some k)
    (hs : s' = { complete s c k keep with sent := l }) (hl : ∀ e ∈ l, e.2.2.code ≠ 503)
    (hst : ∀ n v, k.req = some (n, v) → Stat cfg (tr ++ [e]) s' n) : Inv cfg (tr ++ [e]) s' where
  stat m := by
    by_cases hm : ∀ v, k.req ≠ some (m, v)
    · refine (hi.stat m).frame (.other (he m hm)) ?_ ?_ ?_ ?_
      · rw [hs]; dsimp only [complete]
        cases hq : k.req with
        | none => rfl
        | some p => exact upd_other _ _ fun h => hm p.2 (by rw [hq, h])
      · rw [hs]; rfl
      · rw [hs]; rfl
      · intro r1 h1
        rw [hs]
        exact upd_other _ _ (hi.apart hk hm h1)
    · have hm' : ∃ v, k.req = some (m, v) := by
        cases hq : k.req with
        | none => exact absurd (fun v h => by rw [hq] at h; nomatch h) hm
        | some p =>
          by_cases hp : p.1 = m
          · exact ⟨p.2, by rw [← hp]⟩
          · exact absurd (fun v h => by rw [hq] at h; cases h; exact hp rfl) hm
      obtain ⟨v, hv⟩ := hm'
      exact hst m v hv
  idle c1 k1 h1 h2 := by
    rw [hs] at h1
    by_cases hc : c1 = c
    · subst hc
      rw [show ({ complete s c1 k keep with sent := l } : State).conns c1 = _ from upd_same _ _ _] at h1
      cases keep
      · nomatch h1
      · cases h1; rfl
    · exact hi.idle c1 k1 ((upd_other s.conns _ hc).symm.trans h1) h2
  busy c1 k1 m w h1 h2 := by
    rw [hs] at h1 ⊢
    by_cases hc : c1 = c
    · subst hc
      rw [show ({ complete s c1 k keep with sent := l } : State).conns c1 = _ from upd_same _ _ _] at h1
      cases keep
      · nomatch h1
      · cases h1; nomatch h2
    · obtain ⟨r1, h3, h4⟩ := hi.busy c1 k1 m w ((upd_other s.conns _ hc).symm.trans h1) h2
      refine ⟨r1, ?_, h4⟩
      dsimp only [complete]
      cases hq : k.req with
      | none => exact h3
      | some p =>
        refine (upd_other _ _ fun hm => hc ?_).trans h3
        obtain ⟨r2, h5, h6⟩ := hi.busy c k p.1 p.2 hk hq
        rw [← hm, h3] at h5; cases h5
        exact h4.symm.trans h6
  count c1 := by
    rw [hs]; dsimp only [complete]
    by_cases hc : c1 = c
    · subst hc
      rw [upd_same]
      cases keep
      · simp
      · have := (hi.count c1).mpr (by rw [hk]; exact Option.some_ne_none k)
        simpa using this
    · rw [upd_other _ _ hc]
      cases keep
      · simp [hc, hi.count c1]
      · exact hi.count c1
  codes := by rw [hs]; exact hl
  ended h := by
    rw [hs] at h
    have := (hi.count c).mpr (by rw [hk]; exact Option.some_ne_none k)
    rw [(hi.ended h).1] at this; nomatch this

/-- A request in progress stays in progress. -/
theorem Live.step {tr tr' : List (Event J)} {s s' : State} {n c : Nat} {v : Verb} {o : Option Text}
    {r r' : Req} {k k' : Conn} (h : Live tr s n c v o r k) (hu : s'.used = s.used)
    (hr : s'.reqs n = some r') (hc : r'.conn = r.conn) (hk : s'.conns r.conn = some k')
    (hkr : k'.req = k.req) (ho : allowed r'.origin = allowed r.origin)
    (hb : v = .post → r'.body = bodyOf n tr') (hh : headersOf n tr' = headersOf n tr)
    (hn : sends n tr' = sends n tr)
    (hst : v ≠ .post → uploads n tr' ≠ [] → k'.stuck = true) : Live tr' s' n c v o r' k' where
  inUse := hu ▸ h.inUse
  req := hr
  conn := hc.trans h.conn
  isOpen := h.conn ▸ hk
  kreq := hkr.trans h.kreq
  hdr := hh.trans h.hdr
  orig := ho.trans h.orig
  body := hb
  unsent := hn.trans h.unsent
  stuck := hst

end Verif.Http.Server
