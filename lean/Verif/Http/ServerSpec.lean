import Verif.Http.Server

/-!
# What an HTTP request is answered (C125): specification

Stated on the events alone.
-/
namespace Verif.Http.Server

open Verif.Serial Verif.Hex Verif.Http

variable {J : Type}

/-- The headers of a request: on which connection, which method, which origin. -/
def headersOf (n : Nat) (tr : List (Event J)) : List (Nat × Verb × Option Text) :=
  tr.filterMap fun
    | .headers c m v o => if m = n then some (c, v, o) else none
    | _ => none

/-- The parts of the body of a request. -/
def uploads (n : Nat) (tr : List (Event J)) : List Bytes :=
  tr.filterMap fun
    | .chunk _ m b => if m = n then some b else none
    | _ => none

/-- The body of a request. -/
def bodyOf (n : Nat) (tr : List (Event J)) : Bytes := (uploads n tr).flatten

/-- What the application did when it was handed the request: its answers and what its handler
returned. -/
def finishes (n : Nat) (tr : List (Event J)) : List (List (Option J) × Bool) :=
  tr.filterMap fun
    | .finish _ m now ret => if m = n then some (now, ret) else none
    | _ => none

/-- The answers which the application gave later. -/
def late (n : Nat) (tr : List (Event J)) : List (Option J) :=
  tr.filterMap fun
    | .respond m a => if m = n then some a else none
    | _ => none

/-- How often the request was answered, and on which connections. -/
def sends (n : Nat) (tr : List (Event J)) : List Nat :=
  tr.filterMap fun
    | .send c m _ => if m = n then some c else none
    | _ => none

/-- The value of `Access-Control-Allow-Origin`. -/
def header (cfg : Cfg J) (o : Option Text) : Option Text :=
  if cfg.cors then some (o.getD (lit "*")) else none

/-- The answer which is due to a request with method `v`, origin `o` and body `body`, if the application
gives the answers `now` before its handler returns `ret`, and the answers `after` later. -/
inductive Due (cfg : Cfg J) (v : Verb) (o : Option Text) (body : Bytes) (now : List (Option J)) (ret : Bool)
    (after : List (Option J)) : Answer → Prop
  /-- a preflight request is told what is allowed -/
  | preflight : v = .options → cfg.cors = true →
      Due cfg v o body now ret after ⟨200, [], some (o.getD (lit "*")), true⟩
  /-- other methods than `POST` are refused -/
  | method : v ≠ .post → (v = .options → cfg.cors = false) →
      Due cfg v o body now ret after ⟨405, lit "HTTP method not allowed", header cfg o, false⟩
  /-- so are requests that are malformed -/
  | malformed : v = .post → cfg.parse body = none →
      Due cfg v o body now ret after ⟨400, lit "Invalid request payload", header cfg o, false⟩
  /-- and requests which the application does not handle -/
  | unhandled (id : UInt64) : v = .post → cfg.parse body = some id → now = [] → ret = false →
      Due cfg v o body now ret after ⟨400, lit "Invalid request payload", header cfg o, false⟩
  /-- the first answer of the application is sent, under the number of the request -/
  | reply (id : UInt64) (j : J) : v = .post → cfg.parse body = some id →
      (now.head? = some (some j) ∨ now = [] ∧ ret = true ∧ after.head? = some (some j)) →
      Due cfg v o body now ret after ⟨200, cfg.render id j, header cfg o, false⟩
  /-- or that it has none -/
  | noReply (id : UInt64) : v = .post → cfg.parse body = some id →
      (now.head? = some none ∨ now = [] ∧ ret = true ∧ after.head? = some none) →
      Due cfg v o body now ret after ⟨500, lit "Error processing request", header cfg o, false⟩

/-- The application calls each callback at most once: not after its handler answered, nor after the handler
said that it does not handle the request. -/
def Behaved (tr : List (Event J)) : Prop :=
  ∀ n now ret, (now, ret) ∈ finishes n tr → late n tr ≠ [] →
    now = [] ∧ ret = true ∧ (late n tr).length = 1

/-- The application owes an answer: the request was handed to it, it neither answered nor refused it. -/
def Owes (cfg : Cfg J) (tr : List (Event J)) (n : Nat) : Prop :=
  ∃ before after c c' o id, tr = before ++ .finish c n [] true :: after ∧ .quiesce ∉ before ∧
    headersOf n before = [(c', .post, o)] ∧ cfg.parse (bodyOf n before) = some id ∧ late n after = []

/-- The connection still serves the request. -/
def InProgress (s : State) (c n : Nat) : Prop :=
  ∃ k v, s.conns c = some k ∧ k.req = some (n, v)

end Verif.Http.Server
