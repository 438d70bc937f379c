import Verif.Http.Json

/-!
# The HTTP server of an EVM agent (C125)

Model of `src/util/rpc/http/json_rpc_http_server.cpp`: what becomes of connections and requests, from the
first header to the answer, and what the destructor waits for.  libmicrohttpd calls the server in its
worker threads; an event below is one call, or one thing that libmicrohttpd does on its own.
-/
namespace Verif.Http.Server

open Verif.Serial Verif.Hex Verif.Http

/-- The HTTP method of a request, as far as the server looks at it,
src/util/rpc/http/json_rpc_http_server.cpp:112-121. -/
inductive Verb where
  | post | options | other
  deriving DecidableEq, Repr

/-- What a client is sent: status, body, the header `Access-Control-Allow-Origin`, and whether it is the
answer to a preflight request.  Simplified: of the other headers, which are constant
(src/util/rpc/http/json_rpc_http_server.cpp:162-175, 201-204), only the last field is kept. -/
structure Answer where
  code : Nat
  body : Bytes
  allow : Option Text
  preflight : Bool := false
  deriving DecidableEq

/-- `request`, src/util/rpc/http/json_rpc_http_server.hpp:57-63. -/
structure Req where
  /-- `m_connection` -/
  conn : Nat
  /-- `m_request` -/
  body : Bytes := []
  /-- `m_origin` -/
  origin : Option Text
  /-- `m_code` -/
  code : Nat := 0

/-- A connection of libmicrohttpd, `MHD_Connection`. -/
structure Conn where
  /-- what the server stored in `*con_cls`, and the method of the request -/
  req : Option (Nat × Verb) := none
  /-- the request was received in full -/
  complete : Bool := false
  /-- the last call left data unread: libmicrohttpd does not go on -/
  stuck : Bool := false
  suspended : Bool := false
  response : Option Answer := none
  deriving DecidableEq

/-- The settings, and the parts of the server that only look at text: `parse` is the front of
`handle_request` (`none`: it is refused; otherwise the number of the request),
src/util/rpc/http/json_rpc_http_server.cpp:219-244, `render` is the text of an answer,
src/util/rpc/http/json_rpc_http_server.cpp:269-274.  Both are modelled in `Handlers.lean`, where also
the requests are described for which jsoncpp throws; here they are parameters and do not throw. -/
structure Cfg (J : Type) where
  /-- `m_enable_cors` -/
  cors : Bool
  /-- `init` succeeded, src/util/rpc/http/json_rpc_http_server.cpp:81 -/
  listening : Bool
  parse : Bytes → Option UInt64
  render : UInt64 → J → Bytes

/-- `json_rpc_http_server`, src/util/rpc/http/json_rpc_http_server.hpp:65-76, and the state of
libmicrohttpd. -/
structure State where
  /-- `m_requests`; the number of a request stands for its address -/
  reqs : Nat → Option Req := fun _ => none
  conns : Nat → Option Conn := fun _ => none
  /-- the connections of which there are `num_connections` -/
  opened : List Nat := []
  /-- the numbers that were given to requests -/
  used : List Nat := []
  /-- the callbacks the application was given, with the number they put in their answer -/
  given : Nat → Option UInt64 := fun _ => none
  /-- `m_running` -/
  running : Bool := true
  /-- the destructor returned -/
  stopped : Bool := false
  /-- what was sent: connection, request, answer -/
  sent : List (Nat × Nat × Answer) := []

/-- What happens. -/
inductive Event (J : Type) where
  /-- a client connects -/
  | connect (c : Nat)
  /-- the headers of a request, with its `Origin` -/
  | headers (c n : Nat) (v : Verb) (o : Option Text)
  /-- a part of the body -/
  | chunk (c n : Nat) (b : Bytes)
  /-- the end of the request; `now`: the answers the application gives before its handler returns,
  `ret`: what the handler returns -/
  | finish (c n : Nat) (now : List (Option J)) (ret : Bool)
  /-- the application calls a callback later, in another thread -/
  | respond (n : Nat) (a : Option J)
  /-- libmicrohttpd has sent the answer -/
  | send (c n : Nat) (keep : Bool)
  /-- the client is gone, or was silent for three seconds -/
  | drop (c : Nat)
  /-- the destructor begins -/
  | quiesce
  /-- the destructor ends -/
  | stop

/-- What comes of an event: a state, nothing as it cannot happen, or undefined behaviour. -/
inductive Res where
  | next (s : State)
  | off
  | undefined

/-- `f` with a new value at `k`. -/
def upd {α : Type} (f : Nat → Option α) (k : Nat) (v : Option α) : Nat → Option α :=
  fun x => if x = k then v else f x

/-- `MHD_queue_response`: refused if there is an answer already, or before the request was received in
full (the first call apart, in which the server never answers). -/
def Conn.queue (k : Conn) (a : Answer) : Conn :=
  if k.complete ∧ k.response = none then { k with response := some a } else k

/-- `MHD_resume_connection`, if the connection is suspended,
src/util/rpc/http/json_rpc_http_server.cpp:178-183, 209-214. -/
def Conn.resume (k : Conn) : Conn := { k with suspended := false }

/-- The header of `send_response` and `send_cors_response`,
src/util/rpc/http/json_rpc_http_server.cpp:155-160, 194-202. -/
def allowed (origin : Option Text) : Text := origin.getD (lit "*")

/-- `send_response`, src/util/rpc/http/json_rpc_http_server.cpp:187-216, with `m_code` set to `code` before. -/
def sendResponse {J : Type} (cfg : Cfg J) (s : State) (n code : Nat) (body : Bytes) : Res :=
  match s.reqs n with
  | none => .undefined
  | some r =>
    match s.conns r.conn with
    | none => .undefined
    | some k =>
      .next { s with
        reqs := upd s.reqs n (some { r with
          code := code
          origin := if cfg.cors then some (allowed r.origin) else r.origin })
        conns := upd s.conns r.conn (some (k.queue
          ⟨code, body, if cfg.cors then some (allowed r.origin) else none, false⟩).resume) }

/-- `send_cors_response`, src/util/rpc/http/json_rpc_http_server.cpp:148-185. -/
def sendCors (s : State) (n : Nat) : Res :=
  match s.reqs n with
  | none => .undefined
  | some r =>
    match s.conns r.conn with
    | none => .undefined
    | some k =>
      .next { s with
        reqs := upd s.reqs n (some { r with origin := some (allowed r.origin) })
        conns := upd s.conns r.conn (some (k.queue
          ⟨200, [], some (allowed r.origin), true⟩).resume) }

/-- `handle_response`, src/util/rpc/http/json_rpc_http_server.cpp:257-276. -/
def handleResponse {J : Type} (cfg : Cfg J) (s : State) (n : Nat) (id : UInt64) : Option J → Res
  | none => sendResponse cfg s n 500 (lit "Error processing request")
  | some j => sendResponse cfg s n 200 (cfg.render id j)

/-- What follows something that can fail. -/
def Res.andThen (r : Res) (f : State → Res) : Res :=
  match r with
  | .next s => f s
  | .off => .off
  | .undefined => .undefined

/-- The answers which the application gives while its handler runs. -/
def handleAll {J : Type} (cfg : Cfg J) (n : Nat) (id : UInt64) : List (Option J) → State → Res
  | [], s => .next s
  | a :: l, s => (handleResponse cfg s n id a).andThen (handleAll cfg n id l)

/-- `MHD_suspend_connection` -/
def suspend (s : State) (c : Nat) (k : Conn) : State :=
  { s with conns := upd s.conns c (some { k with suspended := true }) }

/-- The answer if the request was not handled, src/util/rpc/http/json_rpc_http_server.cpp:140-143. -/
def invalid {J : Type} (cfg : Cfg J) (n : Nat) (s : State) : Res :=
  sendResponse cfg s n 400 (lit "Invalid request payload")

/-- `handle_request` and what follows, src/util/rpc/http/json_rpc_http_server.cpp:139-143, 218-255. -/
def handleRequest {J : Type} (cfg : Cfg J) (s : State) (c n : Nat) (k : Conn) (r : Req)
    (now : List (Option J)) (ret : Bool) : Res :=
  match cfg.parse r.body with
  | none => invalid cfg n s
  | some id =>
    (handleAll cfg n id now { suspend s c k with given := upd s.given n (some id) }).andThen fun s =>
      if ret then .next s else invalid cfg n s

/-- A connection is closed, or its request is over: `request_complete`,
src/util/rpc/http/json_rpc_http_server.cpp:283-299.  A connection that is kept waits for another request. -/
def complete (s : State) (c : Nat) (k : Conn) (keep : Bool) : State :=
  { s with
    reqs := match k.req with
      | none => s.reqs
      | some e => upd s.reqs e.1 none
    conns := upd s.conns c (if keep then some {} else none)
    opened := if keep then s.opened else s.opened.filter (· ≠ c) }

/-- `callback` with a part of the body, src/util/rpc/http/json_rpc_http_server.cpp:109-129.  Only the
last branch reads the data. -/
def onChunk {J : Type} (cfg : Cfg J) (s : State) (c n : Nat) (v : Verb) (k : Conn) (b : Bytes) : Res :=
  if v = .options ∧ cfg.cors then
    sendCors { s with conns := upd s.conns c (some { k with stuck := true }) } n
  else if v ≠ .post then
    sendResponse cfg { s with conns := upd s.conns c (some { k with stuck := true }) } n 405
      (lit "HTTP method not allowed")
  else
    match s.reqs n with
    | none => .undefined
    | some r => .next { s with reqs := upd s.reqs n (some { r with body := r.body ++ b }) }

/-- `callback` at the end of the request, src/util/rpc/http/json_rpc_http_server.cpp:109-146.  If it returns
`MHD_NO` libmicrohttpd closes the connection and sends nothing. -/
def onFinish {J : Type} (cfg : Cfg J) (s : State) (c n : Nat) (v : Verb) (k : Conn)
    (now : List (Option J)) (ret : Bool) : Res :=
  if v = .options ∧ cfg.cors then
    sendCors { s with conns := upd s.conns c (some { k with complete := true }) } n
  else if v ≠ .post then
    sendResponse cfg { s with conns := upd s.conns c (some { k with complete := true }) } n 405
      (lit "HTTP method not allowed")
  else if s.running then
    match s.reqs n with
    | none => .undefined
    | some r =>
      handleRequest cfg { s with conns := upd s.conns c (some { k with complete := true }) } c n
        { k with complete := true } r now ret
  else
    (sendResponse cfg { s with conns := upd s.conns c (some { k with complete := true }) } n 503
      (lit "Server is shutting down")).andThen fun s => .next (complete s c k false)

/-- The first call of `callback`, src/util/rpc/http/json_rpc_http_server.cpp:92-107. -/
def onHeaders (s : State) (c n : Nat) (v : Verb) (o : Option Text) : State :=
  { s with
    reqs := upd s.reqs n (some { conn := c, origin := o })
    conns := upd s.conns c (some { req := some (n, v) })
    used := n :: s.used }

/-- One event.  libmicrohttpd accepts connections until `MHD_quiesce_daemon`; it calls `callback` for a
connection that is not suspended, until there is an answer; it closes a connection that is not suspended
after three seconds of silence, src/util/rpc/http/json_rpc_http_server.cpp:74-75.  The destructor is
src/util/rpc/http/json_rpc_http_server.cpp:19-49; simplified: it sets `m_running` and stops
accepting connections at once. -/
def step {J : Type} (cfg : Cfg J) (s : State) : Event J → Res
  | .connect c =>
    if cfg.listening ∧ s.running ∧ s.conns c = none then
      .next { s with
        conns := upd s.conns c (some {})
        opened := c :: s.opened }
    else .off
  | .headers c n v o =>
    if s.conns c = some {} ∧ n ∉ s.used then .next (onHeaders s c n v o) else .off
  | .chunk c n b =>
    match s.conns c with
    | none => .off
    | some k =>
      match k.req with
      | none => .off
      | some e =>
        if e.1 = n ∧ !k.complete ∧ !k.stuck then onChunk cfg s c n e.2 k b else .off
  | .finish c n now ret =>
    match s.conns c with
    | none => .off
    | some k =>
      match k.req with
      | none => .off
      | some e =>
        if e.1 = n ∧ !k.complete ∧ !k.stuck then onFinish cfg s c n e.2 k now ret else .off
  | .respond n a =>
    match s.given n with
    | none => .off
    | some id => handleResponse cfg s n id a
  | .send c n keep =>
    match s.conns c with
    | none => .off
    | some k =>
      match k.response with
      | none => .off
      | some a =>
        if k.req.map (·.1) = some n ∧ !k.suspended then
          .next { complete s c k keep with sent := s.sent ++ [(c, n, a)] }
        else .off
  | .drop c =>
    match s.conns c with
    | none => .off
    | some k => if k.suspended then .off else .next (complete s c k false)
  | .quiesce =>
    if !cfg.listening then .undefined
    else if s.running then .next { s with running := false } else .off
  | .stop =>
    if !s.running ∧ s.opened = [] ∧ !s.stopped then .next { s with stopped := true } else .off

/-- The events that happen one after the other. -/
def run {J : Type} (cfg : Cfg J) (tr : List (Event J)) : Res :=
  tr.foldl (fun r e => r.andThen fun s => step cfg s e) (.next {})

end Verif.Http.Server
