/-!
# The client for JSON-RPC over HTTP (C113)

Model of `src/util/rpc/http/json_rpc_http_client.cpp`.  What is posted (`P`) and what a reply means
(`J`, with the function `parse` of the JSON library) are left open.  The functions of libcurl
succeed, and libcurl works on exactly the handles given to it: it posts what the handle says to
where the handle says, gives the bytes that come back to `write_data`, and reports the end of each
attempt once.
-/
namespace Verif.Http.Client

/-- What is set on a handle of libcurl,
src/util/rpc/http/json_rpc_http_client.cpp:79-111. -/
structure Handle (P : Type) where
  /-- `CURLOPT_URL`, as the number of the endpoint -/
  url : Nat
  /-- `CURLOPT_POSTFIELDS` -/
  post : P
  /-- `CURLOPT_WRITEDATA`, as the number of the call the transfer belongs to -/
  target : Nat
  /-- what came back in the attempt that is being made (not part of the program) -/
  got : List UInt8

/-- `transfer`, src/util/rpc/http/json_rpc_http_client.hpp:83-87.  The callback is identified by
the number of the call. -/
structure Transfer where
  call : Nat
  /-- `m_result` -/
  result : List UInt8

/-- How an attempt ends: `m->data.result`, and the code of HTTP if it is `CURLE_OK`. -/
inductive Result where
  | failed
  | code (c : Nat)
  deriving DecidableEq

/-- An attempt that has ended (not part of the program). -/
structure Attempt (P : Type) where
  call : Nat
  url : Nat
  post : P
  bytes : List UInt8
  result : Result

/-- `json_rpc_http_client`, src/util/rpc/http/json_rpc_http_client.hpp:72-94. -/
structure State (P J : Type) where
  /-- the number of `m_endpoints` -/
  endpoints : Nat
  /-- `m_lb_idx` -/
  lb : Nat
  /-- the handles made so far -/
  handles : List (Handle P)
  /-- `m_handles` -/
  idle : List Nat
  /-- `m_transfers` -/
  transfers : List (Nat × Transfer)
  /-- the handle whose callback is running inside `pump` -/
  cb : Option Nat
  /-- the destructor runs -/
  closing : Bool
  /-- something undefined has been done -/
  broken : Bool
  /-- what the calls were made with, by number (not part of the program) -/
  calls : List P
  /-- attempts that have ended (not part of the program) -/
  past : List (Attempt P)
  /-- what callbacks were called with (not part of the program) -/
  told : List (Nat × Option J)

/-- The constructor, src/util/rpc/http/json_rpc_http_client.cpp:27-58. -/
def start (P J : Type) (n : Nat) : State P J := ⟨n, 0, [], [], [], none, false, false, [], [], []⟩

/-- What may happen next. -/
inductive Event (P : Type) where
  /-- `call`, from outside or from a callback -/
  | call (p : P)
  /-- bytes come back on a handle: `write_data` -/
  | data (h : Nat) (b : List UInt8)
  /-- `pump` is told by libcurl that an attempt has ended -/
  | finish (h : Nat) (r : Result)
  /-- the callback that runs inside `pump` returns -/
  | ret
  /-- the destructor begins -/
  | destroy
  /-- the destructor comes to the next transfer -/
  | drop (h : Nat)

variable {P J : Type}

/-- `call`, src/util/rpc/http/json_rpc_http_client.cpp:79-118, with the handle that is used.  If
the handle were in `m_transfers` already, the callback of the other call would be overwritten;
here that is `broken`. -/
def State.add (s : State P J) (h : Nat) (p : P) : State P J :=
  if s.transfers.any (·.1 == h) then { s with broken := true }
  else { s with
    handles := s.handles.modify h fun x =>
      { x with post := p, target := s.calls.length, got := [] }
    transfers := s.transfers ++ [(h, ⟨s.calls.length, []⟩)]
    calls := s.calls ++ [p] }

/-- `call`, src/util/rpc/http/json_rpc_http_client.cpp:79-118.  An idle handle is used as it is,
with its endpoint; otherwise a handle is made for the next endpoint, which is read outside of the
list if there are no endpoints (lines 86-89).  While the destructor goes through `m_transfers`,
`call` changes it (line 100), which is undefined. -/
def State.call (s : State P J) (p : P) : State P J :=
  if s.closing then { s with broken := true }
  else
    match s.idle with
    | h :: rest => State.add { s with idle := rest } h p
    | [] =>
      if s.endpoints = 0 then { s with broken := true }
      else State.add { s with
        handles := s.handles ++ [⟨s.lb, p, s.calls.length, []⟩]
        lb := (s.lb + 1) % s.endpoints } s.handles.length p

/-- `write_data`, src/util/rpc/http/json_rpc_http_client.cpp:120-128. -/
def State.data (s : State P J) (h : Nat) (b : List UInt8) : Option (State P J) :=
  match s.transfers.find? (·.1 == h), s.handles[h]? with
  | some _, some x =>
    some { s with
      handles := s.handles.modify h fun x => { x with got := x.got ++ b }
      transfers := s.transfers.map fun e =>
        if e.2.call = x.target then (e.1, { e.2 with result := e.2.result ++ b }) else e }
  | _, _ => none

/-- One message of libcurl in `pump`, src/util/rpc/http/json_rpc_http_client.cpp:157-214, until the
callback is called.  After an error the handle is removed and added again, with the same transfer
(lines 171-187). -/
def State.finish (parse : List UInt8 → Option J) (s : State P J) (h : Nat) (r : Result) :
    Option (State P J) :=
  match s.transfers.find? (·.1 == h), s.handles[h]? with
  | some e, some x =>
    let past := s.past ++ [⟨x.target, x.url, x.post, x.got, r⟩]
    match r with
    | .failed =>
      some { s with
        past := past
        handles := s.handles.modify h fun x => { x with got := [] } }
    | .code c =>
      some { s with
        past := past
        transfers := s.transfers.filter (·.1 != h)
        told := s.told ++ [(e.2.call, if c / 100 = 2 then parse e.2.result else none)]
        cb := some h }
  | _, _ => none

/-- One step of src/util/rpc/http/json_rpc_http_client.cpp:60-224.  While a callback runs inside
`pump`, only calls made by it can happen; when it has returned, the handle is idle (line 216).
`pump` and the destructor are not called by callbacks.  (The order in which the destructor comes
to the transfers is arbitrary.) -/
def step (parse : List UInt8 → Option J) (s : State P J) : Event P → Option (State P J)
  | .call p => if s.broken then none else some (s.call p)
  | .data h b => if s.broken || s.closing || s.cb.isSome then none else s.data h b
  | .finish h r => if s.broken || s.closing || s.cb.isSome then none else s.finish parse h r
  | .ret =>
    match s.cb with
    | some h => if s.broken then none else some { s with cb := none, idle := s.idle ++ [h] }
    | none => none
  | .destroy =>
    if s.broken || s.closing || s.cb.isSome then none else some { s with closing := true }
  | .drop h =>
    if s.broken || !s.closing then none
    else
      match s.transfers.find? (·.1 == h) with
      | some e => some { s with
          transfers := s.transfers.filter (·.1 != h)
          told := s.told ++ [(e.2.call, none)] }
      | none => none

/-- Several steps. -/
def run (parse : List UInt8 → Option J) (s : State P J) : List (Event P) → Option (State P J)
  | [] => some s
  | e :: es => (step parse s e).bind (run parse · es)

end Verif.Http.Client
