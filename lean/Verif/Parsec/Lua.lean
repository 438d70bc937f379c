import Verif.Serial.Model

/-!
Model of the Lua runner, `src/parsec/agent/runners/lua/impl.cpp`.

The interpreter is not modelled: a program is any function from inputs to yields, results and errors. The functions
of the Lua 5.4 library that the runner calls follow its manual: `lua_isstring` holds for numbers too,
`lua_tolstring` turns a number into a string in place, and `lua_next` raises an error for a key that is not in the
table, which outside a protected call ends the process. Strings that cannot be allocated are left out.
-/
namespace Verif.Parsec.Lua

open Verif.Serial

/-- A Lua value as far as the runner looks at it. Numbers are named by a natural number. -/
inductive Val where
  | str (s : Bytes)
  | num (n : Nat)
  | other
  deriving DecidableEq

/-- What a contract returns: a value, or a table with its entries in the order in which `lua_next` gives them. -/
inductive Ret where
  | val (v : Val)
  | table (entries : List (Val × Val))
  deriving DecidableEq

/-- `lua_resume`: the contract yields values, returns, fails, or runs for ever. `vm` are the states of the
interpreter. -/
inductive Resume (vm : Type) where
  | yield (vs : List Val) (next : vm)
  | done (rs : List Ret)
  | fail
  | forever

/-- An interpreter: loading of byte code, `luaL_loadbufferx`; running on with one string, `lua_resume`; the text of a
number, `lua_tolstring`. -/
structure Interp (vm : Type) where
  load : Bytes → Option vm
  resume : vm → Bytes → Resume vm
  text : Nat → Bytes

/-- `error_code`, `src/parsec/agent/runners/interface.hpp:24-47`. -/
inductive Err where
  | resultValueType
  | resultKeyType
  | resultType
  | resultCount
  | execError
  | functionLoad
  | internalError
  | yieldCount
  | yieldType
  | lockError
  | wounded
  deriving DecidableEq

/-- The updates a contract asks for: `state_update_type`, a map. -/
abbrev Updates := List (Bytes × Bytes)

/-- `get_stack_string`, `src/parsec/agent/runners/lua/impl.cpp:129-139`. -/
def stackString (text : Nat → Bytes) : Val → Option Bytes
  | .str s => some s
  | .num n => some (text n)
  | .other => none

/-- `emplace`, which keeps an entry already present. -/
def emplace (u : Updates) (k v : Bytes) : Updates :=
  if u.any (fun p => p.1 == k) then u else u ++ [(k, v)]

/-- The key on the stack after `get_stack_string`, which turns a number into a string. -/
def keyLeft (text : Nat → Bytes) : Val → Val
  | .num n => .str (text n)
  | v => v

/-- `lua_next`: the entries after a key, `none` when it is not in the table. -/
def after (k : Val) : List (Val × Val) → Option (List (Val × Val))
  | [] => none
  | e :: es => if e.1 = k then some es else after k es

/-- How the loop over the table ends: with updates, with an error, with the end of the process, or not within the given
number of turns. -/
inductive Loop where
  | updates (u : Updates)
  | error (e : Err)
  | abort
  | running
  deriving DecidableEq

/-- The loop of `contract_epilogue`, `src/parsec/agent/runners/lua/impl.cpp:101-125`, on the entries still to come of the
table `t`, for a number of turns. -/
def loop (text : Nat → Bytes) (t : List (Val × Val)) : Nat → List (Val × Val) → Updates → Loop
  | _, [], u => .updates u
  | 0, _ :: _, _ => .running
  | n + 1, (k, v) :: _, u =>
    match stackString text k with
    | none => .error .resultKeyType
    | some ks =>
      match stackString text v with
      | none => .error .resultValueType
      | some vs =>
        match after (keyLeft text k) t with
        | none => .abort
        | some rest => loop text t n rest (emplace u ks vs)

/-- What the runner reports through `m_result_callback`. -/
inductive Report where
  | updates (u : Updates)
  | error (e : Err)
  deriving DecidableEq

/-- Where a run is: waiting for a lock, finished, the process has ended, or it never gets any further. -/
inductive State (vm : Type) where
  | waiting (next : vm)
  | finished
  | aborted
  | forever

/-- What the runner does: asks for a lock, always of type write (`src/parsec/agent/runners/lua/impl.cpp:157-162`), or reports. -/
inductive Out where
  | lock (k : Bytes)
  | report (r : Report)
  deriving DecidableEq

/-- `contract_epilogue`, `src/parsec/agent/runners/lua/impl.cpp:88-127`. `turns` bounds the loop over the table; a loop that has
not ended by then has not ended. -/
def epilogue {vm : Type} (text : Nat → Bytes) (turns : Nat) (rs : List Ret) : State vm × List Out :=
  match rs with
  | [r] =>
    match r with
    | .val _ => (.finished, [.report (.error .resultType)])
    | .table t =>
      match loop text t turns t [] with
      | .updates u => (.finished, [.report (.updates u)])
      | .error e => (.finished, [.report (.error e)])
      | .abort => (.aborted, [])
      | .running => (.forever, [])
  | _ => (.finished, [.report (.error .resultCount)])

/-- `schedule_contract`, `src/parsec/agent/runners/lua/impl.cpp:141-174`. `granted k` is what `m_try_lock_callback` returns. Left
out: the log line of an error that is not a string, for which `lua_tostring` gives a null pointer. -/
def schedule {vm : Type} (I : Interp vm) (granted : Bytes → Bool) (turns : Nat) (m : vm) (input : Bytes) :
    State vm × List Out :=
  match I.resume m input with
  | .yield vs next =>
    match vs with
    | [v] =>
      match stackString I.text v with
      | none => (.finished, [.report (.error .yieldType)])
      | some k =>
        if granted k then (.waiting next, [.lock k])
        else (.finished, [.lock k, .report (.error .internalError)])
    | _ => (.finished, [.report (.error .yieldCount)])
  | .fail => (.finished, [.report (.error .execError)])
  | .done rs => epilogue I.text turns rs
  | .forever => (.forever, [])

/-- `run`, `src/parsec/agent/runners/lua/impl.cpp:44-86`. A state that cannot be allocated is left out. -/
def run {vm : Type} (I : Interp vm) (granted : Bytes → Bool) (turns : Nat) (function param : Bytes) :
    State vm × List Out :=
  match I.load function with
  | none => (.finished, [.report (.error .functionLoad)])
  | some m => schedule I granted turns m param

/-- The answer to a lock request, `broker::interface::try_lock_return_type`. -/
inductive Answer where
  | value (v : Bytes)
  | brokerError
  | shardError (wounded : Bool)
  deriving DecidableEq

/-- `handle_try_lock`, `src/parsec/agent/runners/lua/impl.cpp:176-208`. Only a runner that waits is answered. -/
def answer {vm : Type} (I : Interp vm) (granted : Bytes → Bool) (turns : Nat) : State vm → Answer → State vm × List Out
  | .waiting m, .value v => schedule I granted turns m v
  | .waiting _, .brokerError => (.finished, [.report (.error .lockError)])
  | .waiting _, .shardError w => (.finished, [.report (.error (if w then .wounded else .lockError))])
  | s, _ => (s, [])

/-- A run with the answers it gets. -/
def answers {vm : Type} (I : Interp vm) (granted : Bytes → Bool) (turns : Nat) (s : State vm) :
    List Answer → State vm × List Out
  | [] => (s, [])
  | a :: as =>
    let r := answer I granted turns s a
    let r' := answers I granted turns r.1 as
    (r'.1, r.2 ++ r'.2)

/-- A whole run. -/
def whole {vm : Type} (I : Interp vm) (granted : Bytes → Bool) (turns : Nat) (function param : Bytes) (as : List Answer) :
    State vm × List Out :=
  let r := run I granted turns function param
  let r' := answers I granted turns r.1 as
  (r'.1, r.2 ++ r'.2)

/-! ### `check_sig` -/

/-- How `check_sig` ends: it returns, or raises an error in the contract. -/
inductive Checked where
  | ok
  | raise
  deriving DecidableEq

/-- `check_sig`, `src/parsec/agent/runners/lua/impl.cpp:210-270`: public key, signature, message. `parse` is
`secp256k1_xonly_pubkey_parse`, `verify` is `secp256k1_schnorrsig_verify` and `sha` the hash. -/
def checkSig (text : Nat → Bytes) (sha : Bytes → Bytes) (parse : Bytes → Bool) (verify : Bytes → Bytes → Bytes → Bool)
    (args : List Val) : Checked :=
  if args.length ≠ 3 then .raise
  else if args.any (fun v => (stackString text v).isNone) then .raise
  else
    let key := (stackString text (args.getD 0 .other)).getD []
    let sig := (stackString text (args.getD 1 .other)).getD []
    let msg := (stackString text (args.getD 2 .other)).getD []
    if key.length ≠ 32 then .raise
    else if sig.length ≠ 64 then .raise
    else if !parse key then .raise
    else if !verify sig (sha msg) key then .raise
    else .ok

end Verif.Parsec.Lua
