import Verif.Parsec.Replicated
import Verif.Rpc.SystemProps

/-!
# What a broker is told by a runtime locking shard (C136)

The answers of the RPC server of a runtime locking shard and what the client at the broker makes of
them. A response is one of three kinds; a callback of the client accepts one kind only and no absent
answer. The shard is the model of `Verif/Parsec/Shard.lean`, the replicated state that of
`Verif/Parsec/Replicated.lean`, and the RPC layer that of C75.
-/
namespace Verif.Parsec.Told

/-- `response` (src/parsec/runtime_locking_shard/messages.hpp:69-71): `prepare_return_type`,
`commit_return_type`, `rollback_return_type` and `finish_return_type` are the same type
(src/parsec/runtime_locking_shard/interface.hpp:148, 167, 183, 200). The tickets are given as a
function. -/
inductive Response where
  | lock (a : Answer)
  | result (e : Option ShardError)
  | tickets (a : Except Code (Tn → Option TState))

/-- The conversion of an `error_code` to `response`, as in `callback(error_code::internal_error)`:
the only alternative an `error_code` converts to implicitly is `get_tickets_return_type`
(src/parsec/runtime_locking_shard/interface.hpp:221), since `shard_error` is an aggregate
(src/parsec/runtime_locking_shard/interface.hpp:74-82). -/
def Response.ofCode (c : Code) : Response := .tickets (.error c)

/-- A request (src/parsec/runtime_locking_shard/messages.hpp:14-67), without the fields that do not
matter for the kind of the answer. -/
inductive Ask where
  | tryLock (t : Tn) (k : Key)
  | prepare (t : Tn) (u : List (Key × Value))
  | commit (t : Tn)
  | rollback (t : Tn)
  | finish (t : Tn)
  | getTickets (broker : Nat)
  deriving DecidableEq

/-- What becomes of the log entry of a request (`replicate_request`,
src/parsec/runtime_locking_shard/replicated_shard_client.cpp:110-139). -/
inductive Raft where
  /-- this node is not the leader -/
  | refused
  /-- the entry was lost -/
  | lost
  /-- it was executed with this result -/
  | done (e : Option Code)
  deriving DecidableEq, Repr

/-- What the callback of a replicated command is given, `none` if the call returned false
(src/parsec/runtime_locking_shard/replicated_shard_client.cpp:26-40, 110-139). -/
def Raft.callback : Raft → Option (Option Code)
  | .refused => none
  | .lost => some (some .internalError)
  | .done e => some e

/-- The circumstances in which a request is answered: the shard when it is asked to act, the answer
its lock callback is given, and what became of the log entry. -/
structure Circ where
  shard : State
  lock : Answer
  raft : Raft

/-- The continuation of a replicated command: `handle_commit`, `do_rollback` and `do_finish`
(src/parsec/runtime_locking_shard/server.cpp:115-174). The functions of the shard return true. If the
command could not be replicated the handler returns false
(src/parsec/runtime_locking_shard/server.cpp:50-76), and the RPC server answers `nullopt`
(src/util/rpc/async_server.hpp:76-99). -/
def continued (r : Raft) (act : Option ShardError) : Option Response :=
  match r.callback with
  | none => none
  | some (some _) => some (.ofCode .internalError)
  | some none => some (.result act)

/-- `handler_callback` and `handle_prepare` (src/parsec/runtime_locking_shard/server.cpp:27-113):
what is sent to the broker. -/
def Circ.answer (w : Circ) : Ask → Option Response
  | .tryLock _ _ => some (.lock w.lock)
  | .prepare t u =>
    match (Parsec.prepare w.shard t u).2.result with
    | some e => some (.result (some e))
    | none =>
      match w.raft.callback with
      | none => some (.ofCode .internalError)
      | some (some _) => some (.ofCode .internalError)
      | some none => some (.result none)
  | .commit t => continued w.raft (Parsec.commit w.shard t).2.result
  | .rollback t => continued w.raft (Parsec.rollback w.shard t).2.result
  | .finish t => continued w.raft (Parsec.finish w.shard t).2.result
  | .getTickets b => some (.tickets (.ok (Parsec.getTickets w.shard b)))

/-- The callbacks of the client (src/parsec/runtime_locking_shard/client.cpp:20-110): what the broker
is told. `none`: an assertion fails, or `std::get` or `value()` throws; the callback runs in the thread
that handles packets (src/util/network/connection_manager.cpp:161-182), so the process ends. -/
def Ask.tell : Ask → Option Response → Option Response
  | _, none => none
  | .tryLock _ _, some (.lock a) => some (.lock a)
  | .prepare _ _, some (.result e) => some (.result e)
  | .commit _, some (.result e) => some (.result e)
  | .rollback _, some (.result e) => some (.result e)
  | .finish _, some (.result e) => some (.result e)
  | .getTickets _, some (.tickets a) => some (.tickets a)
  | _, some _ => none

/-! ### Specification -/

/-- What a shard has to say to a request: its own answer. -/
def says (sh : State) (lock : Answer) : Ask → Response
  | .tryLock _ _ => .lock lock
  | .prepare t u => .result (Parsec.prepare sh t u).2.result
  | .commit t => .result (Parsec.commit sh t).2.result
  | .rollback t => .result (Parsec.rollback sh t).2.result
  | .finish t => .result (Parsec.finish sh t).2.result
  | .getTickets b => .tickets (.ok (Parsec.getTickets sh b))

/-- The request goes into the log of the shard: not a lock, not a question, not a prepare that the
shard refuses by itself. -/
def Logged (sh : State) : Ask → Prop
  | .tryLock _ _ => False
  | .getTickets _ => False
  | .prepare t u => (Parsec.prepare sh t u).2.result = none
  | .commit _ => True
  | .rollback _ => True
  | .finish _ => True

/-! ### The property -/

/-- **C136.** A broker is told exactly what the shard says, unless the request has to go into the log
and does not get through it. What is missing: in that case it is told nothing, see
`C136_failed_violated`. -/
theorem C136_told_partial (w : Circ) (q : Ask) (h : Logged w.shard q → w.raft = .done none) :
    q.tell (w.answer q) = some (says w.shard w.lock q) := by
  cases q with
  | tryLock t k => rfl
  | getTickets b => rfl
  | prepare t u =>
    cases hp : (Parsec.prepare w.shard t u).2.result with
    | some e => simp [Circ.answer, says, hp, Ask.tell]
    | none =>
      have hr := h hp
      simp [Circ.answer, says, hp, hr, Raft.callback, Ask.tell]
  | commit t => simp [Circ.answer, continued, h trivial, Raft.callback, Ask.tell, says]
  | rollback t => simp [Circ.answer, continued, h trivial, Raft.callback, Ask.tell, says]
  | finish t => simp [Circ.answer, continued, h trivial, Raft.callback, Ask.tell, says]

/-- **C136**, not met: whenever a request that goes into the log is refused there, is lost or is
executed with an error, the answer ends the broker's process. -/
theorem C136_failed_violated (w : Circ) (q : Ask) (hq : Logged w.shard q) (h : w.raft ≠ .done none) :
    q.tell (w.answer q) = none := by
  have hc : w.raft.callback = none ∨ ∃ e, w.raft.callback = some (some e) := by
    cases hr : w.raft with
    | refused => exact .inl rfl
    | lost => exact .inr ⟨_, rfl⟩
    | done e =>
      cases e with
      | none => exact absurd hr h
      | some e => exact .inr ⟨e, rfl⟩
  cases q with
  | tryLock t k => exact hq.elim
  | getTickets b => exact hq.elim
  | prepare t u =>
    have hp : (Parsec.prepare w.shard t u).2.result = none := hq
    rcases hc with hc | ⟨e, hc⟩ <;> simp [Circ.answer, hp, hc, Ask.tell, Response.ofCode]
  | commit t =>
    rcases hc with hc | ⟨e, hc⟩ <;> simp [Circ.answer, continued, hc, Ask.tell, Response.ofCode]
  | rollback t =>
    rcases hc with hc | ⟨e, hc⟩ <;> simp [Circ.answer, continued, hc, Ask.tell, Response.ofCode]
  | finish t =>
    rcases hc with hc | ⟨e, hc⟩ <;> simp [Circ.answer, continued, hc, Ask.tell, Response.ofCode]

/-! ### Through the RPC layer -/

/-- The shards answer by their code: each answer is that of a server to the request it was given. -/
def ByCode (s : Rpc.Sys Ask Response) : Prop :=
  ∀ j p, (j, p) ∈ s.answers → ∀ job, s.jobs[j]? = some job → ∃ w : Circ, p = w.answer job.req

/-- **C136.** Of a broker that uses the RPC client, in every execution of clients, servers and
connections: a callback that runs tells it what some shard says to that very request, or ends the
process, and it ends the process only if the request was one for the log and did not get through it. -/
theorem C136_callback_partial (tr : Nat → List (Rpc.Event Ask Response))
    (s : Rpc.Sys Ask Response) (h : Rpc.SysReach tr s) (hs : ByCode s) (c n : Nat)
    (hb : (s.clients c).calls.length ≤ 2 ^ 64) (p : Option Response)
    (hr : (n, p) ∈ (s.clients c).runs) :
    ∃ (call : Rpc.Call Ask Response) (w : Circ), (s.clients c).calls[n]? = some call ∧
      p = w.answer call.req ∧
      (call.req.tell p = some (says w.shard w.lock call.req) ∨
        (call.req.tell p = none ∧ Logged w.shard call.req ∧ w.raft ≠ .done none)) := by
  obtain ⟨call, j, job, conn, h1, h2, _, _, _, h6, h7⟩ := Rpc.C75_callback tr s h c n hb p hr
  obtain ⟨w, hw⟩ := hs j p h7 job h2
  rw [h6] at hw
  subst hw
  refine ⟨call, w, h1, rfl, ?_⟩
  by_cases hq : Logged w.shard call.req
  · by_cases hd : w.raft = .done none
    · exact .inl (C136_told_partial w _ fun _ => hd)
    · exact .inr ⟨C136_failed_violated w _ hq hd, hq, hd⟩
  · exact .inl (C136_told_partial w _ fun h => absurd h hq)

/-! ### Through the log -/

/-- The request that waits for a command of the log (src/parsec/runtime_locking_shard/server.cpp:46-76). -/
def ofPend : Pend → Ask
  | .prepare t _ u => .prepare t u
  | .commit t => .commit t
  | .rollback t => .rollback t
  | .finish t => .finish t

/-- What the broker gets when the next command `p` of the log is executed: the continuation of
`handle_prepare` has no part in what the shard answered before
(src/parsec/runtime_locking_shard/server.cpp:101-108), the others ask the shard now. -/
def executed (s : Sys) (p : Pend) : Option Response :=
  match p with
  | .prepare _ _ _ => continued (.done (s.repl.apply p.cmd).2) none
  | _ => Circ.answer ⟨s.shard, .value [], .done (s.repl.apply p.cmd).2⟩ (ofPend p)

/-- **C136.** The commands that are executed without an error, in every state of a shard: the broker is
told what the shard reports (`Sys.apply`, C85 and others). -/
theorem C136_executed_partial (s : Sys) (p : Pend) (log : List Pend) (hl : s.log = p :: log)
    (he : (s.repl.apply p.cmd).2 = none) :
    ∃ r e, s.apply.2.reply = some (r, e) ∧ (ofPend p).tell (executed s p) = some (.result e) := by
  cases p <;>
    simp [Sys.apply, hl, he, afterCmd, executed, continued, Circ.answer, ofPend, Raft.callback,
      Ask.tell]

/-- **C136**, not met: a broker whose commit is executed when the ticket is not recorded ends, however
it came to that. -/
theorem C136_commit_violated (s : Sys) (t : Tn) (h : s.repl.tickets.lookup t = none) :
    (ofPend (.commit t)).tell (executed s (.commit t)) = none := by
  simp [executed, ofPend, Pend.cmd, RState.apply, h, Circ.answer, continued, Raft.callback,
    Response.ofCode, Ask.tell]

/-- **C136.** These are the only commands that are executed with an error. -/
theorem C136_only_commit (s : RState) (p : Pend) (h : (s.apply p.cmd).2 ≠ none) :
    ∃ t, p = .commit t ∧ s.tickets.lookup t = none := by
  cases p with
  | prepare t b u =>
    exfalso
    apply h
    simp only [Pend.cmd, RState.apply]
    split <;> rfl
  | commit t =>
    refine ⟨t, rfl, ?_⟩
    cases hl : s.tickets.lookup t with
    | none => rfl
    | some r => simp [Pend.cmd, RState.apply, hl] at h
  | rollback t => simp [Pend.cmd, RState.apply] at h
  | finish t => simp [Pend.cmd, RState.apply] at h

/-! ### Concrete cases -/

/-- Events of a shard one after another. -/
def play (s : Sys) : List Event → Option Sys
  | [] => some s
  | e :: es =>
    match s.step e with
    | none => none
    | some (s', _) => play s' es

/-- A ticket takes a write lock and is prepared, committed and finished; the commit is asked for
once more. -/
def again : Option Sys :=
  play {} [.request (.tryLock 1 7 [5] .write true 0), .request (.prepare 1 7 [([5], [9])]), .apply,
    .request (.commit 1), .apply, .request (.finish 1), .apply, .request (.commit 1)]

/-- The repeated commit ends the broker. -/
example : ∃ s, again = some s ∧ s.log = [.commit 1] ∧ s.repl.tickets.lookup 1 = none ∧
    (ofPend (.commit 1)).tell (executed s (.commit 1)) = none := by
  refine ⟨(again.get (by decide +kernel)), ?_, ?_, ?_, ?_⟩
  · simp
  · decide +kernel
  · decide +kernel
  · exact C136_commit_violated _ _ (by decide +kernel)

/-- The same up to the first commit. -/
def first : Option Sys :=
  play {} [.request (.tryLock 1 7 [5] .write true 0), .request (.prepare 1 7 [([5], [9])]), .apply,
    .request (.commit 1)]

/-- The first commit was told to the broker. -/
example : ∃ s, first = some s ∧ s.log = [.commit 1] ∧ (s.repl.apply (.commit 1)).2 = none ∧
    (ofPend (.commit 1)).tell (executed s (.commit 1)) = some (.result none) := by
  refine ⟨first.get (by decide +kernel), by simp, by decide +kernel, by decide +kernel, ?_⟩
  obtain ⟨r, e, h1, h2⟩ := C136_executed_partial (first.get (by decide +kernel)) (.commit 1) []
    (by decide +kernel) (by decide +kernel)
  have he : (first.get (by decide +kernel)).apply.2.reply = some (.commit 1, none) := by
    decide +kernel
  rw [he] at h1
  cases h1
  exact h2

/-- Through the RPC layer: a shard that is not the leader is asked to finish a ticket, and the broker
that asked ends; one that was asked for a lock is told. -/
example : ∃ (tr : Nat → List (Rpc.Event Ask Response)) (s : Rpc.Sys Ask Response),
    Rpc.SysReach tr s ∧ ByCode s ∧ (s.clients 0).runs = [(0, none)] ∧
    (s.clients 1).runs = [(0, some (.lock (.value [3])))] ∧
    (Ask.finish 1).tell none = none := by
  obtain ⟨tr, h⟩ := Rpc.sysPlay_reach (.init : Rpc.SysReach (Q := Ask) (P := Response) _ _)
    [.connect 0 5, .connect 1 5,
     .client 0 (.start .async (.finish 1)), .client 0 (.register 0), .send 0 0 0,
     .client 1 (.start .async (.tryLock 2 [4])), .client 1 (.register 0), .send 1 0 1,
     .handle 0, .handle 0, .answer 1 (some (.lock (.value [3]))), .answer 0 none,
     .deliver 1, .deliver 0, .client 0 (.run 0), .client 1 (.run 0)] rfl
  refine ⟨tr, _, h, ?_, rfl, rfl, rfl⟩
  intro j p hp job hj
  have hp' : (j, p) ∈ ([(0, none), (1, some (.lock (.value [3])))] : List (Nat × Option Response)) ∨
      (j, p) ∈ ([(1, some (.lock (.value [3]))), (0, none)] : List (Nat × Option Response)) := by
    first
      | exact .inl hp
      | exact .inr hp
  have hp'' : (j = 0 ∧ p = none) ∨ (j = 1 ∧ p = some (.lock (.value [3]))) := by
    rcases hp' with hp' | hp' <;> simp at hp' <;> rcases hp' with ⟨a, b⟩ | ⟨a, b⟩ <;> simp [a, b]
  rcases hp'' with ⟨rfl, rfl⟩ | ⟨rfl, rfl⟩
  · cases hj
    exact ⟨⟨{}, .value [], .refused⟩, rfl⟩
  · cases hj
    exact ⟨⟨{}, .value [3], .refused⟩, rfl⟩

end Verif.Parsec.Told
