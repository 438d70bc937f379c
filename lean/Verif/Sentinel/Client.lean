import Verif.Rpc.SystemProps

/-!
# The client of a sentinel (C137)

Model of `src/uhs/sentinel/client.cpp`, which wallets and other sentinels use, with the dispatch of the
two servers (`src/uhs/atomizer/sentinel/server.cpp`, `src/uhs/twophase/sentinel_2pc/server.cpp`). The
transactions `T`, the outcomes `E` and the attestations `V` are left open; the RPC layer is that of
C75.
-/
namespace Verif.Sentinel.Client

variable {T E V : Type}

/-- `request` (src/uhs/sentinel/interface.hpp:49, 61-70). -/
inductive Ask (T : Type) where
  | execute (tx : T)
  | validate (tx : T)
  deriving DecidableEq

/-- `response` (src/uhs/sentinel/interface.hpp:52-59, 66, 73). -/
inductive Resp (E V : Type) where
  | execute (r : E)
  | validate (a : V)
  deriving DecidableEq

/-- What a sentinel's controller answers to one request: an outcome of an execution and an attestation,
`none` for `nullopt` (src/uhs/atomizer/sentinel/controller.cpp:86-127,
src/uhs/twophase/sentinel_2pc/controller.cpp:98-155). -/
structure Controller (T E V : Type) where
  execute : T → Option E
  validate : T → Option V

/-- `server::handle_request` (src/uhs/atomizer/sentinel/server.cpp:37-59) and the handler of the
two-phase sentinel (src/uhs/twophase/sentinel_2pc/server.cpp:15-30). -/
def Controller.answer (k : Controller T E V) : Ask T → Option (Resp E V)
  | .execute tx => (k.execute tx).map .execute
  | .validate tx => (k.validate tx).map .validate

/-- How a call ends for the one who made it. -/
inductive Told (E V : Type) where
  | executed (r : Option E)
  | validated (a : Option V)
  /-- `std::bad_variant_access`, in the thread that handles packets or in that of the caller -/
  | throws
  deriving DecidableEq

/-- The four calls of the client (src/uhs/sentinel/client.cpp:27-70). -/
def Ask.tell : Ask T → Option (Resp E V) → Told E V
  | .execute _, none => .executed none
  | .execute _, some (.execute r) => .executed (some r)
  | .execute _, some (.validate _) => .throws
  | .validate _, none => .validated none
  | .validate _, some (.validate a) => .validated (some a)
  | .validate _, some (.execute _) => .throws

/-! ### Specification -/

/-- What the one who asks expects to be told by a sentinel. -/
def expects (k : Controller T E V) : Ask T → Told E V
  | .execute tx => .executed (k.execute tx)
  | .validate tx => .validated (k.validate tx)

/-- The sentinel numbered `srv` answers by its code: each answer it gave is that of its controller at
that moment, or `nullopt`, which the RPC server says when a handler fails. -/
def Honest (s : Rpc.Sys (Ask T) (Resp E V)) (srv : Nat) : Prop :=
  ∀ j p, (j, p) ∈ s.answers → ∀ job, s.jobs[j]? = some job → job.server = srv →
    ∃ k : Controller T E V, p = k.answer job.req

/-- Client `c` is connected to the sentinel `srv` only. -/
def Only (s : Rpc.Sys (Ask T) (Resp E V)) (c srv : Nat) : Prop :=
  ∀ conn ∈ s.conns, conn.client = c → conn.server = srv

/-! ### The property -/

/-- **C137.** Of a client of an honest sentinel, in every execution of clients, servers (which may be of
any kind) and connections: a callback that runs tells what the sentinel's controller said to that very
transaction. What is missing: the sentinel may be dishonest, see `C137_other_kind_violated`. -/
theorem C137_callback_partial (tr : Nat → List (Rpc.Event (Ask T) (Resp E V)))
    (s : Rpc.Sys (Ask T) (Resp E V)) (h : Rpc.SysReach tr s) (c srv n : Nat)
    (ho : Only s c srv) (hs : Honest s srv) (hb : (s.clients c).calls.length ≤ 2 ^ 64)
    (p : Option (Resp E V)) (hr : (n, p) ∈ (s.clients c).runs) :
    ∃ (call : Rpc.Call (Ask T) (Resp E V)) (k : Controller T E V),
      (s.clients c).calls[n]? = some call ∧ call.req.tell p = expects k call.req := by
  obtain ⟨call, j, job, conn, h1, h2, h3, h4, h5, h6, h7⟩ := Rpc.C75_callback tr s h c n hb p hr
  obtain ⟨k, hk⟩ := hs j p h7 job h2 (h5 ▸ ho conn (List.mem_of_getElem? h3) h4)
  refine ⟨call, k, h1, ?_⟩
  rw [h6] at hk
  subst hk
  cases hq : call.req with
  | execute tx => cases he : k.execute tx <;> simp [Controller.answer, expects, Ask.tell, he]
  | validate tx => cases he : k.validate tx <;> simp [Controller.answer, expects, Ask.tell, he]

/-- **C137.** The same for a call that waits; one that is given up is told nothing. -/
theorem C137_returned_partial (tr : Nat → List (Rpc.Event (Ask T) (Resp E V)))
    (s : Rpc.Sys (Ask T) (Resp E V)) (h : Rpc.SysReach tr s) (c srv n : Nat)
    (ho : Only s c srv) (hs : Honest s srv) (hb : (s.clients c).calls.length ≤ 2 ^ 64)
    (call : Rpc.Call (Ask T) (Resp E V)) (hc : (s.clients c).calls[n]? = some call)
    (p : Resp E V) (hr : call.phase = .returned (.value (some p))) :
    ∃ k : Controller T E V, call.req.tell (some p) = expects k call.req := by
  obtain ⟨call', j, job, conn, h1, h2, h3, h4, h5, h6, h7⟩ :=
    Rpc.C75_returned tr s h c n hb call p hc hr
  rw [hc] at h1
  cases h1
  obtain ⟨k, hk⟩ := hs j _ h7 job h2 (h5 ▸ ho conn (List.mem_of_getElem? h3) h4)
  refine ⟨k, ?_⟩
  rw [h6] at hk
  rw [hk]
  cases hq : call.req with
  | execute tx => cases he : k.execute tx <;> simp [Controller.answer, expects, Ask.tell, he]
  | validate tx => cases he : k.validate tx <;> simp [Controller.answer, expects, Ask.tell, he]

/-- **C137**, not met: for any transaction a sentinel is asked to attest there is an execution in which
it answers with an outcome instead, and the callback of the sentinel that asked throws, which ends that
sentinel's process: one sentinel can stop those that ask it. -/
theorem C137_other_kind_violated (tx : T) (r : E) :
    ∃ (tr : Nat → List (Rpc.Event (Ask T) (Resp E V))) (s : Rpc.Sys (Ask T) (Resp E V))
      (call : Rpc.Call (Ask T) (Resp E V)) (p : Option (Resp E V)),
      Rpc.SysReach tr s ∧ Only s 0 5 ∧ (s.clients 0).calls[0]? = some call ∧
      call.req = .validate tx ∧ (0, p) ∈ (s.clients 0).runs ∧ call.req.tell p = .throws := by
  obtain ⟨tr, h⟩ := Rpc.sysPlay_reach (.init : Rpc.SysReach (Q := Ask T) (P := Resp E V) _ _)
    [.connect 0 5, .client 0 (.start .async (.validate tx)), .client 0 (.register 0), .send 0 0 0,
     .handle 0, .answer 0 (some (.execute r)), .deliver 0, .client 0 (.run 0)] rfl
  refine ⟨tr, _, _, some (.execute r), h, ?_, rfl, rfl, List.mem_singleton.mpr rfl, rfl⟩
  intro conn hc _
  have hc' : conn ∈ [Rpc.Conn.mk 0 5 0 true] := hc
  simp at hc'
  rw [hc']

/-! ### Concrete case -/

/-- A sentinel that attests even transactions, and a client that asks it about two. -/
example : ∃ (tr : Nat → List (Rpc.Event (Ask Nat) (Resp Nat Nat)))
    (s : Rpc.Sys (Ask Nat) (Resp Nat Nat)),
    Rpc.SysReach tr s ∧ Only s 0 5 ∧ Honest s 5 ∧
    (s.clients 0).runs = [(0, some (.validate 9)), (1, none)] ∧
    (Ask.validate 4).tell (some (.validate 9 : Resp Nat Nat)) = .validated (some 9) ∧
    (Ask.validate 3).tell (none : Option (Resp Nat Nat)) = .validated none := by
  obtain ⟨tr, h⟩ := Rpc.sysPlay_reach (.init : Rpc.SysReach (Q := Ask Nat) (P := Resp Nat Nat) _ _)
    [.connect 0 5, .client 0 (.start .async (.validate 4)), .client 0 (.register 0), .send 0 0 0,
     .handle 0, .answer 0 (some (.validate 9)), .deliver 0, .client 0 (.run 0),
     .client 0 (.start .async (.validate 3)), .client 0 (.register 1), .send 0 1 0,
     .handle 0, .answer 1 none, .deliver 0, .client 0 (.run 0)] rfl
  refine ⟨tr, _, h, ?_, ?_, rfl, rfl, rfl⟩
  · intro conn hc _
    have hc' : conn ∈ [Rpc.Conn.mk 0 5 0 true] := hc
    simp at hc'
    rw [hc']
  · intro j p hp job hj _
    refine ⟨⟨fun _ => none, fun t => if t % 2 = 0 then some 9 else none⟩, ?_⟩
    have hp' : (j = 0 ∧ p = some (.validate 9)) ∨ (j = 1 ∧ p = none) := by
      have hp1 : (j, p) ∈ ([(0, some (.validate 9)), (1, none)] :
          List (Nat × Option (Resp Nat Nat))) := by
        exact hp
      simp at hp1
      exact hp1
    rcases hp' with ⟨rfl, rfl⟩ | ⟨rfl, rfl⟩ <;> cases hj <;> rfl

end Verif.Sentinel.Client
