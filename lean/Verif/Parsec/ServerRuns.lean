import Verif.Parsec.ServerProps
import Verif.Parsec.CommitRuns

/-!
# C86: runs of two agents with one broker and two shards

Concrete runs that meet the hypotheses of the theorems.
-/
namespace Verif.Parsec.Broker.Server

/-- The bytes of keys and values. -/
def bytes (k : Nat) : Key := [k.toUInt8]

/-- Functions are one byte long, so the agents need no lock for them. -/
def plainCfg : Nat → Agent.Config := fun _ => { key := 0, size := 1, initialWrite := false, readonly := false }

/-- `Req.Is`, computed. -/
def isReq (j : Nat) : Req → Event → Bool
  | .ask t _ _, .tryLock cb t' _ => cb = j && t' = t
  | .find t k w, .foundKey cb t' k' ty _ _ => cb = j && t' = t && k' = bytes k && ty = (if w then .write else .read)
  | .commit t u, .commit cb t' u' _ => cb = j && t' = t && u' = enc bytes bytes u
  | .finish t, .finish cb t' _ => cb = j && t' = t
  | .rollback t, .rollback cb t' _ => cb = j && t' = t
  | _, _ => false

theorem isReq_sound {j : Nat} {q : Req} {e : Event} (h : isReq j q e = true) : q.Is bytes bytes j e := by
  cases q <;> cases e <;> simp [isReq] at h
  · obtain ⟨rfl, rfl⟩ := h; exact ⟨_, rfl⟩
  · obtain ⟨⟨⟨rfl, rfl⟩, rfl⟩, rfl⟩ := h; exact ⟨_, _, rfl⟩
  · obtain ⟨⟨rfl, rfl⟩, rfl⟩ := h; exact ⟨_, rfl⟩
  · obtain ⟨rfl, rfl⟩ := h; exact ⟨_, rfl⟩
  · obtain ⟨rfl, rfl⟩ := h; exact ⟨_, rfl⟩

/-- `Delivers`, computed. -/
def delivers : Said → Agent.Event → Bool
  | .begin _ (.ok n), e => e = .begun (some n)
  | .begin _ (.error _), e => e = .begun none
  | .lock _ _ (.ok _), .locked _ (.value _) => true
  | .lock _ _ (.error _), .locked _ .wounded => true
  | .commit _ _ none, e => e = .committed .ok
  | .commit _ _ (some _), .committed r => r ≠ .ok
  | .rollback _ _ r, e => e = .rolledBack r.isNone
  | .finish _ _ r, e => e = .finished r.isNone
  | _, _ => false

theorem delivers_sound {x : Said} {e : Agent.Event} (h : delivers x e = true) : Delivers x e := by
  unfold delivers at h
  split at h
  · simpa [Delivers] using h
  · simpa [Delivers] using h
  · exact ⟨_, _, rfl⟩
  · exact ⟨_, _, rfl, fun v hv => by cases hv⟩
  · simpa [Delivers] using h
  · exact ⟨_, rfl, of_decide_eq_true h⟩
  · simpa [Delivers] using h
  · simpa [Delivers] using h
  · cases h

/-- Steps of a run. -/
inductive Act
  | alone (j : Nat) (e : Agent.Event)
  | told (j : Nat) (e : Agent.Event)
  | call (j : Nat) (e : Event)
  | answer (e : Event)
  | serve (i : Nat)

/-- The agent has not ended the process. -/
def alive (tr : Agent.Trace) : Bool := tr.all fun x => !x.2.contains .crash

theorem alive_sound {tr : Agent.Trace} (h : alive tr = true) : Agent.Alive tr := by
  simp only [alive, List.all_eq_true, Bool.not_eq_true'] at h
  intro x hx hc
  have := h x hx
  simp at this
  exact this hc

/-- The ticket numbers of the broker. -/
def mine (t : Tn) : Prop := t = 7 ∨ t = 8

def mineNumber : Event → Bool
  | .ticketNumber _ (some (t, _)) => t = 7 || t = 8
  | _ => true

/-- One step of a run. -/
def Server.act (S : Server) : Act → Option Server
  | .alone j e =>
    if alive (S.tr j) && (S.todo j).isEmpty && spontaneous e then some (S.agent (plainCfg j) j {} e (S.inbox j)) else none
  | .told j e =>
    match S.inbox j with
    | x :: r =>
      if alive (S.tr j) && (S.todo j).isEmpty && delivers x e then some (S.agent (plainCfg j) j {} e r) else none
    | [] => none
  | .call j e =>
    match S.todo j with
    | q :: rest =>
      if isReq j q e then
        match step S.w.b e with
        | some (s, o) => some { S.event e s o with todo := put S.todo j (q.then ++ rest) }
        | none => none
      else none
    | [] => none
  | .answer e =>
    if isAnswer e && plain S.w.h e && justified S.w e && mineNumber e then
      match step S.w.b e with
      | some (s, o) => some (S.event e s o)
      | none => none
    else none
  | .serve i =>
    match S.w.net i with
    | [] => none
    | r :: rest =>
      match r.call.op 0 with
      | none => none
      | some op =>
        match exec (S.w.shard i) op with
        | some (s, o) => some { S with w := S.w.serve i r rest s o }
        | none => none

theorem act_sound {S S' : Server} {a : Act} (h : S.act a = some S') : S.Step plainCfg bytes bytes 0 mine S' := by
  cases a with
  | alone j e =>
    simp only [Server.act] at h
    split at h
    · rename_i hc
      simp only [Bool.and_eq_true, List.isEmpty_iff] at hc
      rw [← Option.some.inj h]
      exact .alone (alive_sound hc.1.1) hc.1.2 hc.2
    · cases h
  | told j e =>
    simp only [Server.act] at h
    split at h
    · rename_i x r hi
      split at h
      · rename_i hc
        simp only [Bool.and_eq_true, List.isEmpty_iff] at hc
        rw [← Option.some.inj h]
        exact .told (l := []) (alive_sound hc.1.1) hc.1.2 hi (delivers_sound hc.2)
      · cases h
    · cases h
  | call j e =>
    simp only [Server.act] at h
    split at h
    · rename_i q rest ht
      split at h
      · rename_i hc
        split at h
        · rename_i s o hs
          rw [← Option.some.inj h]
          exact .call ht (isReq_sound hc) hs
        · cases h
      · cases h
    · cases h
  | answer e =>
    simp only [Server.act] at h
    split at h
    · rename_i hc
      simp only [Bool.and_eq_true] at hc
      split at h
      · rename_i s o hs
        rw [← Option.some.inj h]
        refine .answer hc.1.1.1 (plain_sound hc.1.1.2) (justified_sound hc.1.2) ?_ hs
        rintro cb t m rfl
        simpa [mineNumber, mine] using hc.2
      · cases h
    · cases h
  | serve i =>
    simp only [Server.act] at h
    split at h
    · cases h
    · rename_i r rest hn
      split at h
      · cases h
      · rename_i op hop
        split at h
        · rename_i s o he
          rw [← Option.some.inj h]
          exact .serve hn hop he
        · cases h

/-- A whole run. -/
def Server.acts : Server → List Act → Option Server
  | S, [] => some S
  | S, a :: as =>
    match S.act a with
    | some S' => Server.acts S' as
    | none => none

theorem acts_sound (as : List Act) : ∀ {S S' : Server}, Reaches plainCfg bytes bytes 2 0 mine S →
    S.acts as = some S' → Reaches plainCfg bytes bytes 2 0 mine S' := by
  induction as with
  | nil =>
    intro S S' hr h
    rw [← Option.some.inj h]
    exact hr
  | cons a as ih =>
    intro S S' hr h
    simp only [Server.acts] at h
    split at h
    · rename_i S1 h1
      exact ih (hr.step (act_sound h1)) h
    · cases h

theorem newServer_reaches : Reaches plainCfg bytes bytes 2 0 mine { w := twoFresh } :=
  .start ⟨rfl, rfl, fun _ => rfl, fun _ => rfl, fun _ => fresh_reach, fun _ _ _ => rfl⟩

/-- The state after a run. -/
def Server.after (as : List Act) : Server := (Server.acts { w := twoFresh } as).getD { w := twoFresh }

theorem reaches_after (as : List Act) : Reaches plainCfg bytes bytes 2 0 mine (Server.after as) := by
  unfold Server.after
  cases h : Server.acts { w := twoFresh } as with
  | none => exact newServer_reaches
  | some S => exact acts_sound as newServer_reaches h

/-- Agent `j` is given the number `t` and its runner gets locks for keys 1 and 2. -/
def getLocks (j t : Nat) : List Act :=
  [.alone j .exec, .answer (.ticketNumber j (some (t, 9))), .told j (.begun (some t)),
   .alone j (.request 0 0 1 true), .call j (.tryLock j t true), .call j (.foundKey j t [1] .write (some 0) true),
   .serve 0, .answer (.locked j t [1] 0 (.value [])), .told j (.locked (.runner 0 0) (.value 0)),
   .alone j (.request 0 1 2 true), .call j (.tryLock j t true), .call j (.foundKey j t [2] .write (some 1) true),
   .serve 1, .answer (.locked j t [2] 1 (.value [])), .told j (.locked (.runner 0 1) (.value 0))]

/-- The runner is done, the shards prepare, commit and finish. -/
def toTheEnd (j t : Nat) : List Act :=
  [.alone j (.ran (.ok [(1, 11), (2, 21)])), .call j (.commit j t [([1], [11]), ([2], [21])] none),
   .serve 0, .serve 1, .answer (.prepared ⟨j, false⟩ t 0 none none), .answer (.prepared ⟨j, false⟩ t 1 none none),
   .serve 1, .serve 0, .answer (.committed ⟨j, false⟩ t 1 none none), .answer (.committed ⟨j, false⟩ t 0 none none),
   .told j (.committed .ok), .call j (.finish j t none),
   .serve 0, .serve 1, .answer (.finished ⟨j, false⟩ t 0 none), .answer (.finished ⟨j, false⟩ t 1 none),
   .told j (.finished true)]

/-- The runner fails, the shards roll back. -/
def giveUp (j t : Nat) (res : Agent.RunRes) : List Act :=
  [.alone j (.ran res), .call j (.rollback j t none),
   .serve 0, .serve 1, .answer (.rolledBack ⟨j, false⟩ t 1 none none), .answer (.rolledBack ⟨j, false⟩ t 0 none none),
   .told j (.rolledBack true)]

/-- Success was reported. -/
def happy : Server := Server.after (getLocks 3 7 ++ toTheEnd 3 7)

theorem happy_reaches : Reaches plainCfg bytes bytes 2 0 mine happy := reaches_after _

/-- `C86_success` applies to `happy`. -/
example : ((happy.tr 3).any fun x => x.2.contains (.result (.ok [(1, 11), (2, 21)]))) = true := by decide +kernel
example : (happy.w.shard 0).value [1] = [11] ∧ (happy.w.shard 1).value [2] = [21] := by decide +kernel

/-- The first of two agents was asked to try again; the other one was given its number. -/
def sad : Server := Server.after (getLocks 3 7 ++ giveUp 3 7 .wounded ++
  [.alone 4 .exec, .answer (.ticketNumber 4 (some (8, 9))), .told 4 (.begun (some 8))])

/-- `C86_failure` applies to `sad`. -/
example : ∃ e o tl, sad.tr 3 = [] ++ (e, o) :: tl ∧ Agent.Out.result (.error .retry) ∈ o :=
  ⟨_, _, _, rfl, by decide +kernel⟩
example : (sad.w.h.any fun x => match x.1 with
    | .ticketNumber 3 (some (7, _)) => true
    | _ => false) = true := by decide +kernel

/-- The function failed for good: the agent finishes after the rollback, and
`C86_failure` applies. -/
def gone : Server := Server.after (getLocks 3 7 ++ giveUp 3 7 .failed ++
  [.call 3 (.finish 3 7 none), .told 3 (.finished true)])

example : ∃ e o tl, gone.tr 3 = [] ++ (e, o) :: tl ∧ Agent.Out.result (.error .functionExecution) ∈ o :=
  ⟨_, _, _, rfl, by decide +kernel⟩

/-- It is run again, with the same number, and succeeds. -/
def retried : Server := Server.after (getLocks 3 7 ++ giveUp 3 7 .wounded ++
  [.alone 3 .exec,
   .call 3 (.tryLock 3 7 true), .call 3 (.foundKey 3 7 [1] .write (some 0) true),
   .call 3 (.tryLock 3 7 true), .call 3 (.foundKey 3 7 [2] .write (some 1) true),
   .serve 0, .answer (.locked 3 7 [1] 0 (.value [])), .told 3 (.locked (.again 0) (.value 0)),
   .serve 1, .answer (.locked 3 7 [2] 1 (.value [])), .told 3 (.locked (.again 0) (.value 0))] ++ toTheEnd 3 7)

example : ((retried.tr 3).any fun x => x.2.contains (.result (.ok [(1, 11), (2, 21)]))) = true := by decide +kernel

/-- After the commit, before the shards are asked to finish: `C86_finishing` applies. -/
def nearly : Server := Server.after (getLocks 3 7 ++ (toTheEnd 3 7).take 12)

example : (nearly.ag 3).state = .finishSent ∧ (nearly.ag 3).ticket = some 7 := by decide +kernel

/-- `C86_atomic` applies between the two commits. -/
def oneSided : Server := Server.after (getLocks 3 7 ++ (toTheEnd 3 7).take 7)

example : Committed oneSided.w 1 7 ∧ Touched 7 oneSided.w.h 0 ∧ ¬Committed oneSided.w 0 7 := by
  refine ⟨?_, ⟨[1], .write, true, 3, by decide +kernel⟩, not_committed (by decide +kernel)⟩
  obtain ⟨a, h1, h2, h3⟩ := mem_served (w := oneSided.w) (i := 1) (c := .commit 1 7 ⟨3, false⟩) (by decide +kernel)
  exact ⟨a, h1, ⟨_, _, h2⟩, h3⟩

end Verif.Parsec.Broker.Server
