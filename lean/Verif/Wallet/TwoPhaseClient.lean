import Verif.LockingShard.Model

/-!
# What a two-phase client asks the system (C132)

Model of `src/uhs/twophase/locking_shard/status_client.{hpp,cpp}` and of `send_mint_tx`, src/uhs/client/twophase_client.cpp:76-112.
-/
namespace Verif.Wallet.TwoPhaseClient

open Verif.Tx

/-- A shard cluster as its client sees it: its range, whether the client can connect when it is started, and what the cluster answers about an
identifier within the timeout, if it does. -/
structure Cluster where
  range : UInt8 × UInt8
  connects : Bool
  says : Hash → Option Bool

/-- `status_client::init`, src/uhs/twophase/locking_shard/status_client.cpp:28-35: which clients are connected.  The result is only
reported in the log, src/uhs/client/twophase_client.cpp:29-31. -/
def connected : List Cluster → List Bool
  | [] => []
  | c :: cs => if c.connects then true :: connected cs else false :: cs.map fun _ => false

/-- The loop of `make_request`, src/uhs/twophase/locking_shard/status_client.hpp:73-82.  A client that is not connected has nobody to send to, and
`call` returns nothing (src/util/rpc/tcp_client.hpp:127-138). -/
def request (x : Hash) : List (Cluster × Bool) → Option Bool
  | [] => none
  | (c, up) :: l => if LockingShard.inRange c.range x then (if up then c.says x else none) else request x l

/-- `check_unspent` and `check_tx_id` of a client that was started, src/uhs/twophase/locking_shard/status_client.cpp:37-45. -/
def check (cs : List Cluster) (x : Hash) : Option Bool := request x (cs.zip (connected cs))

/-- What comes of the request to the coordinator in `send_mint_tx`: whether it could be sent, and when, in milliseconds, it was answered with what. -/
structure Request where
  sent : Bool
  answer : Option (Nat × Option Bool)

/-- What `send_mint_tx` returns, whether the transaction was confirmed in the wallet, and whether the behaviour is undefined. -/
structure Mint where
  returned : Bool
  confirmed : Bool
  undefined : Bool
  deriving DecidableEq

/-- `send_mint_tx`, src/uhs/client/twophase_client.cpp:85-112.  The callback refers to `done`, a variable of the function, which has returned after
five seconds.  Simplification: that the callback runs in another thread than the wallet is used in is not modelled. -/
def sendMint (r : Request) : Mint :=
  if !r.sent then ⟨false, false, false⟩
  else
    match r.answer with
    | some (t, some true) => if t < 5000 then ⟨true, true, false⟩ else ⟨false, true, true⟩
    | _ => ⟨false, false, false⟩

/-! ### Asking the shards -/

/-- **C132.** A client is told nothing that a shard responsible for the identifier does not say. -/
theorem C132_told (cs : List Cluster) (x : Hash) (b : Bool) (h : check cs x = some b) :
    ∃ c ∈ cs, LockingShard.inRange c.range x = true ∧ c.says x = some b := by
  have key : ∀ (l : List (Cluster × Bool)), request x l = some b → ∃ p ∈ l, LockingShard.inRange p.1.range x = true ∧ p.1.says x = some b := by
    intro l
    induction l with
    | nil => exact fun h => nomatch h
    | cons p l ih =>
      intro h
      simp only [request] at h
      split at h
      · next hr =>
        split at h
        · exact ⟨p, by simp, hr, h⟩
        · exact nomatch h
      · obtain ⟨q, hq, h'⟩ := ih h
        exact ⟨q, List.mem_cons_of_mem _ hq, h'⟩
  obtain ⟨p, hp, h'⟩ := key _ h
  exact ⟨p.1, (List.of_mem_zip hp).1, h'⟩

theorem connected_all (cs : List Cluster) (h : ∀ c ∈ cs, c.connects = true) : connected cs = cs.map fun _ => true := by
  induction cs with
  | nil => rfl
  | cons c cs ih => simp [connected, h c (by simp), ih fun d hd => h d (List.mem_cons_of_mem _ hd)]

/-- **C132, partly.** If all shards could be connected to, a client is told what the one shard responsible for the identifier says.
What is missing: one shard that cannot be reached at the start keeps the others from being asked (`C132_start_violated`). -/
theorem C132_answer_partial (cs : List Cluster) (x : Hash) (c : Cluster) (hc : c ∈ cs) (hown : LockingShard.inRange c.range x = true)
    (hone : ∀ d ∈ cs, LockingShard.inRange d.range x = true → d = c) (hup : ∀ d ∈ cs, d.connects = true) : check cs x = c.says x := by
  unfold check
  rw [connected_all cs hup]
  clear hup
  induction cs with
  | nil => exact nomatch hc
  | cons d cs ih =>
    simp only [List.map_cons, List.zip_cons_cons, request, if_true]
    split
    · next hd => rw [hone d (by simp) hd]
    · next hd =>
      rcases List.mem_cons.mp hc with rfl | hc
      · exact absurd hown hd
      · exact ih hc (fun e he => hone e (List.mem_cons_of_mem _ he))

/-- Two shards, and an identifier of the second. -/
example : check [⟨(0, 127), true, fun _ => some false⟩, ⟨(128, 255), true, fun _ => some true⟩] ⟨List.replicate 32 200, rfl⟩ = some true := by decide

/-- **C132.** An identifier that no shard is responsible for gets no answer. -/
theorem C132_nobody (cs : List Cluster) (x : Hash) (h : ∀ c ∈ cs, LockingShard.inRange c.range x = false) : check cs x = none := by
  cases hx : check cs x with
  | none => rfl
  | some b =>
    obtain ⟨c, hc, hr, _⟩ := C132_told cs x b hx
    rw [h c hc] at hr
    exact nomatch hr

/-- **C132, violated.** If the first shard cannot be reached when the client starts, none is ever asked: the client is never told about
a payment, whatever the other shards would say. -/
theorem C132_start_violated (c : Cluster) (cs : List Cluster) (hc : c.connects = false) (x : Hash) : check (c :: cs) x = none := by
  have key : ∀ l : List Cluster, request x (l.zip (l.map fun _ => false)) = none := by
    intro l
    induction l with
    | nil => rfl
    | cons d l ih =>
      simp only [List.map_cons, List.zip_cons_cons, request, Bool.false_eq_true, if_false]
      split
      · rfl
      · exact ih
  have : connected (c :: cs) = (c :: cs).map fun _ => false := by simp [connected, hc]
  unfold check
  rw [this]
  exact key (c :: cs)

/-! ### Minting -/

/-- **C132.** `send_mint_tx` says true exactly if the coordinator said within five seconds that it executed the transaction, and then the wallet has the
coins; the wallet never has them unless the coordinator said so. -/
theorem C132_mint (r : Request) :
    ((sendMint r).returned = true ↔ r.sent = true ∧ ∃ t < 5000, r.answer = some (t, some true)) ∧
    ((sendMint r).returned = true → (sendMint r).confirmed = true ∧ (sendMint r).undefined = false) ∧
    ((sendMint r).confirmed = true → ∃ t, r.answer = some (t, some true)) := by
  obtain ⟨sent, answer⟩ := r
  cases sent with
  | false => simp [sendMint]
  | true =>
    rcases answer with _ | ⟨t, _ | _ | _⟩
    · simp [sendMint]
    · simp [sendMint]
    · simp [sendMint]
    · by_cases ht : t < 5000 <;> simp [sendMint, ht]

example : sendMint ⟨true, some (20, some true)⟩ = ⟨true, true, false⟩ := rfl

/-- **C132, violated.** An answer after five seconds finds the promise destroyed, and its behaviour is undefined; the caller was told that nothing
was minted though the coordinator executed the transaction. -/
theorem C132_late_violated (t : Nat) (ht : 5000 ≤ t) :
    (sendMint ⟨true, some (t, some true)⟩).returned = false ∧ (sendMint ⟨true, some (t, some true)⟩).undefined = true := by
  have : ¬ t < 5000 := by omega
  simp [sendMint, this]

end Verif.Wallet.TwoPhaseClient
