import Verif.Parsec.BrokerInv

/-!
# Specification: the locks a PArSEC broker reports (C126)
-/
namespace Verif.Parsec.Broker

/-- In the current attempt shard `i` was asked for a lock of this type and answered this request (which the
callback identifies) with the value. -/
def Granted (t : Tn) (h : Hist) (i : Nat) (k : Key) (ty : LockType) (v : Value) : Prop :=
  ∃ cb f, Asked t h (.tryLock i t k ty f cb) ∧ ∃ x ∈ attempt t h, x.1 = .locked cb t k i (.value v)

/-- Shard `i` answered the request with this callback. -/
def Replied (t : Tn) (h : Hist) (i : Nat) (k : Key) (cb : Nat) : Prop :=
  ∃ x ∈ attempt t h, ∃ r, x.1 = .locked cb t k i r

/-- A lock of one type allows what a lock of another does. -/
def Suffices (held wanted : LockType) : Prop := wanted = .read ∨ held = .write

/-- The user waits for the answer to a request for a lock before it makes another one for the same key; shards
answer each request once. -/
def Once (h : Hist) : Event → Prop
  | .foundKey _ t k _ _ _ => ∀ i ty f cb, Asked t h (.tryLock i t k ty f cb) → Replied t h i k cb
  | .locked cb t k i _ => ¬Replied t h i k cb
  | _ => True

/-- Runs of a broker with `n` shards for users that make one request for each key at a time. -/
inductive Disciplined (n : Nat) : Hist → State → Prop
  | start : Disciplined n [] { shards := n }
  | step {h : Hist} {s s' : State} {e : Event} {o : Out} (hr : Disciplined n h s)
      (hp : Plain h e) (ho : Once h e) (hs : step s e = some (s', o)) : Disciplined n ((e, o) :: h) s'

end Verif.Parsec.Broker
