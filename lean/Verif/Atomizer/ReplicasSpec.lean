import Verif.Atomizer.Replicas
import Verif.LockingShard.ClusterProps

/-! Specification for C122: a single atomizer that is given the agreed entries. -/
namespace Verif.Atomizer.Replicas

open Verif.LockingShard.Cluster (single)

/-- A single atomizer after the entries of `L`: its state and its answers. -/
def alone (depth : Nat) (L : List (Option Req)) : Option (SM × List (Option (Option Resp))) :=
  single (machine depth) (SM.new depth) L

/-- Two atomizers that answer alike: only the count of notifications may differ (C22). -/
def Same (s t : SM) : Prop := s.atm = t.atm ∧ s.blocks = t.blocks

/-- The entries are numbered with 64 bits, and what a single atomizer holds at any time fits the lengths in a file. -/
structure Small (depth : Nat) (L : List (Option Req)) : Prop where
  len : L.length < 2 ^ 64
  fits : ∀ k x rs, alone depth (L.take k) = some (x, rs) → x.Fits

end Verif.Atomizer.Replicas
