import Verif.Atomizer.Snapshot
import Verif.LockingShard.Cluster
import Verif.Config.File
/-!
# The replicas of an atomizer, with their snapshots on disk

Model of a cluster of atomizers: `src/uhs/atomizer/atomizer/state_machine.cpp` with the directory of
snapshots, over the state machine of `Model.lean` and the bytes of `Snapshot.lean`.

NuRaft is outside: it agrees on one list of entries, of which every replica executes one after the
other, beginning with the one after `last_commit_index`; it drops entries from the log of a replica only
up to a snapshot of that replica; it sends a replica that is behind the last snapshot of the
leader; its own record of a snapshot is read back as it was written.  A process that is
killed leaves its files as they are, with any part of what it was writing.
-/
namespace Verif.Atomizer.Replicas

open Verif.Serial
open Verif.Evm (Outcome)
open Verif.Hex (Text)
open Verif.Http (lit stoull)
open Verif.Config (dec)
open Verif.LockingShard.Cluster (Machine)

/-- The atomizer as a machine that is replicated (src/uhs/atomizer/atomizer/state_machine.cpp:42-104). -/
def machine (depth : Nat) : Machine SM Req (Option Resp) := ⟨SM.new depth, SM.commit⟩

/-! ### The directory -/

/-- A directory: names and contents. -/
abbrev Dir := List (Text × Bytes)

/-- `m_tmp_file` (src/uhs/atomizer/atomizer/state_machine.hpp:141). -/
def tmpName : Text := lit "tmp"

/-- The content of a file. -/
def Dir.content (d : Dir) (name : Text) : Option Bytes :=
  (List.find? (fun f => decide (f.1 = name)) d).map Prod.snd

/-- A file is written anew. -/
def Dir.write (d : Dir) (name : Text) (b : Bytes) : Dir :=
  List.filter (fun f => decide (f.1 ≠ name)) d ++ [(name, b)]

/-- `std::filesystem::rename`: a file that has the new name is replaced. -/
def Dir.rename (d : Dir) (a b : Text) : Dir :=
  match d.content a with
  | none => d
  | some x => List.filter (fun f => decide (f.1 ≠ a ∧ f.1 ≠ b)) d ++ [(b, x)]

/-- The largest number in the directory (src/uhs/atomizer/atomizer/state_machine.cpp:283-299).  A name
that is no number throws. -/
def newest (m : Nat) : Dir → Outcome Nat
  | [] => .ok m
  | f :: d =>
    if f.1 = tmpName then newest m d
    else stoull f.1 >>= fun i => newest (if m < i.toNat then i.toNat else m) d

/-- The record of NuRaft about a snapshot, `nuraft::snapshot::serialize` and `deserialize`
(src/uhs/atomizer/atomizer/format.cpp:24-53), of which only the index matters. -/
structure Codec where
  write : Nat → Bytes
  index : Bytes → Option Nat
  short : ∀ k, (write k).length ≤ maxBuf
  back : ∀ k, k < 2 ^ 64 → index (write k) = some k

/-- The index in a snapshot file.  `none` is an exit of the process
(src/uhs/atomizer/atomizer/state_machine.cpp:322-329). -/
def fileIndex (c : Codec) (b : Bytes) : Option Nat :=
  match dec' b with
  | some v => c.index v
  | none => none
where
  /-- The record in a snapshot file. -/
  dec' (b : Bytes) : Option Bytes :=
    match Serial.dec tSnapshot b with
    | .ok v _ => some v.1
    | _ => none

/-- Which file `read_snapshot` opens (src/uhs/atomizer/atomizer/state_machine.cpp:278-309). -/
def chosen (d : Dir) (idx : Nat) : Outcome (Option Nat) :=
  if idx = 0 then newest 0 d >>= fun m => .ok (if m = 0 then none else some m)
  else .ok (some idx)

/-- `read_snapshot` (src/uhs/atomizer/atomizer/state_machine.cpp:278-332): the index in the file, and the
file.  `refused` is an exit of the process. -/
def readSnapshot (c : Codec) (d : Dir) (idx : Nat) : Outcome (Option (Nat × Bytes)) :=
  chosen d idx >>= fun m =>
    match m with
    | none => .ok none
    | some m =>
      match d.content (dec m) with
      | none => if idx = 0 then .refused else .ok none
      | some b =>
        match fileIndex c b with
        | none => .refused
        | some i => .ok (some (i, b))

/-- `apply_snapshot` (src/uhs/atomizer/atomizer/state_machine.cpp:189-197). -/
def applySnapshot (c : Codec) (d : Dir) (s : SM) (idx : Nat) : Outcome (Option SM) :=
  readSnapshot c d idx >>= fun r =>
    match r with
    | none => .ok none
    | some r =>
      match s.restore r.2 with
      | none => .refused
      | some s' => .ok (some s')

/-- The constructor (src/uhs/atomizer/atomizer/state_machine.cpp:23-40): the state machine and
`m_last_committed_idx`. -/
def boot (c : Codec) (depth : Nat) (d : Dir) : Outcome (SM × Nat) :=
  readSnapshot c d 0 >>= fun r =>
    match r with
    | none => .ok (SM.new depth, 0)
    | some r =>
      applySnapshot c d (SM.new depth) r.1 >>= fun s =>
        match s with
        | none => .refused
        | some s => .ok (s, r.1)

/-- When a process that makes a snapshot is killed: never, after it has written so many bytes, or after the
file got its name and those old files are removed that are not to be kept. -/
inductive Cut
  | never
  | writing (k : Nat)
  | removing (keep : Text → Bool)

/-- Whether `create_snapshot` removes a file (src/uhs/atomizer/atomizer/state_machine.cpp:250-260).  (A name that
is no number throws; only numbers and `tmp` occur among what is written here.) -/
def isOld (idx : Nat) (name : Text) : Bool :=
  decide (name = tmpName) ||
    match stoull name with
    | .ok i => decide (i.toNat < idx)
    | _ => false

/-- `create_snapshot` on the directory (src/uhs/atomizer/atomizer/state_machine.cpp:209-264). -/
def Dir.create (d : Dir) (idx : Nat) (b : Bytes) : Cut → Dir
  | .writing k => d.write tmpName (b.take k)
  | .removing keep =>
    List.filter (fun f => keep f.1 || !isOld idx f.1) ((d.write tmpName b).rename tmpName (dec idx))
  | .never => List.filter (fun f => !isOld idx f.1) ((d.write tmpName b).rename tmpName (dec idx))

/-- When a process that receives a snapshot is killed: never, after it has written so many bytes, or after
the file got its name and the entries before it were dropped or not. -/
inductive Stop
  | never
  | writing (k : Nat)
  | saved (dropped : Bool)

/-! ### The cluster -/

/-- A process: the state machine, `m_last_committed_idx`, and the index of the last snapshot NuRaft knows. -/
structure Process where
  sm : SM
  applied : Nat
  snapped : Nat

/-- A replica: its directory of snapshots, the index up to which entries were dropped from its log, and
the process. -/
structure Replica where
  dir : Dir := []
  base : Nat := 0
  process : Option Process := none

/-- The agreed entries (`none` for a configuration), the replicas, and the answers with the place of the entry. -/
structure Sys where
  log : List (Option Req) := []
  replicas : Nat → Replica := fun _ => {}
  replies : List (Nat × Option (Option Resp)) := []

/-- What happens. -/
inductive Ev
  /-- The replicas agree on an entry. -/
  | agree (e : Option Req)
  /-- A replica executes its next entry, and tells the answer if it leads. -/
  | execute (n : Nat) (answers : Bool)
  /-- A replica makes a snapshot. -/
  | create (n : Nat) (cut : Cut)
  /-- A replica drops entries from its log. -/
  | drop (n : Nat) (k : Nat)
  /-- A leader sends its last snapshot to a replica that is behind it
  (src/uhs/atomizer/atomizer/state_machine.cpp:114-187). -/
  | install (leader n : Nat) (stop : Stop)
  /-- The process of a replica ends. -/
  | kill (n : Nat)
  /-- It starts. -/
  | start (n : Nat)

/-- A replica is replaced. -/
def Sys.set (s : Sys) (n : Nat) (r : Replica) : Sys :=
  { s with replicas := fun i => if i = n then r else s.replicas i }

/-- A replica executes its next entry (src/uhs/atomizer/atomizer/state_machine.cpp:42-112): the replica and the answer. -/
def Replica.execute (depth : Nat) (r : Replica) (p : Process) (e : Option Req) :
    Replica × Option (Option (Option Resp)) :=
  match (machine depth).commit p.sm e with
  | none => ({ r with process := none }, none)
  | some x => ({ r with process := some {
      sm := x.1
      applied := p.applied + 1
      snapped := p.snapped } }, some x.2)

/-- A replica makes a snapshot, after at least one entry
(src/uhs/atomizer/atomizer/state_machine.cpp:209-264). -/
def Replica.create (c : Codec) (r : Replica) (p : Process) (cut : Cut) : Replica :=
  if p.applied = 0 then r
  else {
    dir := r.dir.create p.applied (p.sm.snapshotFile (c.write p.applied)) cut
    base := r.base
    process := match cut with
      | .never => some { p with snapped := p.applied }
      | _ => none }

/-- A replica receives a snapshot (`save_logical_snp_obj`, the log is cut, `apply_snapshot`,
src/uhs/atomizer/atomizer/state_machine.cpp:149-197). -/
def Replica.install (c : Codec) (r : Replica) (p : Process) (idx : Nat) (b : Bytes) : Stop → Replica
  | .writing k => {
      dir := r.dir.write tmpName (b.take k)
      base := r.base }
  | .saved dropped => {
      dir := (r.dir.write tmpName b).rename tmpName (dec idx)
      base := if dropped then max r.base idx else r.base }
  | .never => {
      dir := (r.dir.write tmpName b).rename tmpName (dec idx)
      base := max r.base idx
      process :=
        match applySnapshot c ((r.dir.write tmpName b).rename tmpName (dec idx)) p.sm idx with
        | .ok (some sm) => some ⟨sm, idx, idx⟩
        | _ => none }

/-- A replica starts. -/
def Replica.start (c : Codec) (depth : Nat) (r : Replica) : Replica :=
  match boot c depth r.dir with
  | .ok x => { r with process := some ⟨x.1, x.2, x.2⟩ }
  | _ => r

/-- One event. -/
def step (c : Codec) (depth : Nat) (s : Sys) : Ev → Sys
  | .agree e => { s with log := s.log ++ [e] }
  | .execute n answers =>
    match (s.replicas n).process with
    | none => s
    | some p =>
      if p.applied < (s.replicas n).base then s
      else match s.log[p.applied]? with
        | none => s
        | some e =>
          let r := (s.replicas n).execute depth p e
          match r.2, answers with
          | some a, true => { s.set n r.1 with replies := s.replies ++ [(p.applied, a)] }
          | _, _ => s.set n r.1
  | .create n cut =>
    match (s.replicas n).process with
    | none => s
    | some p => s.set n ((s.replicas n).create c p cut)
  | .drop n k =>
    match (s.replicas n).process with
    | none => s
    | some p =>
      if p.snapped < k then s
      else s.set n { s.replicas n with base := max (s.replicas n).base k }
  | .install leader n stop =>
    match (s.replicas leader).process, (s.replicas n).process with
    | some p, some q =>
      if p.snapped ≤ q.applied then s
      else match (s.replicas leader).dir.content (dec p.snapped) with
        | none => s
        | some b => s.set n ((s.replicas n).install c q p.snapped b stop)
    | _, _ => s
  | .kill n => s.set n { s.replicas n with process := none }
  | .start n =>
    match (s.replicas n).process with
    | some _ => s
    | none => s.set n ((s.replicas n).start c depth)

/-- Events one after the other. -/
def run (c : Codec) (depth : Nat) (s : Sys) (evs : List Ev) : Sys := evs.foldl (step c depth) s

end Verif.Atomizer.Replicas
