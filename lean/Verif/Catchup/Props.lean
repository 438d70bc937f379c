import Verif.Catchup.Model

/-! Property C101: a shard that misses blocks catches up from the archiver. -/
namespace Verif.Catchup

open Verif.Tx Verif.Serial Verif.Atomizer
open Verif.Archiver (decodeBlock encodeBlock FitsB)

/-! ### Specification -/

/-- The first `n` blocks of a chain, `chain h` being the block with height `h`. -/
def blocksTo (chain : UInt64 → Block) (n : Nat) : List Block :=
  (List.range n).map fun i => chain (UInt64.ofNat (i + 1))

/-- A chain: the heights are right and the sizes fit the length prefixes. -/
structure IsChain (chain : UInt64 → Block) : Prop where
  height : ∀ h, (chain h).height = h
  fits : ∀ h, FitsB (chain h)

/-- A packet that is not a block, or is a block of the chain. -/
def HonestPacket (chain : UInt64 → Block) (p : Bytes) : Prop :=
  readPacket p = some none ∨ ∃ h : UInt64, h ≠ 0 ∧ readPacket p = some (some (chain h))

/-- Only such packets arrive, in any order, with repetitions and gaps. -/
def Honest (chain : UInt64 → Block) (es : List Ev) : Prop :=
  ∀ e ∈ es, match e with
    | .arrive p => HonestPacket chain p
    | .toArchiver p => HonestPacket chain p
    | _ => True

/-- The height of the block in a packet, 0 when there is none. -/
def packetHeight (p : Bytes) : Nat :=
  match readPacket p with
  | some (some b) => b.height.toNat
  | _ => 0

/-- The heights of the packets that reached the shard. -/
def heights (es : List Ev) : List Nat := es.filterMap fun e =>
  match e with
  | .arrive p => some (packetHeight p)
  | _ => none

/-- The shard is not restarted. -/
def Stays (es : List Ev) : Prop := ∀ e ∈ es, ∀ f, e ≠ .restartShard f

/-- Every packet has been handled. -/
def Done (s : State) : Prop := s.mode = .idle ∧ s.inbox = []

/-- The shard holds what the first blocks of the chain make of the seed, up to the height it reports, and so does the
snapshot that transactions are checked against. -/
def Agrees (chain : UInt64 → Block) (range : UInt8 × UInt8) (seed : Hash → Bool) (s : Shard) : Prop :=
  (∀ y, owns range y = true → (s.disk.coins y = true ↔
    Ledger.after (fun x => seed x = true) (txsOf (blocksTo chain s.best.toNat)) y)) ∧
  s.snap = s.disk.coins ∧ s.snapHeight = s.best ∧ s.disk.height = some s.best

/-! ### Proofs -/

theorem readPacket_encode (b : Block) (h : FitsB b) : readPacket (encodeBlock b) = some (some b) := by
  have hw : WF tBlock b.wire := ⟨u64_lt _, txs_wf h.1 h.2⟩
  have hr := roundtrip tBlock b.wire hw []
  rw [List.append_nil] at hr
  unfold readPacket encodeBlock fromBuffer makeBuffer
  rw [hr]
  show (Block.ofWire b.wire).map some = _
  rw [Block.ofWire_wire]
  rfl

theorem response_roundtrip (r : Option Block) (h : ∀ b ∈ r, FitsB b) :
    decodeResponse (encodeResponse r) = some r := by
  have hw : WF (.opt tBlock) (r.map Block.wire) := by
    intro v hv
    cases r with
    | none => cases hv
    | some b =>
      cases hv
      exact ⟨u64_lt _, txs_wf (h b rfl).1 (h b rfl).2⟩
  have hr := roundtrip (.opt tBlock) (r.map Block.wire) hw []
  rw [List.append_nil] at hr
  unfold decodeResponse encodeResponse fromBuffer makeBuffer
  rw [hr]
  cases r with
  | none => rfl
  | some b =>
    show (Block.ofWire b.wire).map some = _
    rw [Block.ofWire_wire]
    rfl

/-- The blocks an honest archiver stores. -/
def OfChain (chain : UInt64 → Block) (b : Block) : Prop := b = chain b.height

/-- What always holds. -/
structure Inv (chain : UInt64 → Block) (range : UInt8 × UInt8) (seed : Hash → Bool) (s : State) : Prop where
  shard : Holds range (Ledger.after (fun x => seed x = true) (txsOf (blocksTo chain s.shard.best.toNat)))
    s.shard.best.toNat s.shard
  archiver : Archiver.Inv (OfChain chain) s.archiver
  settled : Archiver.Settled s.archiver
  inbox : ∀ p ∈ s.inbox, HonestPacket chain p
  mode : match s.mode with
    | .idle => True
    | .digest b => OfChain chain b ∧ b.height ≠ 0
    | .fetch b i => OfChain chain b ∧ i = s.shard.best + 1 ∧ s.shard.best < b.height

/-- What the archiver answers. -/
theorem ask_spec {chain : UInt64 → Block} (hc : IsChain chain) {s : State}
    (ha : Archiver.Inv (OfChain chain) s.archiver) (h : UInt64) :
    s.ask h = some (if s.connected ∧ 1 ≤ h.toNat ∧ h.toNat ≤ s.archiver.best.toNat then some (chain h)
      else none) := by
  unfold State.ask
  cases hcon : s.connected with
  | false => simp
  | true =>
    simp only [if_true, true_and]
    by_cases hh : 1 ≤ h.toNat ∧ h.toNat ≤ s.archiver.best.toNat
    · obtain ⟨b, h1, h2, h3⟩ := ha.stored h hh.1 hh.2
      have hb : b = chain h := by rw [h3, h2]
      subst hb
      have hg : s.archiver.getBlock h = some (some (chain h)) := by
        simp [Archiver.State.getBlock, h1, Archiver.decode_encode _ (hc.fits h)]
      rw [hg, if_pos hh]
      exact response_roundtrip _ (by intro b hb; cases hb; exact hc.fits h)
    · have hg : s.archiver.getBlock h = some none := by
        simp [Archiver.State.getBlock, ha.above h (by omega)]
      rw [hg, if_neg hh]
      exact response_roundtrip _ (by intro b hb; cases hb)

theorem blocksTo_succ (chain : UInt64 → Block) (n : Nat) :
    txsOf (blocksTo chain (n + 1)) = txsOf (blocksTo chain n) ++ (chain (UInt64.ofNat (n + 1))).txs := by
  simp [blocksTo, txsOf, List.range_succ]

/-- Digesting the next block of the chain. -/
theorem digest_next {chain : UInt64 → Block} (hc : IsChain chain) {range : UInt8 × UInt8} {seed : Hash → Bool}
    {s : Shard} (hs : Holds range (Ledger.after (fun x => seed x = true) (txsOf (blocksTo chain s.best.toNat)))
      s.best.toNat s) {h : UInt64} (h0 : h ≠ 0) (hh : h = s.best + 1) :
    (s.digestBlock (chain h)).2 = true ∧ (s.digestBlock (chain h)).1.best = h ∧
      h.toNat = s.best.toNat + 1 ∧
      Holds range (Ledger.after (fun x => seed x = true) (txsOf (blocksTo chain h.toNat))) h.toNat
        (s.digestBlock (chain h)).1 := by
  have hn : h.toNat = s.best.toNat + 1 := by
    have h1 : h.toNat ≠ 0 := fun hz => h0 (UInt64.toNat_inj.mp hz)
    have h2 := s.best.toNat_lt
    rw [hh, UInt64.toNat_add] at h1 ⊢
    simp at h1 ⊢
    omega
  have hd : s.digestBlock (chain h) = (({ s with
      disk := ⟨applyTxs s.range s.disk.coins (chain h).txs, some (s.best + 1)⟩
      best := s.best + 1 } : Shard).updateSnapshot, true) := by
    simp [Shard.digestBlock, hc.height, hh]
  rw [hd]
  refine ⟨rfl, hh.symm, hn, hs.range, rfl, by rw [hh]; rfl, ?_, rfl, rfl⟩
  intro y hy
  show applyTxs s.range s.disk.coins (chain h).txs y = true ↔ _
  rw [hs.range, hn, blocksTo_succ, after_append]
  have : UInt64.ofNat (s.best.toNat + 1) = h := by rw [← hn]; exact UInt64.ofNat_toNat
  rw [this]
  exact applyTxs_spec range _ _ _ (fun z hz => hs.coins z hz) y hy

/-- Digesting another block. -/
theorem digest_other {s : Shard} {b : Block} (hh : b.height ≠ s.best + 1) : s.digestBlock b = (s, false) := by
  simp [Shard.digestBlock, hh]

/-- The height the shard will have when everything that has reached it is handled. -/
def due (s : State) : Nat :=
  (s.inbox.map packetHeight).foldl max (max s.shard.best.toNat (match s.mode with
    | .idle => 0
    | .digest b => b.height.toNat
    | .fetch b _ => b.height.toNat))

theorem foldl_max (l : List Nat) : ∀ a b : Nat, l.foldl max (max a b) = max a (l.foldl max b) := by
  induction l with
  | nil => intro a b; rfl
  | cons x l ih => intro a b; simp only [List.foldl_cons, Nat.max_assoc, ih]

theorem le_foldl_max (l : List Nat) : ∀ a : Nat, a ≤ l.foldl max a := by
  induction l with
  | nil => intro a; exact Nat.le_refl _
  | cons x l ih => intro a; exact Nat.le_trans (Nat.le_max_left _ _) (ih _)

/-- The steps left: four for each packet, what the block at hand needs, and one for each missing block. -/
def left (s : State) : Nat :=
  4 * s.inbox.length + (due s - s.shard.best.toNat) + (match s.mode with
    | .idle => 0
    | .digest b => if b.height.toNat ≤ s.shard.best.toNat + 1 then 1 else 3
    | .fetch _ _ => 2)

/-- One move of the thread keeps the invariant and the height to be reached; when the archiver has the blocks, it
leaves less to do. -/
theorem move_spec {chain : UInt64 → Block} (hc : IsChain chain) {range : UInt8 × UInt8} {seed : Hash → Bool}
    {s : State} (hi : Inv chain range seed s) :
    ∃ s', s.move = some s' ∧ Inv chain range seed s' ∧ due s' = due s ∧ s'.archiver = s.archiver ∧
      s'.connected = s.connected ∧ s.shard.best.toNat ≤ s'.shard.best.toNat ∧
      (s.connected = true → due s ≤ s.archiver.best.toNat + 1 → ¬ Done s → left s' + 1 ≤ left s) ∧
      (Done s → s' = s) := by
  obtain ⟨shard, mode, inbox, connected, arch⟩ := s
  have hmode := hi.mode
  cases mode with
  | idle =>
    cases inbox with
    | nil => exact ⟨_, rfl, hi, rfl, rfl, rfl, Nat.le_refl _, fun _ _ hd => absurd ⟨rfl, rfl⟩ hd, fun _ => rfl⟩
    | cons p ps =>
      have hin : ∀ q ∈ ps, HonestPacket chain q := fun q hq => hi.inbox q (List.mem_cons_of_mem _ hq)
      rcases hi.inbox p (by simp) with hp | ⟨h, h0, hp⟩
      · refine ⟨⟨shard, .idle, ps, connected, arch⟩, by simp [State.move, hp],
          ⟨hi.shard, hi.archiver, hi.settled, hin, trivial⟩, ?_, rfl, rfl, Nat.le_refl _, ?_, ?_⟩
        · simp [due, packetHeight, hp]
        · intro _ _ _
          simp [left, due, packetHeight, hp]
          omega
        · intro hd; exact absurd hd.2 (by simp)
      · have hdue : due ⟨shard, .digest (chain h), ps, connected, arch⟩ =
            due ⟨shard, .idle, p :: ps, connected, arch⟩ := by
          simp [due, packetHeight, hp]
        refine ⟨⟨shard, .digest (chain h), ps, connected, arch⟩, by simp [State.move, hp],
          ⟨hi.shard, hi.archiver, hi.settled, hin, ?_⟩, hdue, rfl, rfl, Nat.le_refl _, ?_, ?_⟩
        · show OfChain chain (chain h) ∧ _
          unfold OfChain
          simp only [hc.height]
          exact ⟨trivial, h0⟩
        · intro _ _ _
          unfold left
          rw [hdue]
          simp only [List.length_cons]
          split <;> omega
        · intro hd; exact absurd hd.2 (by simp)
  | digest b =>
    obtain ⟨hb, h0⟩ : OfChain chain b ∧ b.height ≠ 0 := hmode
    have hnd : ¬ Done (⟨shard, .digest b, inbox, connected, arch⟩ : State) := fun h => by simp [Done] at h
    by_cases hh : b.height = shard.best + 1
    · obtain ⟨d1, d2, d3, d4⟩ := digest_next hc hi.shard h0 hh
      have hbb : chain b.height = b := hb.symm
      rw [hbb] at d1 d2 d4
      have hdue : due ⟨(shard.digestBlock b).1, .idle, inbox, connected, arch⟩ =
          due ⟨shard, .digest b, inbox, connected, arch⟩ := by
        simp only [due, d2]
        congr 1
        simp only at d3
        omega
      refine ⟨⟨(shard.digestBlock b).1, .idle, inbox, connected, arch⟩, by simp [State.move, d1],
        ⟨by simpa only [d2] using d4, hi.archiver, hi.settled, hi.inbox, trivial⟩, hdue, rfl, rfl, ?_, ?_,
        fun h => absurd h hnd⟩
      · simp only [d2]; simp only at d3; omega
      · intro _ _ _
        unfold left
        rw [hdue]
        simp only [d2]
        simp only at d3
        rw [if_pos (by omega)]
        omega
    · have hd := digest_other hh
      by_cases hle : b.height ≤ shard.best
      · have hle' : b.height.toNat ≤ shard.best.toNat := hle
        have hdue : due ⟨shard, .idle, inbox, connected, arch⟩ =
            due ⟨shard, .digest b, inbox, connected, arch⟩ := by
          simp only [due]
          congr 1
          omega
        refine ⟨⟨shard, .idle, inbox, connected, arch⟩, by simp [State.move, hd, hle],
          ⟨hi.shard, hi.archiver, hi.settled, hi.inbox, trivial⟩, hdue, rfl, rfl, Nat.le_refl _, ?_,
          fun h => absurd h hnd⟩
        intro _ _ _
        unfold left
        rw [hdue]
        simp only
        split <;> omega
      · have hlt : shard.best.toNat < b.height.toNat := by
          have : ¬ b.height.toNat ≤ shard.best.toNat := hle
          omega
        refine ⟨⟨shard, .fetch b (shard.best + 1), inbox, connected, arch⟩, by simp [State.move, hd, hle],
          ⟨hi.shard, hi.archiver, hi.settled, hi.inbox, ⟨hb, rfl, hlt⟩⟩, rfl, rfl, rfl, Nat.le_refl _, ?_,
          fun h => absurd h hnd⟩
        intro _ _ _
        have hdue : due ⟨shard, .fetch b (shard.best + 1), inbox, connected, arch⟩ =
            due ⟨shard, .digest b, inbox, connected, arch⟩ := rfl
        unfold left
        rw [hdue]
        simp only
        have hne : b.height.toNat ≠ shard.best.toNat + 1 := by
          intro he
          apply hh
          apply UInt64.toNat_inj.mp
          have := b.height.toNat_lt
          rw [UInt64.toNat_add]
          simp
          omega
        rw [if_neg (by omega)]
        omega
  | fetch b i =>
    obtain ⟨hb, hi1, hlt⟩ : OfChain chain b ∧ i = shard.best + 1 ∧ shard.best < b.height := hmode
    have hnd : ¬ Done (⟨shard, .fetch b i, inbox, connected, arch⟩ : State) := fun h => by simp [Done] at h
    have hlt' : shard.best.toNat < b.height.toNat := hlt
    have hin : i.toNat = shard.best.toNat + 1 := by
      have := b.height.toNat_lt
      rw [hi1, UInt64.toNat_add]
      simp
      omega
    have hh0 : b.height ≠ 0 := by
      intro h0
      rw [h0] at hlt'
      simp at hlt'
    by_cases hib : i < b.height
    · have hib' : i.toNat < b.height.toNat := hib
      have hask := ask_spec hc hi.archiver i
      by_cases hyes : (connected = true) ∧ 1 ≤ i.toNat ∧ i.toNat ≤ arch.best.toNat
      · have i0 : i ≠ 0 := by
          intro h0
          rw [h0] at hin
          simp at hin
        obtain ⟨d1, d2, d3, d4⟩ := digest_next hc hi.shard i0 hi1
        simp only at d1 d2 d3 d4
        simp only [if_pos hyes] at hask
        have hdue : due ⟨(shard.digestBlock (chain i)).1, .fetch b (i + 1), inbox, connected, arch⟩ =
            due ⟨shard, .fetch b i, inbox, connected, arch⟩ := by
          simp only [due, d2]
          congr 1
          omega
        refine ⟨⟨(shard.digestBlock (chain i)).1, .fetch b (i + 1), inbox, connected, arch⟩,
          by simp [State.move, hib, hask],
          ⟨by simpa only [d2] using d4, hi.archiver, hi.settled, hi.inbox, ⟨hb, by rw [d2], by rw [d2]; exact hib⟩⟩,
          hdue, rfl, rfl, ?_, ?_, fun h => absurd h hnd⟩
        · simp only [d2]; omega
        · intro _ _ _
          unfold left
          rw [hdue]
          simp only [d2]
          have : b.height.toNat ≤ due ⟨shard, .fetch b i, inbox, connected, arch⟩ := by
            unfold due
            exact Nat.le_trans (Nat.le_max_right _ _) (le_foldl_max _ _)
          omega
      · simp only [if_neg hyes] at hask
        refine ⟨_, by simp [State.move, hib, hask], hi, rfl, rfl, rfl, Nat.le_refl _, ?_, fun _ => rfl⟩
        intro hcon hdb _
        exfalso
        apply hyes
        simp only at hcon hdb
        have : b.height.toNat ≤ due ⟨shard, .fetch b i, inbox, connected, arch⟩ := by
          unfold due
          exact Nat.le_trans (Nat.le_max_right _ _) (le_foldl_max _ _)
        exact ⟨hcon, by omega, by omega⟩
    · have hib' : ¬ i.toNat < b.height.toNat := hib
      refine ⟨⟨shard, .digest b, inbox, connected, arch⟩, by simp [State.move, hib],
        ⟨hi.shard, hi.archiver, hi.settled, hi.inbox, ⟨hb, hh0⟩⟩, rfl, rfl, rfl, Nat.le_refl _, ?_,
        fun h => absurd h hnd⟩
      intro _ _ _
      have hdue : due ⟨shard, .digest b, inbox, connected, arch⟩ =
          due ⟨shard, .fetch b i, inbox, connected, arch⟩ := rfl
      unfold left
      rw [hdue]
      simp only
      rw [if_pos (by omega)]
      omega

/-- One event. -/
theorem step_spec {chain : UInt64 → Block} (hc : IsChain chain) {range : UInt8 × UInt8} {seed : Hash → Bool}
    {s : State} (hi : Inv chain range seed s) (e : Ev) (he : Honest chain [e]) :
    ∃ s', s.step e = some s' ∧ Inv chain range seed s' ∧ s.shard.best.toNat ≤ s'.shard.best.toNat ∧
      s.archiver.best.toNat ≤ s'.archiver.best.toNat ∧
      (Stays [e] → due s' = (heights [e]).foldl max (due s)) := by
  have he := he e (by simp)
  cases e with
  | arrive p =>
    refine ⟨_, rfl, ⟨hi.shard, hi.archiver, hi.settled, ?_, hi.mode⟩, Nat.le_refl _, Nat.le_refl _, ?_⟩
    · intro q hq
      rcases List.mem_append.mp hq with hq | hq
      · exact hi.inbox q hq
      · rw [List.mem_singleton.mp hq]; exact he
    · intro _
      simp [due, heights]
  | toArchiver p =>
    rcases (he : HonestPacket chain p) with hp | ⟨h, h0, hp⟩
    · exact ⟨s, by simp [State.step, hp], hi, Nat.le_refl _, Nat.le_refl _, fun _ => rfl⟩
    · have hcnt := Archiver.countAbove_le s.archiver (chain h).height
      obtain ⟨a, o, d1, d2, d3, d4, _⟩ := Archiver.digest_spec (s.archiver.deferred.length + 1) s.archiver (chain h)
        hi.archiver (by unfold OfChain; rw [hc.height]) (by omega) (fun _ => hi.settled)
      exact ⟨{ s with archiver := a }, by simp [State.step, hp, Archiver.State.step, d1],
        ⟨hi.shard, d2, d3, hi.inbox, hi.mode⟩, Nat.le_refl _, d4, fun _ => rfl⟩
  | tick =>
    obtain ⟨s', h1, h2, h3, h4, _, h6, _⟩ := move_spec hc hi
    exact ⟨s', h1, h2, h6, by rw [h4]; exact Nat.le_refl _, fun _ => h3⟩
  | cut => exact ⟨_, rfl, ⟨hi.shard, hi.archiver, hi.settled, hi.inbox, hi.mode⟩, Nat.le_refl _, Nat.le_refl _, fun _ => rfl⟩
  | restartArchiver =>
    obtain ⟨i1, i2⟩ := Archiver.inv_restart hi.archiver
    refine ⟨_, rfl, ⟨hi.shard, i1, i2, hi.inbox, hi.mode⟩, Nat.le_refl _, ?_, fun _ => rfl⟩
    show _ ≤ (Archiver.start s.archiver.db).best.toNat
    rw [Archiver.inv_start hi.archiver]
    exact Nat.le_refl _
  | restartShard f =>
    have ho : Shard.openDb s.shard.range s.shard.disk = s.shard.updateSnapshot := by
      unfold Shard.openDb
      rw [hi.shard.height]
      rfl
    refine ⟨_, rfl, ⟨?_, hi.archiver, hi.settled, by simp, trivial⟩, ?_, Nat.le_refl _,
      fun h => absurd rfl (h _ (by simp) f)⟩
    · show Holds _ _ _ (Shard.openDb _ _)
      simp only [ho]
      exact ⟨hi.shard.range, hi.shard.height, hi.shard.best, hi.shard.coins, rfl, rfl⟩
    · simp only [ho]
      exact Nat.le_refl _

theorem run_spec {chain : UInt64 → Block} (hc : IsChain chain) {range : UInt8 × UInt8} {seed : Hash → Bool}
    (es : List Ev) : ∀ s : State, Inv chain range seed s → Honest chain es →
    ∃ s', s.run es = some s' ∧ Inv chain range seed s' ∧ s.shard.best.toNat ≤ s'.shard.best.toNat ∧
      (Stays es → due s' = (heights es).foldl max (due s)) := by
  induction es with
  | nil => intro s hi _; exact ⟨s, rfl, hi, Nat.le_refl _, fun _ => rfl⟩
  | cons e es ih =>
    intro s hi he
    obtain ⟨s1, h1, h2, h3, _, h5⟩ := step_spec hc hi e fun x hx => he x (by simp_all)
    obtain ⟨s2, k1, k2, k3, k4⟩ := ih s1 h2 fun x hx => he x (List.mem_cons_of_mem _ hx)
    refine ⟨s2, by simp [State.run, h1, k1], k2, by omega, ?_⟩
    intro hst
    rw [k4 (fun x hx => hst x (List.mem_cons_of_mem _ hx)), h5 (fun x hx => hst x (by simp_all)),
      ← List.foldl_append]
    congr 1
    simp only [heights, List.filterMap_cons, List.filterMap_nil]
    cases e <;> simp

theorem inv_start (chain : UInt64 → Block) (range : UInt8 × UInt8) (seed : Hash → Bool) (found : Bool) :
    Inv chain range seed (start range seed found) :=
  ⟨⟨rfl, rfl, rfl, fun _ _ => Iff.rfl, rfl, rfl⟩, (Archiver.inv_fresh (OfChain chain)).1,
    (Archiver.inv_fresh (OfChain chain)).2,
    by simp [start], trivial⟩

theorem run_append (es fs : List Ev) : ∀ s : State, s.run (es ++ fs) = (s.run es).bind fun s' => s'.run fs := by
  induction es with
  | nil => intro s; rfl
  | cons e es ih =>
    intro s
    simp only [List.cons_append, State.run]
    cases s.step e with
    | none => rfl
    | some s' => exact ih s'

/-! ### C101 -/

/-- **C101.** Whatever blocks of a chain reach the shard and the archiver, in whatever order, with repetitions, gaps and
packets that are not blocks, whenever the connection breaks and whenever either process restarts: neither process
dies, and at every moment the shard holds exactly what the first blocks of the chain, up to the height it
reports, make of the seed. -/
theorem C101_agrees (chain : UInt64 → Block) (hc : IsChain chain) (range : UInt8 × UInt8) (seed : Hash → Bool)
    (found : Bool) (es : List Ev) (he : Honest chain es) :
    ∃ s, (start range seed found).run es = some s ∧ Agrees chain range seed s.shard := by
  obtain ⟨s, h1, h2, _⟩ := run_spec hc es _ (inv_start chain range seed found) he
  exact ⟨s, h1, h2.shard.coins, h2.shard.snap, h2.shard.snapHeight, h2.shard.height⟩

/-- C101. The height of the shard never falls. -/
theorem C101_grows (chain : UInt64 → Block) (hc : IsChain chain) (range : UInt8 × UInt8) (seed : Hash → Bool)
    (found : Bool) (es fs : List Ev) (he : Honest chain (es ++ fs)) :
    ∃ s s', (start range seed found).run es = some s ∧ s.run fs = some s' ∧
      s.shard.best.toNat ≤ s'.shard.best.toNat := by
  obtain ⟨s, h1, h2, _⟩ := run_spec hc es _ (inv_start chain range seed found)
    fun e h => he e (List.mem_append_left _ h)
  obtain ⟨s', k1, _, k3, _⟩ := run_spec hc fs s h2 fun e h => he e (List.mem_append_right _ h)
  exact ⟨s, s', h1, k1, k3⟩

/-- C101. When the shard has handled everything that reached it since it was last started, its height is the greatest
height it was told of or started with: no block it was told of is missing and none is invented. -/
theorem C101_current (chain : UInt64 → Block) (hc : IsChain chain) (range : UInt8 × UInt8) (seed : Hash → Bool)
    (found again : Bool) (es fs : List Ev) (he : Honest chain (es ++ fs)) (hs : Stays fs) :
    ∃ s s', (start range seed found).run (es ++ [.restartShard again]) = some s ∧ s.run fs = some s' ∧
      (Done s' → s'.shard.best.toNat = (heights fs).foldl max s.shard.best.toNat) := by
  obtain ⟨s, h1, h2, _⟩ := run_spec hc (es ++ [.restartShard again]) _ (inv_start chain range seed found) (by
    intro e h
    rcases List.mem_append.mp h with h | h
    · exact he e (List.mem_append_left _ h)
    · rw [List.mem_singleton.mp h]; trivial)
  obtain ⟨s', k1, k2, _, k4⟩ := run_spec hc fs s h2 fun e h => he e (List.mem_append_right _ h)
  refine ⟨s, s', h1, k1, ?_⟩
  intro hd
  have hds : due s = s.shard.best.toNat := by
    rw [run_append] at h1
    cases hr : (start range seed found).run es with
    | none => simp [hr] at h1
    | some x =>
      simp [hr, State.run, State.step] at h1
      subst h1
      simp [due]
  have hds' : due s' = s'.shard.best.toNat := by
    unfold due
    rw [hd.1, hd.2]
    simp
  rw [← hds', k4 hs, hds]

/-- **C101 (partial).** While the connection to the archiver holds and the archiver has every block below the ones the
shard was told of, the shard's thread gets to the end of its work: after four moves for each packet waiting, one for
each missing block and three more it has handled them all. Missing: that it does so after the connection was lost
and the archiver can be reached again, see `C101_stuck_violated`. -/
theorem C101_returns_partial (chain : UInt64 → Block) (hc : IsChain chain) (range : UInt8 × UInt8) (seed : Hash → Bool)
    (found : Bool) (es : List Ev) (he : Honest chain es) (top n : Nat) (htop : ∀ h ∈ heights es, h ≤ top) :
    ∃ s, (start range seed found).run es = some s ∧
      (s.connected = true → top ≤ s.archiver.best.toNat + 1 →
        4 * s.inbox.length + 3 + (top - s.shard.best.toNat) ≤ n →
        ∃ s', s.run (List.replicate n .tick) = some s' ∧ Done s' ∧ s.shard.best.toNat ≤ s'.shard.best.toNat ∧
          Agrees chain range seed s'.shard) := by
  obtain ⟨s, h1, h2, _⟩ := run_spec hc es _ (inv_start chain range seed found) he
  refine ⟨s, h1, ?_⟩
  intro hcon htop' hn
  -- the height due never exceeds what arrived
  have hdue : due s ≤ top := by
    have key : ∀ (es : List Ev) (s0 s1 : State), Inv chain range seed s0 → Honest chain es → due s0 ≤ top →
        (∀ h ∈ heights es, h ≤ top) → s0.run es = some s1 → due s1 ≤ top := by
      intro es
      induction es with
      | nil => intro s0 s1 _ _ hd _ hr; cases hr; exact hd
      | cons e es ih =>
        intro s0 s1 hi he hd ht hr
        obtain ⟨sa, a1, a2, _, _, a5⟩ := step_spec hc hi e fun x hx => he x (by simp_all)
        simp only [State.run, a1, Option.bind_some] at hr
        refine ih sa s1 a2 (fun x hx => he x (List.mem_cons_of_mem _ hx)) ?_ ?_ hr
        · cases e with
          | restartShard f =>
            simp [State.step] at a1
            have hb : s0.shard.best.toNat ≤ due s0 := by
              unfold due
              exact Nat.le_trans (Nat.le_max_left _ _) (le_foldl_max _ _)
            have ho : Shard.openDb s0.shard.range s0.shard.disk = s0.shard.updateSnapshot := by
              unfold Shard.openDb
              rw [hi.shard.height]
              rfl
            subst a1
            simp only [due, ho, List.map_nil, List.foldl_nil, Shard.updateSnapshot]
            omega
          | arrive p =>
            have := a5 (by intro x hx f; simp at hx; subst hx; simp)
            rw [this]
            have hp := ht (packetHeight p) (by simp [heights])
            simp [heights]
            omega
          | toArchiver p => rw [a5 (by intro x hx f; simp at hx; subst hx; simp)]; exact hd
          | tick => rw [a5 (by intro x hx f; simp at hx; subst hx; simp)]; exact hd
          | cut => rw [a5 (by intro x hx f; simp at hx; subst hx; simp)]; exact hd
          | restartArchiver => rw [a5 (by intro x hx f; simp at hx; subst hx; simp)]; exact hd
        · intro h hh
          apply ht
          simp only [heights, List.filterMap_cons] at hh ⊢
          cases e <;> simp_all
    exact key es _ s (inv_start chain range seed found) he (Nat.zero_le _) htop h1
  have hleft : left s ≤ n := by
    unfold left
    split
    · omega
    · split <;> omega
    · omega
  have key : ∀ (n : Nat) (s : State), Inv chain range seed s → s.connected = true →
      due s ≤ s.archiver.best.toNat + 1 → left s ≤ n → ∃ s', s.run (List.replicate n .tick) = some s' ∧ Done s' ∧
        s.shard.best.toNat ≤ s'.shard.best.toNat ∧ Inv chain range seed s' := by
    intro n
    induction n with
    | zero =>
      intro s hi hcon hdu hl
      refine ⟨s, rfl, ?_, Nat.le_refl _, hi⟩
      by_cases hd : Done s
      · exact hd
      · obtain ⟨_, _, _, _, _, _, _, h7, _⟩ := move_spec hc hi
        have := h7 hcon hdu hd
        omega
    | succ n ih =>
      intro s hi hcon hdu hl
      obtain ⟨s1, m1, m2, m3, m4, m5, m6, m7, m8⟩ := move_spec hc hi
      have hl1 : left s1 ≤ n := by
        by_cases hd : Done s
        · have hz := m8 hd
          rw [hz]
          unfold left
          rw [hd.1, hd.2]
          unfold due
          rw [hd.1, hd.2]
          simp
        · have := m7 hcon hdu hd
          omega
      obtain ⟨s', k1, k2, k3, k4⟩ := ih s1 m2 (by rw [m5]; exact hcon) (by rw [m3, m4]; exact hdu) hl1
      exact ⟨s', by simp [List.replicate_succ, State.run, State.step, m1, k1], k2, by omega, k4⟩
  obtain ⟨s', k1, k2, k3, k4⟩ := key n s h2 hcon (by omega) hleft
  exact ⟨s', k1, k2, k3, k4.shard.coins, k4.shard.snap, k4.shard.snapHeight, k4.shard.height⟩

/-- C101. Until the archiver has the block that is asked for, the thread asks again and nothing changes. -/
theorem C101_waits (chain : UInt64 → Block) (hc : IsChain chain) (range : UInt8 × UInt8) (seed : Hash → Bool)
    (found : Bool) (es : List Ev) (he : Honest chain es) :
    ∃ s, (start range seed found).run es = some s ∧
      ∀ b i, s.mode = .fetch b i → i < b.height → s.archiver.best < i → s.move = some s := by
  obtain ⟨s, h1, h2, _⟩ := run_spec hc es _ (inv_start chain range seed found) he
  refine ⟨s, h1, ?_⟩
  intro b i hm hlt hb
  have hb' : s.archiver.best.toNat < i.toNat := hb
  have ha := ask_spec hc h2.archiver i
  rw [if_neg (by omega)] at ha
  unfold State.move
  rw [hm]
  simp [hlt, ha]

/-- Once the connection to the archiver is lost, a thread that needs a block never moves again. -/
theorem stuck (es : List Ev) (hs : Stays es) : ∀ (s s' : State) (b : Block) (i : UInt64), s.mode = .fetch b i →
    i < b.height → s.connected = false → s.run es = some s' →
    s'.mode = .fetch b i ∧ s'.shard = s.shard ∧ s'.connected = false := by
  induction es with
  | nil => intro s s' b i hm _ hcon hr; cases hr; exact ⟨hm, rfl, hcon⟩
  | cons e es ih =>
    intro s s' b i hm hlt hcon hr
    have ih := ih fun x hx => hs x (List.mem_cons_of_mem _ hx)
    simp only [State.run, Option.bind_eq_some_iff] at hr
    obtain ⟨s1, h1, h2⟩ := hr
    cases e with
    | arrive p =>
      simp [State.step] at h1
      subst h1
      have := ih _ s' b i (by exact hm) hlt (by exact hcon) h2
      exact this
    | toArchiver p =>
      simp only [State.step] at h1
      split at h1
      · cases h1
      · cases h1; exact ih s s' b i (by exact hm) hlt (by exact hcon) h2
      · simp only [Option.map_eq_some_iff] at h1
        obtain ⟨r, _, h1⟩ := h1
        subst h1
        have := ih _ s' b i (by exact hm) hlt (by exact hcon) h2
        exact this
    | tick =>
      have : s.step .tick = some s := by
        simp [State.step, State.move, hm, hlt, State.ask, hcon]
      rw [this] at h1
      cases h1
      have := ih _ s' b i (by exact hm) hlt (by exact hcon) h2
      exact this
    | cut =>
      simp [State.step] at h1
      subst h1
      have := ih _ s' b i (by exact hm) hlt (by rfl) h2
      exact this
    | restartArchiver =>
      simp only [State.step, Option.map_eq_some_iff] at h1
      obtain ⟨r, _, h1⟩ := h1
      subst h1
      have := ih _ s' b i (by exact hm) hlt (by rfl) h2
      exact this
    | restartShard f => exact absurd rfl (hs _ (by simp) f)

/-- **C101 (violated).** A shard that misses a block after its connection to the archiver broke, or was never made
(`src/uhs/atomizer/shard/controller.cpp:52-54` only warns), does not catch up: whatever happens afterwards, short of a restart
of the shard, it stays at the height it has, though the archiver has every block and though all later blocks
reach it. -/
theorem C101_stuck_violated (chain : UInt64 → Block) (hc : IsChain chain) (range : UInt8 × UInt8)
    (seed : Hash → Bool) :
    ∀ fs, Honest chain fs → Stays fs →
      ∃ s, (start range seed false).run ([.toArchiver (encodeBlock (chain 1)), .arrive (encodeBlock (chain 2)), .tick,
          .tick] ++ fs) = some s ∧ s.shard.best = 0 ∧ s.mode = .fetch (chain 2) 1 := by
  intro fs hf hs
  have hp : ∀ h : UInt64, h ≠ 0 → HonestPacket chain (encodeBlock (chain h)) := fun h h0 =>
    .inr ⟨h, h0, readPacket_encode _ (hc.fits h)⟩
  have he : Honest chain ([.toArchiver (encodeBlock (chain 1)), .arrive (encodeBlock (chain 2)), .tick, .tick]) := by
    intro e hh
    simp at hh
    rcases hh with rfl | rfl | rfl
    · exact hp 1 (by decide)
    · exact hp 2 (by decide)
    · trivial
  obtain ⟨s1, h1, h2, _⟩ := run_spec hc _ _ (inv_start chain range seed false) he
  have hm : s1.mode = .fetch (chain 2) 1 ∧ s1.connected = false ∧ s1.shard.best = 0 := by
    have r1 := readPacket_encode _ (hc.fits 1)
    have r2 := readPacket_encode _ (hc.fits 2)
    simp only [State.run, State.step, r1, Option.bind_eq_some_iff, Option.map_eq_some_iff] at h1
    obtain ⟨_, ⟨r, _, rfl⟩, _, h6, _, h3, s2, h4, h5⟩ := h1
    cases h6
    simp only [start, State.move, List.nil_append, r2] at h3
    cases h3
    cases h5
    have hd : (Shard.openDb range ⟨seed, none⟩).digestBlock (chain 2) = (Shard.openDb range ⟨seed, none⟩, false) :=
      digest_other (by rw [hc.height]; show (2 : UInt64) ≠ 0 + 1; decide)
    simp only [State.move, hd, Bool.false_eq_true, if_false, hc.height] at h4
    have hb : (Shard.openDb range ⟨seed, none⟩).best = 0 := rfl
    rw [hb, if_neg (by decide)] at h4
    cases h4
    exact ⟨rfl, rfl, rfl⟩
  obtain ⟨s, k1, k2, _⟩ := run_spec hc fs s1 h2 hf
  obtain ⟨e1, e2, _⟩ := stuck fs hs s1 s (chain 2) 1 hm.1 (by rw [hc.height]; decide) hm.2.1 k1
  refine ⟨s, ?_, by rw [e2]; exact hm.2.2, e1⟩
  rw [run_append, h1]
  exact k1

/-! #### Examples -/

/-- A chain of empty blocks. -/
def emptyChain (h : UInt64) : Block := ⟨h, []⟩

theorem emptyChain_isChain : IsChain emptyChain :=
  ⟨fun _ => rfl, fun _ => ⟨by simp [emptyChain], by simp [emptyChain]⟩⟩

/-- The packet of a block of the chain. -/
def packet (h : UInt64) : Bytes := encodeBlock (emptyChain h)

theorem packet_honest (h : UInt64) (h0 : h ≠ 0) : HonestPacket emptyChain (packet h) :=
  .inr ⟨h, h0, readPacket_encode _ (emptyChain_isChain.fits h)⟩

/-- Blocks 1 to 3 reach the archiver, block 3, junk and block 1 reach the shard. -/
def gap : List Ev := [.toArchiver (packet 1), .toArchiver (packet 2), .toArchiver (packet 3),
  .arrive (packet 3), .arrive [1, 2], .arrive (packet 1)]

theorem gap_honest : Honest emptyChain gap := by
  intro e he
  simp only [gap, List.mem_cons, List.not_mem_nil, or_false] at he
  rcases he with rfl | rfl | rfl | rfl | rfl | rfl
  · exact packet_honest 1 (by decide)
  · exact packet_honest 2 (by decide)
  · exact packet_honest 3 (by decide)
  · exact packet_honest 3 (by decide)
  · exact .inl (by decide)
  · exact packet_honest 1 (by decide)

example : Stays gap := by
  intro e he f
  simp only [gap, List.mem_cons, List.not_mem_nil, or_false] at he
  rcases he with rfl | rfl | rfl | rfl | rfl | rfl <;> simp

example : heights gap = [3, 0, 1] := by decide +kernel

/-- The premises of `C101_returns_partial` are met, and the shard is at height 3 in the end. -/
example : (((start (0, 255) (fun _ => false) true).run gap).map fun s =>
    (s.connected, s.archiver.best, s.inbox.length)) = some (true, 3, 3) := by decide +kernel

example : (((start (0, 255) (fun _ => false) true).run (gap ++ List.replicate 20 .tick)).map fun s =>
    (s.shard.best, s.mode, s.inbox)) = some (3, .idle, []) := by decide +kernel

/-- The archiver is behind: the thread waits at block 2, and goes on when the archiver has it. -/
example : (((start (0, 255) (fun _ => false) true).run
    ([.toArchiver (packet 1), .arrive (packet 3)] ++ List.replicate 20 .tick)).map fun s =>
    (s.shard.best, s.mode, s.archiver.best)) = some (1, .fetch (emptyChain 3) 2, 1) := by decide +kernel

example : (((start (0, 255) (fun _ => false) true).run
    ([.toArchiver (packet 1), .arrive (packet 3)] ++ List.replicate 20 .tick ++ [.toArchiver (packet 2)] ++
      List.replicate 3 .tick)).map fun s =>
    (s.shard.best, s.mode)) = some (3, .idle) := by decide +kernel

/-- The connection broke in between; all the blocks are there, and the shard stays at height 1. -/
example : (((start (0, 255) (fun _ => false) true).run
    ([.toArchiver (packet 1), .arrive (packet 1), .tick, .tick, .restartArchiver, .toArchiver (packet 2),
      .toArchiver (packet 3), .arrive (packet 3), .arrive (packet 2)] ++ List.replicate 20 .tick)).map fun s =>
    (s.shard.best, s.mode, s.archiver.best)) = some (1, .fetch (emptyChain 3) 2, 3) := by decide +kernel

end Verif.Catchup
