import Verif.Evm.Mint
import Verif.Evm.HostCommit
/-!
# The accounts with which the EVM starts: what holds and what does not (C106)
-/
namespace Verif.Evm

open Verif.Serial Verif.Http

/-! ### Specification -/

/-- Every request of `put_row` is answered without an error. -/
def Row.Works (r : Row) : Prop :=
  r.begin = .told true ∧ r.lock = .told true ∧ r.commit = .told true ∧ r.finish = .told true

/-- Every request of `put_row` is answered. -/
def Row.Answered (r : Row) : Prop :=
  r.begin ≠ .silent ∧ r.lock ≠ .silent ∧ r.commit ≠ .silent ∧ r.finish ≠ .silent

/-- A broker which reports a commit has had it confirmed by the shards (C47). -/
def Row.Honest (r : Row) : Prop := r.commit = .told true → r.taken = true

/-- The account has just been given its money. -/
def World.Seeded (w : World) (a : Address) : Prop := w.balance a = 10 ^ 24 ∧ w.nonce a = 0

/-- A start of the agent which seeds. -/
def Start.Seeds (s : Start) : Prop := s.runner = .evm ∧ s.component = 0 ∧ s.recovered = .told true

/-- The worlds agree but for these accounts. -/
structure SameBut (l : List Address) (w w' : World) : Prop where
  accounts : ∀ a, a ∉ l → w'.accounts a = w.accounts a
  storage : w'.storage = w.storage
  code : w'.code = w.code

/-- Shards which hold nothing. -/
def World.none : World := { accounts := fun _ => .none, storage := fun _ _ => .none, code := fun _ => .none }

/-! ### Lemmas -/

theorem initialAccount_balance : initialAccount.balance.nat = 10 ^ 24 := by
  show (mul _ _).nat = _
  rw [C51_mul, nat_ofU64, nat_ofU64]
  decide

theorem initialAccount_nonce : initialAccount.nonce.nat = 0 := by decide +kernel

theorem seed_same (w : World) (a : Address) : (w.seed a).accounts a = some initialAccount := by
  simp [World.seed, put]

theorem seed_other (w : World) {a b : Address} (h : b ≠ a) : (w.seed a).accounts b = w.accounts b := by
  simp [World.seed, put, h]

theorem seeded_of {w : World} {a : Address} (h : w.accounts a = some initialAccount) : w.Seeded a := by
  unfold World.Seeded World.balance World.nonce
  rw [h]
  exact ⟨initialAccount_balance, initialAccount_nonce⟩

theorem putRow_true {r : Row} : (putRow r).told = some true ↔ r.Works := by
  unfold putRow Row.Works
  cases r.begin with
  | told b => cases b <;> cases r.lock with
    | told b => cases b <;> cases r.commit with
      | told b => cases b <;> cases r.finish <;> simp
      | _ => simp
    | _ => simp
  | _ => simp

theorem putRow_started {r : Row} : (putRow r).told = some true → (putRow r).started = true := by
  unfold putRow
  cases r.begin with
  | told b => cases b <;> cases r.lock with
    | told b => cases b <;> cases r.commit with
      | told b => cases b <;> cases r.finish <;> simp
      | _ => simp
    | _ => simp
  | _ => simp

theorem putRow_written {r : Row} (hh : r.Honest) (h : r.Works) : (putRow r).written = true := by
  obtain ⟨h1, h2, h3, h4⟩ := h
  unfold putRow
  simp only [h1, h2, h3, h4, hh h3]

theorem putRow_answered {r : Row} (h : r.Answered) : (putRow r).started = true → (putRow r).told ≠ none := by
  obtain ⟨h1, h2, h3, h4⟩ := h
  unfold putRow
  cases hb : r.begin with
  | silent => exact absurd hb h1
  | refused => simp
  | told b => cases b <;> cases hl : r.lock with
    | silent => first | exact absurd hl h2 | simp
    | refused => simp
    | told b => cases b <;> cases hc : r.commit with
      | silent => first | exact absurd hc h3 | simp
      | refused => simp
      | told b => cases b <;> cases hf : r.finish with
        | silent => first | exact absurd hf h4 | simp
        | _ => simp

theorem awaitAll_true {l : List (Option Bool)} : awaitAll l = .returns true ↔ ∀ x ∈ l, x = some true := by
  induction l with
  | nil => simp [awaitAll]
  | cons x l ih =>
    cases x with
    | none => simp [awaitAll]
    | some b => cases b <;> simp [awaitAll, ih]

theorem awaitAll_ends {l : List (Option Bool)} (h : ∀ x ∈ l, x ≠ none) : awaitAll l ≠ .waits := by
  induction l with
  | nil => simp [awaitAll]
  | cons x l ih =>
    have := ih fun y hy => h y (List.mem_cons_of_mem _ hy)
    cases x with
    | none => exact absurd rfl (h none (by simp))
    | some b => cases b <;> simp [awaitAll, this]

theorem requestAll_same (rows : Address → Row) (l : List Address) : ∀ w, SameBut l w (requestAll rows w l).1 ∧
    ∀ a, (requestAll rows w l).1.accounts a = w.accounts a ∨ (requestAll rows w l).1.accounts a = some initialAccount := by
  induction l with
  | nil => intro w; exact ⟨⟨fun _ _ => rfl, rfl, rfl⟩, fun _ => .inl rfl⟩
  | cons b l ih =>
    intro w
    unfold requestAll
    dsimp only
    generalize putRow (rows b) = p
    have key : ∀ a, (if p.written = true then w.seed b else w).accounts a = w.accounts a ∨
        a = b ∧ (if p.written = true then w.seed b else w).accounts a = some initialAccount := by
      intro a
      split
      · by_cases e : a = b
        · subst e; exact .inr ⟨rfl, seed_same w a⟩
        · exact .inl (seed_other w e)
      · exact .inl rfl
    have hs : (if p.written = true then w.seed b else w).storage = w.storage := by split <;> rfl
    have hc : (if p.written = true then w.seed b else w).code = w.code := by split <;> rfl
    generalize (if p.written = true then w.seed b else w) = w1 at *
    split
    · obtain ⟨h1, h2⟩ := ih w1
      refine ⟨⟨fun a ha => ?_, h1.storage.trans hs, h1.code.trans hc⟩, fun a => ?_⟩
      · rw [h1.accounts a fun h => ha (List.mem_cons_of_mem _ h)]
        rcases key a with h | ⟨rfl, _⟩
        · exact h
        · exact absurd (by simp) ha
      · rcases h2 a with h | h
        · rw [h]
          rcases key a with h | ⟨_, h⟩
          · exact .inl h
          · exact .inr h
        · exact .inr h
    · refine ⟨⟨fun a ha => ?_, hs, hc⟩, fun a => ?_⟩
      · rcases key a with h | ⟨rfl, _⟩
        · exact h
        · exact absurd (by simp) ha
      · rcases key a with h | ⟨_, h⟩
        · exact .inl h
        · exact .inr h

/-- All rows are written if all work. -/
theorem requestAll_works (rows : Address → Row) (hh : ∀ a, (rows a).Honest) (l : List Address) :
    ∀ w, (∀ a ∈ l, (rows a).Works) → ∀ a ∈ l, (requestAll rows w l).1.accounts a = some initialAccount := by
  induction l with
  | nil => intro w _ a ha; cases ha
  | cons b l ih =>
    intro w hw a ha
    have hb := hw b (by simp)
    have h1 := putRow_written (hh b) hb
    have h2 := putRow_started (putRow_true.2 hb)
    have h3 : (requestAll rows w (b :: l)).1 = (requestAll rows (w.seed b) l).1 := by
      rw [requestAll]; simp only [h1, h2, if_true]
    rw [h3]
    by_cases hm : a ∈ l
    · exact ih (w.seed b) (fun x hx => hw x (by simp [hx])) a hm
    · rw [(requestAll_same rows l (w.seed b)).1.accounts a hm]
      rcases List.mem_cons.1 ha with rfl | h
      · exact seed_same w a
      · exact absurd h hm

theorem requestAll_ok (rows : Address → Row) (l : List Address) : ∀ w,
    ((requestAll rows w l).2.2 = true ∧ ∀ x ∈ (requestAll rows w l).2.1, x = some true) ↔ ∀ a ∈ l, (rows a).Works := by
  induction l with
  | nil => intro w; simp [requestAll]
  | cons b l ih =>
    intro w
    unfold requestAll
    dsimp only
    have h1 := @putRow_true (rows b)
    have h2 := @putRow_started (rows b)
    generalize putRow (rows b) = p at *
    have := ih (if p.written = true then w.seed b else w)
    generalize requestAll rows _ l = q at *
    simp only [List.mem_cons, forall_eq_or_imp, ← this, ← h1]
    cases hs : p.started with
    | true => simp only [if_true, List.mem_cons, forall_eq_or_imp]; tauto
    | false =>
      simp only [Bool.false_eq_true, if_false, false_and, false_iff]
      intro h
      rw [h2 h.1] at hs
      cases hs

theorem requestAll_answered (rows : Address → Row) (l : List Address) : ∀ w,
    (∀ a ∈ l, (rows a).Answered) → ∀ x ∈ (requestAll rows w l).2.1, x ≠ none := by
  induction l with
  | nil => intro w _ x hx; simp [requestAll] at hx
  | cons b l ih =>
    intro w h x hx
    unfold requestAll at hx
    dsimp only at hx
    have h1 := putRow_answered (h b (by simp))
    generalize putRow (rows b) = p at *
    split at hx
    · rename_i hs
      rcases List.mem_cons.1 hx with rfl | hx
      · exact h1 hs
      · exact ih _ (fun a ha => h a (by simp [ha])) x hx
    · cases hx

theorem initial_nodup : initialAddresses.Nodup := by decide +kernel

theorem initial_plain : ∀ a ∈ initialAddresses, isPrecompile a = false := by decide +kernel

theorem Start.run_cases (s : Start) (w : World) :
    s.Seeds ∧ s.run w = mintInitial s.rows w ∨ ¬s.Seeds ∧ (s.run w).1 = w ∧ (s.run w).2 ≠ .waits ∧
      ((s.run w).2 = .returns true ↔ s.recovered = .told true) := by
  unfold Start.run Start.Seeds
  cases hr : s.recovered with
  | told b =>
    cases b with
    | false => right; simp
    | true =>
      cases s.runner with
      | lua => right; simp
      | evm =>
        by_cases h : s.component = 0
        · left; simp [h]
        · right; simp [h]
  | _ => right; simp

/-! ### What holds -/

/-- **C106.** The callback of `put_row` is told of success exactly if every request was
answered without an error, and then the shards hold the value. -/
theorem C106_put_row (r : Row) : ((putRow r).told = some true ↔ r.Works) ∧
    (r.Honest → (putRow r).told = some true → (putRow r).written = true) :=
  ⟨putRow_true, fun hh h => putRow_written hh (putRow_true.1 h)⟩

/-- **C106.** The agent which seeds goes on to serve exactly if every row could be written;
then every initial account has a million of tokens, of 10^18 units each, and the nonce
zero. -/
theorem C106_serves (s : Start) (w : World) (hs : s.Seeds) :
    ((s.run w).2 = .returns true ↔ ∀ a ∈ initialAddresses, (s.rows a).Works) ∧
    ((∀ a, (s.rows a).Honest) → (s.run w).2 = .returns true →
      ∀ a ∈ initialAddresses, (s.run w).1.Seeded a) := by
  rcases s.run_cases w with ⟨_, h⟩ | ⟨h, _⟩
  · have key : (s.run w).2 = .returns true ↔ ∀ a ∈ initialAddresses, (s.rows a).Works := by
      rw [h, ← requestAll_ok s.rows initialAddresses w]
      unfold mintInitial
      dsimp only
      generalize requestAll s.rows w initialAddresses = q
      cases q.2.2 with
      | true => simp [awaitAll_true]
      | false => simp
    refine ⟨key, fun hh ht a ha => seeded_of ?_⟩
    rw [h]
    exact requestAll_works s.rows hh initialAddresses w (key.1 ht) a ha
  · exact absurd hs h

/-- **C106.** A start, whether it succeeds or not, changes nothing but the initial accounts,
and leaves each of them as it was or seeded. -/
theorem C106_only (s : Start) (w : World) : SameBut initialAddresses w (s.run w).1 ∧
    ∀ a, (s.run w).1.accounts a = w.accounts a ∨ (s.run w).1.Seeded a := by
  rcases s.run_cases w with ⟨_, h⟩ | ⟨_, h, _⟩
  · rw [h]
    obtain ⟨h1, h2⟩ := requestAll_same s.rows initialAddresses w
    exact ⟨h1, fun a => (h2 a).imp_right seeded_of⟩
  · rw [h]
    exact ⟨⟨fun _ _ => rfl, rfl, rfl⟩, fun _ => .inl rfl⟩

/-- **C106.** An agent with another number or which runs Lua, or of which the broker could
not recover, changes nothing; and it never waits. -/
theorem C106_others (s : Start) (w : World) (hs : ¬s.Seeds) :
    (s.run w).1 = w ∧ (s.run w).2 ≠ .waits ∧ ((s.run w).2 = .returns true ↔ s.recovered = .told true) := by
  rcases s.run_cases w with ⟨h, _⟩ | ⟨_, h⟩
  · exact absurd h hs
  · exact h

/-- **C106, in part**: a start ends if the broker answers.  Missing: one which does not
answer, for which there is no limit of time (`C106_waits_violated`). -/
theorem C106_ends_partial (s : Start) (w : World) (h : ∀ a ∈ initialAddresses, (s.rows a).Answered) :
    (s.run w).2 ≠ .waits := by
  rcases s.run_cases w with ⟨_, he⟩ | ⟨_, _, he, _⟩
  · rw [he]
    have := requestAll_answered s.rows initialAddresses w h
    unfold mintInitial
    dsimp only
    generalize requestAll s.rows w initialAddresses = q at *
    split
    · exact awaitAll_ends this
    · simp
  · exact he

theorem sum_const {dom : List Address} {f : Address → Nat} {l : List Address} {n : Nat} (hd : dom.Nodup)
    (hl : l.Nodup) (hsub : ∀ a ∈ l, a ∈ dom) (h1 : ∀ a ∈ l, f a = n) (h0 : ∀ a ∈ dom, a ∉ l → f a = 0) :
    (dom.map f).sum = l.length * n := by
  induction dom generalizing l with
  | nil =>
    cases l with
    | nil => simp
    | cons a l => exact absurd (hsub a (by simp)) (by simp)
  | cons b dom ih =>
    rw [List.map_cons, List.sum_cons]
    have hb := List.nodup_cons.1 hd
    by_cases hm : b ∈ l
    · have hlen : (l.erase b).length + 1 = l.length := by
        rw [List.length_erase_of_mem hm]
        have := List.length_pos_of_mem hm
        omega
      have := ih (l := l.erase b) hb.2 (hl.erase b)
        (fun a ha => by
          have h1 := (hl.mem_erase_iff).1 ha
          rcases List.mem_cons.1 (hsub a h1.2) with h | h
          · exact absurd h h1.1
          · exact h)
        (fun a ha => h1 a (List.mem_of_mem_erase ha))
        (fun a ha hn => h0 a (by simp [ha]) fun hm' =>
          hn ((hl.mem_erase_iff).2 ⟨fun e => hb.1 (e ▸ ha), hm'⟩))
      rw [this, h1 b hm, ← hlen, Nat.add_mul]
      omega
    · have := ih (l := l) hb.2 hl
        (fun a ha => by
          rcases List.mem_cons.1 (hsub a ha) with h | h
          · exact absurd (h ▸ ha) hm
          · exact h)
        h1 (fun a ha hn => h0 a (by simp [ha]) hn)
      rw [this, h0 b (by simp) hm]
      omega

/-- **C106.** Once the agent which seeds serves for the first time there is exactly the
money of the initial accounts: 256 millions of tokens. -/
theorem C106_supply (s : Start) (hs : s.Seeds) (hh : ∀ a, (s.rows a).Honest)
    (h : (s.run .none).2 = .returns true) (dom : List Address) (hd : dom.Nodup)
    (hdom : ∀ a ∈ initialAddresses, a ∈ dom) :
    (s.run .none).1.total dom = 256 * 10 ^ 24 := by
  have h1 := (C106_serves s .none hs).2 hh h
  have h2 := (C106_only s .none).1.accounts
  have := sum_const (f := (s.run .none).1.balance) (n := 10 ^ 24) hd initial_nodup hdom (fun a ha => (h1 a ha).1)
    (fun a _ hn => by unfold World.balance; rw [h2 a hn]; rfl)
  have hlen : initialAddresses.length = 256 := by decide +kernel
  unfold World.total
  rw [this, hlen]

/-- **C106.** A row which holds the account is the account of the world: a client which asks
for the balance is told it (C98). -/
theorem C106_row (ag : Agent) (w : World) (h : Holds ag w) (a : Address) :
    Holds { ag with read := fun k => if k = a.val then .ok (accountBytes initialAccount) else ag.read k } (w.seed a) := by
  have hk : ∀ x : Key, x ≠ .account a → x.bytes ≠ a.val := fun x hx e => hx (C83_keys x (Key.account a) e)
  refine ⟨fun b => ?_, fun b k => ?_, fun b => ?_⟩
  · show (if b.val = a.val then _ else _) = _
    by_cases e : b = a
    · subst e; rw [if_pos rfl, seed_same]; rfl
    · rw [if_neg fun h => e (Subtype.ext h), seed_other w e]
      exact h.accounts b
  · show (if b.val ++ k.val = a.val then _ else _) = _
    rw [if_neg (show b.val ++ k.val ≠ a.val from hk (Key.storage b k) (by simp))]
    exact h.storage b k
  · show (if b.val ++ [0] = a.val then _ else _) = _
    rw [if_neg (show b.val ++ [0] ≠ a.val from hk (Key.code b) (by simp))]
    exact h.code b

/-! ### Transactions and starts -/

/-- The requests among the steps. -/
def requests : List Step → List Request
  | [] => []
  | .request r :: l => r :: requests l
  | .start _ :: l => requests l

theorem start_nonce (s : Start) (w : World) {a : Address} (h : a ∉ initialAddresses) :
    (s.run w).1.nonce a = w.nonce a := by
  unfold World.nonce
  rw [(C106_only s w).1.accounts a h]

theorem play_above (c : Curve) (chain : UInt64) (s : Address) (hi : s ∉ initialAddresses)
    (hp : isPrecompile s = false) (l : List Step) : ∀ (w : World),
    Plain c chain (requests l) → (∀ r ∈ requests l, s ∉ Op.destroyedAll r.vm.ops) →
    w.nonce s + (requests l).length < 2 ^ 256 →
    ∀ tx ∈ (play c chain w l).2, checkSignature c chain tx = some s → w.nonce s < tx.nonce.nat := by
  induction l with
  | nil => intro w _ _ _ tx htx; cases htx
  | cons x l ih =>
    intro w hP hd hlen tx htx hs
    cases x with
    | start x =>
      have := ih (x.run w).1 hP hd (by rw [start_nonce x w hi]; exact hlen) tx htx hs
      rwa [start_nonce x w hi] at this
    | request r =>
      unfold play at htx
      simp only [requests, List.length_cons] at hlen
      have hd' := fun x hx => hd x (List.mem_cons_of_mem r hx)
      have hP' : Plain c chain (requests l) := Plain.tail (r := r) hP
      cases hrun : runSigned c (r.env w) chain r.tx r.locks r.vm with
      | updates u =>
        simp only [hrun] at htx
        unfold runSigned at hrun
        cases hcs : checkSignature c chain r.tx with
        | none => simp [hcs] at hrun
        | some s' =>
          simp only [hcs] at hrun
          have hpl := hP r (List.mem_cons_self ..) s' hcs
          have hn := C56_nonce (r.env w) s' r.tx r.locks r.vm u hrun hpl.1 (hpl.2 r (List.mem_cons_self ..))
          by_cases hss : s = s'
          · subst hss
            have hn1 : r.tx.nonce.nat = w.nonce s + 1 := by
              rw [hn.1]; exact Nat.mod_eq_of_lt (by show w.nonce s + 1 < _; omega)
            have hn2 : (w.apply u).nonce s = w.nonce s + 1 := by rw [← hn1]; exact hn.2
            rcases List.mem_cons.mp htx with rfl | htx
            · omega
            · have := ih (w.apply u) hP' hd' (by omega) tx htx hs
              omega
          · have ho := C56_others (r.env w) s' r.tx r.locks r.vm u hrun hpl.1 s hss hp (hd r (List.mem_cons_self ..))
            have ho : (w.apply u).nonce s = w.nonce s := ho
            rcases List.mem_cons.mp htx with rfl | htx
            · rw [hcs] at hs; cases hs; exact absurd rfl hss
            · have := ih (w.apply u) hP' hd' (by omega) tx htx hs
              omega
      | _ => simp only [hrun] at htx; exact ih w hP' hd' (by omega) tx htx hs

/-- **C106, in part** (and C56 for a system of which the agents are started again): no two
transactions of a sender are executed with the same nonce, so none is executed twice, if
the sender is not an initial account.  Missing: the initial accounts
(`C106_replay_violated`). -/
theorem C106_replay_partial (c : Curve) (chain : UInt64) (w : World) (l : List Step) (s : Address)
    (hi : s ∉ initialAddresses) (hp : isPrecompile s = false) (hP : Plain c chain (requests l))
    (hd : ∀ r ∈ requests l, s ∉ Op.destroyedAll r.vm.ops)
    (hlen : w.nonce s + (requests l).length < 2 ^ 256) :
    ((play c chain w l).2.filter fun t => checkSignature c chain t = some s).Pairwise
      (fun t t' => t.nonce.nat < t'.nonce.nat) := by
  induction l generalizing w with
  | nil => exact List.Pairwise.nil
  | cons x l ih =>
    cases x with
    | start x => exact ih (x.run w).1 hP hd (by rw [start_nonce x w hi]; exact hlen)
    | request r =>
      simp only [requests, List.length_cons] at hlen
      have hd' := fun x hx => hd x (List.mem_cons_of_mem r hx)
      have hP' : Plain c chain (requests l) := Plain.tail (r := r) hP
      unfold play
      cases hrun : runSigned c (r.env w) chain r.tx r.locks r.vm with
      | updates u =>
        simp only
        unfold runSigned at hrun
        cases hcs : checkSignature c chain r.tx with
        | none => simp [hcs] at hrun
        | some s' =>
          simp only [hcs] at hrun
          have hpl := hP r (List.mem_cons_self ..) s' hcs
          have hn := C56_nonce (r.env w) s' r.tx r.locks r.vm u hrun hpl.1 (hpl.2 r (List.mem_cons_self ..))
          by_cases hss : s = s'
          · subst hss
            have hn1 : r.tx.nonce.nat = w.nonce s + 1 := by
              rw [hn.1]; exact Nat.mod_eq_of_lt (by show w.nonce s + 1 < _; omega)
            have hn2 : (w.apply u).nonce s = w.nonce s + 1 := by rw [← hn1]; exact hn.2
            rw [List.filter_cons_of_pos (by simp [hcs])]
            refine List.pairwise_cons.mpr ⟨fun t ht => ?_, ih (w.apply u) hP' hd' (by omega)⟩
            have ht := List.mem_filter.1 ht
            have := play_above c chain s hi hp l (w.apply u) hP' hd' (by omega) t ht.1 (by simpa using ht.2)
            omega
          · have ho : (w.apply u).nonce s = w.nonce s :=
              C56_others (r.env w) s' r.tx r.locks r.vm u hrun hpl.1 s hss hp (hd r (List.mem_cons_self ..))
            rw [List.filter_cons_of_neg (by simp [hcs]; exact fun h => hss h.symm)]
            exact ih (w.apply u) hP' hd' (by omega)
      | _ => exact ih w hP' hd' (by omega)

/-! ### What does not hold -/

theorem play_requests (c : Curve) (chain : UInt64) (l : List Step) : ∀ w, ∀ t ∈ (play c chain w l).2,
    ∃ r ∈ requests l, r.tx = t := by
  induction l with
  | nil => intro w t ht; cases ht
  | cons x l ih =>
    intro w t ht
    cases x with
    | start x => exact ih _ t ht
    | request r =>
      unfold play at ht
      have hc : ∀ w, t ∈ (play c chain w l).2 → ∃ r' ∈ requests (.request r :: l), r'.tx = t := fun w h => by
        obtain ⟨r', h1, h2⟩ := ih w t h
        exact ⟨r', List.mem_cons_of_mem _ h1, h2⟩
      split at ht
      · rcases List.mem_cons.1 ht with rfl | h
        · exact ⟨r, List.mem_cons_self .., rfl⟩
        · exact hc _ h
      · exact hc _ ht

theorem play_start (c : Curve) (chain : UInt64) (s : Start) (l : List Step) : ∀ w,
    (play c chain w (l ++ [.start s])).1 = (s.run (play c chain w l).1).1 := by
  induction l with
  | nil => intro w; rfl
  | cons x l ih =>
    intro w
    cases x with
    | start x => exact ih _
    | request r =>
      rw [List.cons_append, play, play]
      split
      · exact ih _
      · exact ih _

/-- A broker which does what it is asked for. -/
def works : Row := { begin := .told true, lock := .told true, commit := .told true, finish := .told true, taken := true }

/-- A start of the agent 0 with such a broker. -/
def seeding : Start := { runner := .evm, component := 0, recovered := .told true, rows := fun _ => works }

/-- A curve with one key, which is that of the first of the initial accounts. -/
def oneKey : Curve :=
  { Key := Unit, sign := fun _ _ => ⟨.zero, .zero, 0⟩, recover := fun _ _ => some [], pubkey := fun _ => []
    keccak := fun b => b, address := fun _ => Address.ofNat 0x01a151cc5ed14d110cc0e6b64360913de9f453f1 }

/-- What the first initial account pays to the account 3. -/
def payment : EvmTx :=
  let tx := { sampleTx (some (addr 3)) (num 100) (num 22000) (num 2) with nonce := num 1 }
  tx.withSig (ethSign oneKey () (sigHash oneKey 0xcbdc tx) tx.type 0xcbdc)

/-- It is served. -/
def paying : Step :=
  .request { tx := payment, locks := (true, true), fails := fun _ => false,
             vm := { ops := [], status := .success, gasLeft := 0, output := [] }
             createAddress := fun _ _ => addr 9, create2Address := fun _ _ _ => addr 8 }

/-- The life of a system in which the agent 0 is started again. -/
def restarted : List Step := [.start seeding, paying, .start seeding, paying]

/-- The hypotheses of the theorems above are met by these starts. -/
example : seeding.Seeds ∧ (∀ a, (seeding.rows a).Honest) ∧ (∀ a ∈ initialAddresses, (seeding.rows a).Works) ∧
    (seeding.run .none).2 = .returns true ∧ initialAddresses.Nodup :=
  have h : seeding.Seeds := ⟨rfl, rfl, rfl⟩
  have hw : ∀ a ∈ initialAddresses, (seeding.rows a).Works := fun _ _ => ⟨rfl, rfl, rfl, rfl⟩
  ⟨h, fun _ _ => rfl, hw, (C106_serves seeding .none h).1.2 hw, initial_nodup⟩

/-- A payment of the account 1, which is not among them. -/
def otherPays : Request :=
  { tx := sampleTx (some (addr 3)) (num 100) (num 22000) (num 2), locks := (true, true), fails := fun _ => false,
    vm := { ops := [], status := .success, gasLeft := 0, output := [] }
    createAddress := fun _ _ => addr 9, create2Address := fun _ _ _ => addr 8 }

/-- The hypotheses of `C106_replay_partial` are met by a system in which it is asked for
before and after a start; it is executed once. -/
example : addr 1 ∉ initialAddresses ∧ isPrecompile (addr 1) = false ∧
    (∀ r ∈ requests [.start seeding, .request otherPays, .start seeding, .request otherPays],
      checkSignature { oneKey with address := fun _ => addr 1 } 0xcbdc r.tx = some (addr 1) ∧
      addr 1 ∉ Op.destroyedAll r.vm.ops) ∧
    (play { oneKey with address := fun _ => addr 1 } 0xcbdc (sample (num 100000))
      [.start seeding, .request otherPays, .start seeding, .request otherPays]).2.length = 1 := by
  refine ⟨by decide +kernel, by decide +kernel, fun r hr => ?_, by decide +kernel⟩
  simp only [requests, List.mem_cons, List.not_mem_nil, or_false, or_self] at hr
  subst hr
  exact ⟨by decide +kernel, by decide +kernel⟩

/-- **C106 (and C56) is violated**: a signed payment of an initial account is executed
again, as it is, after the agent 0 was started again.  The account which is paid gets it
twice. -/
theorem C106_replay_violated :
    (∀ k h, oneKey.recover (oneKey.sign k h) h = some (oneKey.pubkey k)) ∧
    checkSignature oneKey 0xcbdc payment = initialAddresses.head? ∧
    (play oneKey 0xcbdc .none restarted).2 = [payment, payment] ∧
    (play oneKey 0xcbdc .none restarted).1.balance (addr 3) = 200 := by
  refine ⟨fun _ _ => rfl, by decide +kernel, ?_, by decide +kernel⟩
  have h : (play oneKey 0xcbdc .none restarted).2.length = 2 := by decide +kernel
  refine List.eq_replicate_iff.2 ⟨h, fun t ht => ?_⟩
  obtain ⟨r, hr, rfl⟩ := play_requests _ _ restarted _ t ht
  simp only [restarted, requests, paying, List.mem_cons, List.not_mem_nil, or_false, or_self] at hr
  rw [hr]

/-- **C106 (and C54) is violated**: a start of the agent 0 when there is money already makes
more of it.  After the first start there are 256 millions of tokens; after one payment and
another start there are 100 units more, and the nonce of the payer is zero again. -/
theorem C106_money_violated :
    (play oneKey 0xcbdc .none [.start seeding]).1.total (addr 3 :: initialAddresses) = 256 * 10 ^ 24 ∧
    (play oneKey 0xcbdc .none ([.start seeding, paying] ++ [.start seeding])).1.total (addr 3 :: initialAddresses) =
      256 * 10 ^ 24 + 100 ∧
    (initialAddresses.head?.map (play oneKey 0xcbdc .none [.start seeding, paying]).1.nonce,
      initialAddresses.head?.map (play oneKey 0xcbdc .none [.start seeding, paying, .start seeding]).1.nonce) =
      (some 1, some 0) := by
  have hs : seeding.Seeds := ⟨rfl, rfl, rfl⟩
  have hh : ∀ a, (seeding.rows a).Honest := fun _ _ => rfl
  have hr : ∀ w, (seeding.run w).2 = .returns true := fun w =>
    (C106_serves seeding w hs).1.2 fun _ _ => ⟨rfl, rfl, rfl, rfl⟩
  have h3 : addr 3 ∉ initialAddresses := by decide +kernel
  have h1 := C106_supply seeding hs hh (hr _) _ (List.nodup_cons.2 ⟨h3, initial_nodup⟩)
    fun a ha => List.mem_cons_of_mem _ ha
  have hplay := play_start oneKey 0xcbdc seeding [.start seeding, paying] .none
  have h0 := play_start oneKey 0xcbdc seeding [] .none
  rw [List.nil_append] at h0
  have hb : (play oneKey 0xcbdc .none ([.start seeding, paying] ++ [.start seeding])).1.balance (addr 3) = 100 := by
    decide +kernel
  have hlen : initialAddresses.length = 256 := by decide +kernel
  have hsum := sum_const (f := (play oneKey 0xcbdc .none ([.start seeding, paying] ++ [.start seeding])).1.balance)
    (n := 10 ^ 24) initial_nodup initial_nodup (fun a ha => ha)
    (fun a ha => by rw [hplay]; exact ((C106_serves seeding _ hs).2 hh (hr _) a ha).1) (fun a ha hn => absurd ha hn)
  refine ⟨by rw [h0]; exact h1, ?_, by decide +kernel⟩
  unfold World.total
  rw [List.map_cons, List.sum_cons]
  rw [hlen] at hsum
  generalize (play oneKey 0xcbdc .none ([.start seeding, paying] ++ [.start seeding])).1 = w at *
  rw [hb, hsum]

/-- **C106 is violated**: if one request is never answered the agent waits for ever, as
there is no limit of time for it, unlike for the recovery of the broker. -/
theorem C106_waits_violated : ∃ s : Start, s.Seeds ∧ (∀ a, a ≠ Address.ofNat 0x01a151cc5ed14d110cc0e6b64360913de9f453f1 →
    (s.rows a).Works) ∧ ∀ w, (s.run w).2 = .waits := by
  refine ⟨{ seeding with rows := fun a => if a = Address.ofNat 0x01a151cc5ed14d110cc0e6b64360913de9f453f1 then
    { works with lock := .silent } else works }, ⟨rfl, rfl, rfl⟩, fun a ha => ?_, fun w => ?_⟩
  · dsimp only
    rw [if_neg ha]
    exact ⟨rfl, rfl, rfl, rfl⟩
  · have hcons : initialAddresses = Address.ofNat 0x01a151cc5ed14d110cc0e6b64360913de9f453f1 :: initialAddresses.tail := rfl
    have hall : ∀ (rows : Address → Row) (l : List Address) (w : World), (∀ a ∈ l, (putRow (rows a)).started = true) →
        (requestAll rows w l).2.2 = true := by
      intro rows l
      induction l with
      | nil => intro w _; rfl
      | cons a l ih =>
        intro w h
        unfold requestAll
        simp only [h a (by simp), if_true]
        exact ih _ fun b hb => h b (by simp [hb])
    unfold Start.run mintInitial
    simp only [seeding, if_true]
    rw [hall _ _ _ fun a _ => by split <;> rfl, if_pos rfl, hcons]
    unfold requestAll
    rfl

end Verif.Evm
