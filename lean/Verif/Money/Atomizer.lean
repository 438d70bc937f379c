import Verif.Money.Books
import Verif.Atomizer.Props

/-! Helper lemmas for C88: what was not attested does not matter to the atomizer. -/
namespace Verif.Money

open Verif.Tx Verif.Serial Verif.Atomizer

/-- The transactions that occur and pass the attestation check. -/
noncomputable def sealed (P : Params) (t : CompactTx) : Bool :=
  haveI := Classical.propDecidable (P.submitted t)
  P.attested t && decide (P.submitted t)

theorem sealed_iff {P : Params} {t : CompactTx} :
    sealed P t = true ↔ P.attested t = true ∧ P.submitted t := by simp [sealed]

/-- The same system in which only transactions that pass the attestation check occur. -/
noncomputable def sealedP (P : Params) : Params :=
  { P with attested := sealed P, submitted := fun t => sealed P t = true }

/-- The state without the notifications that will be ignored. -/
noncomputable def trim (P : Params) (w : World) : World :=
  { w with notifs := w.notifs.filter fun n => sealed P n.tx }

theorem digestTx_tx {s : Shard} {tx : CompactTx} {n : Notif} (h : s.digestTx tx = .inr n) :
    n.tx = tx := by
  unfold Shard.digestTx at h
  split at h
  · cases h
  · simp only at h
    split at h
    · cases h
    · split at h
      · cases h
      · rw [← Sum.inr.inj h]

/-- Leaving out unattested transactions leaves out no block. -/
theorem reach_trim {P : Params} (hd : ∀ t, ¬ P.direct t) {w : World} (h : Reach P w) :
    Reach (sealedP P) (trim P w) ∧ ∀ n ∈ w.notifs, P.submitted n.tx := by
  induction h with
  | init => exact ⟨Reach.init (P := sealedP P), by simp [World.init]⟩
  | step w w' hr hs ih =>
    obtain ⟨ih, hsub⟩ := ih
    have hadd : ∀ n : Notif, P.submitted n.tx → ∀ n' ∈ w.notifs ++ [n], P.submitted n'.tx := by
      intro n hn n' hn'
      rcases List.mem_append.mp hn' with h | h
      · exact hsub n' h
      · rw [List.mem_singleton.mp h]; exact hn
    cases hs with
    | digest i b hb => exact ⟨ih.step _ _ (Step.digest (trim P w) i b hb), hsub⟩
    | restart i d hdisk => exact ⟨ih.step _ _ (Step.restart (trim P w) i d hdisk), hsub⟩
    | attest i tx n htx hn =>
      have htx' := digestTx_tx hn
      refine ⟨?_, hadd n (htx' ▸ htx)⟩
      by_cases hq : sealed P n.tx = true
      · have := ih.step _ _ (Step.attest (trim P w) i tx n (htx' ▸ hq) hn)
        simpa [trim, List.filter_append, hq] using this
      · simpa [trim, List.filter_append, hq] using ih
    | mint n hn hin =>
      refine ⟨?_, hadd n hn⟩
      by_cases hq : sealed P n.tx = true
      · have := ih.step _ _ (Step.mint (trim P w) n hq hin)
        simpa [trim, List.filter_append, hq] using this
      · simpa [trim, List.filter_append, hq] using ih
    | notify j n hn =>
      refine ⟨?_, hsub⟩
      by_cases hq : sealed P n.tx = true
      · have := ih.step _ _ (Step.notify (trim P w) j n (List.mem_filter.mpr ⟨hn, hq⟩))
        have he : (w.pools j).notify (sealedP P).attested n = (w.pools j).notify P.attested n := by
          simp only [Pool.notify, sealedP, hq, (sealed_iff.mp hq).1]
        simpa [trim, he] using this
      · have hna : P.attested n.tx = false := by
          cases ha : P.attested n.tx with
          | false => rfl
          | true => exact absurd (sealed_iff.mpr ⟨ha, hsub n hn⟩) hq
        have he : (w.pools j).notify P.attested n = w.pools j := by simp [Pool.notify, hna]
        have hu : upd w.pools j (w.pools j) = w.pools := by
          funext k; simp only [upd]; split <;> simp_all
        rw [he, hu]
        exact ih
    | propose j => exact ⟨ih.step _ _ (Step.propose (trim P w) j), hsub⟩
    | forget j => exact ⟨ih.step _ _ (Step.forget (trim P w) j), hsub⟩
    | commit ms sm r hms hc => exact ⟨ih.step _ _ (Step.commit (trim P w) ms sm r hms hc), hsub⟩
    | insert n a e hn hdir hi => exact absurd hdir (hd _)
    | block sm b errs hl hb => exact ⟨ih.step _ _ (Step.block (trim P w) sm b errs hl hb), hsub⟩
    | prune h sm r hp => exact ⟨ih.step _ _ (Step.prune (trim P w) h sm r hp), hsub⟩

theorem apply_strip (L : Ledger) (t : CompactTx) :
    L.apply { t with attestations := [] } = L.apply t := rfl

theorem after_strip (L : Ledger) (ts : List CompactTx) :
    L.after (ts.map fun t => { t with attestations := [] }) = L.after ts := by
  induction ts generalizing L with
  | nil => rfl
  | cons t ts ih => exact ih _

/-- A list of compact forms of signed transactions. -/
theorem full_list {c : Crypto} {signed : FullTx → Prop} (ts : List CompactTx)
    (h : ∀ t ∈ ts, ∃ f, signed f ∧ { t with attestations := [] } = CompactTx.ofFull c f) :
    ∃ fs : List FullTx, (∀ f ∈ fs, signed f) ∧
      ts.map (fun t => { t with attestations := [] }) = fs.map (CompactTx.ofFull c) := by
  induction ts with
  | nil => exact ⟨[], by simp, rfl⟩
  | cons t ts ih =>
    obtain ⟨f, hf, he⟩ := h t (by simp)
    obtain ⟨fs, hfs, hes⟩ := ih fun t' ht' => h t' (by simp [ht'])
    refine ⟨f :: fs, ?_, ?_⟩
    · intro f' hf'
      rcases List.mem_cons.mp hf' with rfl | h'
      · exact hf
      · exact hfs f' h'
    · simp only [List.map_cons, he, hes]

theorem legal_strip {L : Ledger} {ts : List CompactTx} (h : Legal L ts) :
    Legal L (ts.map fun t => { t with attestations := [] }) := by
  intro i t hi x hx
  rw [List.getElem?_map, Option.map_eq_some_iff] at hi
  obtain ⟨t', ht', rfl⟩ := hi
  rw [← List.map_take, after_strip]
  exact h i t' ht' x hx

end Verif.Money
