/-
Properties C80 to C82 of the Rabin DKG (`src/share/dkg/rabin/dkg.rs`): the counterexamples, and
cases meeting the hypotheses of the theorems in `DkgRabinMore.lean`.
-/
import Verif.Props.DkgRabinMore

set_option linter.unusedSectionVars false

set_option maxRecDepth 100000

namespace Kyber.Props

open Kyber Kyber.Poly Kyber.Spec Kyber.VssR Kyber.DkgR

namespace DkgRExample

open Kyber.Toy

/-! ### C80 -/

/-- Three commitments of dealer 2, to `1 + X + 2 X²`, which is 0 at 2, the share of participant 1. -/
def longCommits : SecretCommits (ZMod 11) :=
  let sc : SecretCommits (ZMod 11) := ⟨2, [2, 2, 4], ((netR envRI).D 2).dealer.sessionId, []⟩
  { sc with signature := Schnorr.sign envRI.suite 4 2 (sc.hash envRI.suite) }

/-- Participant 1 with all deals, responses and commitments, those of dealer 2 being too many. -/
def longRun : List (QCall (ZMod 11) (ZMod 11)) :=
  ([.deals, .deal 0, .deal 2, .resp 0 2, .resp 1 0, .resp 1 2, .resp 2 0, .ownCommits, .commits 0] :
    List RMsg).map (RMsg.call envRI (netR envRI) 1 MapOrder.id 1) ++ [.commits MapOrder.id longCommits 4]

theorem longRun_finished :
    (qRun envRI ((netR envRI).D 1) longRun).finished MapOrder.id = true := by decide +kernel

theorem longRun_key : (qRun envRI ((netR envRI).D 1) longRun).distKeyShare MapOrder.id =
    .err (.poly .wrongCoefficientsNumber) := by decide +kernel

/-- `C80_finished_partial` is met by the honest run. -/
example : fin1.finished MapOrder.id = true ∧
    (fin1.commitments.map (fun e => e.2.commits.length)) = [2, 2, 2] := by decide +kernel

/-! ### C81 -/

/-- A second forged complaint of participant 2 about dealer 0: share 1 at index 2. -/
def forgedCc2 : ComplaintCommits (ZMod 11) (ZMod 11) :=
  let cc : ComplaintCommits (ZMod 11) (ZMod 11) :=
    ⟨2, 0, ⟨((netR envRI).D 0).dealer.sessionId, ⟨2, 1⟩, ⟨2, 0⟩, 2, [2, 0]⟩, []⟩
  { cc with signature := Schnorr.sign envRI.suite 4 2 (cc.hash envRI) }

/-- The history: an honest run, a forged complaint, a forged share, a second forged complaint. -/
def stuckRun : List (QCall (ZMod 11) (ZMod 11)) :=
  sched.map (RMsg.call envRI (netR envRI) 1 MapOrder.id 1) ++
    [.complaint MapOrder.id forgedCc 4, .reconstruct MapOrder.id forgedRc,
      .complaint MapOrder.id forgedCc2 4]

/-- The hypotheses of `C81_stuck` are met after that history. -/
theorem stuckRun_stuck :
    (qRun envRI ((netR envRI).D 1) stuckRun).reconstructed.get 0 ≠ none ∧
    (qRun envRI ((netR envRI).D 1) stuckRun).commitments.get 0 = none ∧
    QualifiedR (qRun envRI ((netR envRI).D 1) stuckRun) 0 := by
  obtain ⟨f1, f2, f3, f4, f5, f6, f7, f8⟩ := fin2_facts
  obtain ⟨r1, r2, r3, r4⟩ := C39_reconstruct 11 envRI MapOrder.id fin2 forgedRc [0, 3]
    (by rw [f1]; rfl) (by rw [f1]; decide) f2 f3 4 f4 f5 [revealed] f6 (by decide +kernel)
    (by
      intro r hr
      have : r = revealed ∨ r = forgedRc := by simpa using hr
      rcases this with rfl | rfl <;> decide +kernel) (by rw [f1]; decide +kernel)
  set cs3 : List (QCall (ZMod 11) (ZMod 11)) :=
    sched.map (RMsg.call envRI (netR envRI) 1 MapOrder.id 1) ++
      [.complaint MapOrder.id forgedCc 4, .reconstruct MapOrder.id forgedRc] with hcs
  have hrun : qRun envRI ((netR envRI).D 1) cs3 =
      (fin2.processReconstructCommits envRI MapOrder.id forgedRc).1 := by
    rw [hcs]
    unfold qRun
    rw [List.foldl_append]
    rfl
  have hver : (qRun envRI ((netR envRI).D 1) cs3).verifiers = fin2.verifiers := by
    rw [hrun]
    rcases processReconstructCommits_cases envRI MapOrder.id fin2 forgedRc with
      (h1 | ⟨arr, h1, -⟩) | ⟨pub, arr, pri, h1, h2, h3, h4, h5, h6, h7, h8, h9⟩
    · rw [h1]
    · rw [h1]
    · rw [h9]
  have hq : ∀ j < 3, QualifiedR (qRun envRI ((netR envRI).D 1) cs3) j := by
    intro j hj
    unfold QualifiedR
    rw [hver]
    exact (fin2_qual j).1 (Finset.mem_range.2 hj)
  have hv0 : ∃ v a, fin2.verifiers.get 0 = some v ∧ v.aggregator = some a ∧
      a.dealCertified = true ∧ a.sid = ((netR envRI).D 0).dealer.sessionId := by
    have : (match fin2.verifiers.get 0 with
        | some v => match v.aggregator with
          | some a => a.dealCertified && decide (a.sid = ((netR envRI).D 0).dealer.sessionId)
          | none => false
        | none => false) = true := by decide +kernel
    revert this
    split
    · rename_i v hv
      split
      · rename_i a ha
        intro h
        simp only [Bool.and_eq_true, decide_eq_true_eq] at h
        exact ⟨v, a, hv, ha, h.1, h.2⟩
      · intro h; cases h
    · intro h; cases h
  have hstart := netRI_honest.start 1 (by decide)
  have hsig : ∃ issuer, ((netR envRI).pubs envRI)[forgedCc2.index]? = some issuer ∧
      Schnorr.verify envRI.suite issuer (forgedCc2.hash envRI) forgedCc2.signature = .ok () :=
    ⟨4, by decide +kernel, by decide +kernel⟩
  have hgood : GoodDealR envRI.suite.base (deriveH envRI ((netR envRI).pubs envRI))
      ((netR envRI).pubs envRI).length forgedCc2.deal := by unfold GoodDealR; decide +kernel
  have hcom : ∃ p, (qRun envRI ((netR envRI).D 1) cs3).commitments.get forgedCc2.dealerIndex = some p ∧
      p.commits ≠ [] ∧ pointVal p.commits ((forgedCc2.deal.secShare.i + 1 : Nat) : ZMod 11) ≠
        forgedCc2.deal.secShare.v • p.b.getD envRI.suite.base := by
    rw [hrun]
    exact ⟨_, r2, by decide +kernel, by decide +kernel⟩
  have hv0' : ∃ v a, (qRun envRI ((netR envRI).D 1) cs3).verifiers.get forgedCc2.dealerIndex = some v ∧
      v.aggregator = some a ∧ a.dealCertified = true ∧ a.sid = forgedCc2.deal.sessionId := by
    rw [hver]; exact hv0
  have hq2 : QualifiedR (qRun envRI ((netR envRI).D 1) cs3) forgedCc2.index := hq 2 (by decide)
  have hlen : ((netR envRI).pubs envRI).length < 2 ^ 32 := by
    rw [pubs_length]; decide
  have hacc := (C40_complaint_iff envRI _ _ _ _ _ _ ((netR envRI).D 1) hstart hlen cs3
    MapOrder.id forgedCc2 4).2 ⟨hsig, hq2, hv0', hgood, hcom⟩
  obtain ⟨rc, hrc⟩ := hacc
  have heff := C40_complaint_effect envRI _ _ _ _ _ _ ((netR envRI).D 1) hstart cs3
    MapOrder.id forgedCc2 4 rc hrc
  have hlast : qRun envRI ((netR envRI).D 1) stuckRun =
      ((qRun envRI ((netR envRI).D 1) cs3).processComplaintCommits envRI MapOrder.id forgedCc2 4).1 := by
    rw [hcs]
    unfold qRun stuckRun
    rw [List.foldl_append, List.foldl_append]
    rfl
  refine ⟨?_, ?_, ?_⟩
  · have : qRun envRI ((netR envRI).D 1) stuckRun =
      qStep envRI (qRun envRI ((netR envRI).D 1) cs3) (.complaint MapOrder.id forgedCc2 4) := hlast
    rw [this]
    apply qStep_reconstructed
    rw [hrun]
    have h3 : (fin2.processReconstructCommits envRI MapOrder.id forgedRc).1.reconstructed.get 0 =
      some true := r3
    rw [h3]; simp
  · rw [hlast]; exact heff.1
  · rw [hlast]
    unfold QualifiedR
    have h4 : ((qRun envRI ((netR envRI).D 1) cs3).processComplaintCommits envRI MapOrder.id
      forgedCc2 4).1.verifiers.get 0 = (qRun envRI ((netR envRI).D 1) cs3).verifiers.get 0 := heff.2.2.1
    rw [h4]
    exact hq 0 (by decide)

/-- So participant 1 does not finish, whatever the others send, until dealer 0 signs its
commitments again. -/
example (later : List (QCall (ZMod 11) (ZMod 11)))
    (h : ∀ ord sc k, QCall.commits ord sc k ∈ later → sc.index ≠ 0) :
    (qRun envRI ((netR envRI).D 1) (stuckRun ++ later)).commitments.get 0 = none :=
  (C81_stuck envRI _ _ _ _ _ _ ((netR envRI).D 1) (netRI_honest.start 1 (by decide)) stuckRun later 0
    (by decide +kernel) stuckRun_stuck.1 stuckRun_stuck.2.1 h).1

/-! ### C82 -/

/-- Participant 1; participant 2 does not answer the deals of the others. -/
def silentRun : List (QCall (ZMod 11) (ZMod 11)) :=
  ([.deals, .deal 0, .deal 2, .resp 1 0, .resp 2 0] : List RMsg).map
    (RMsg.call envRI (netR envRI) 1 MapOrder.id 1)

/-- The hypotheses of `C82_silent_participant_blocks` are met: no response of participant 2. -/
example : ∀ r k, QCall.response r k ∈ silentRun → r.index = ((netR envRI).D 1).index →
    r.response.index ≠ 2 := by
  intro r k h _
  simp only [silentRun, List.map_cons, List.map_nil, RMsg.call, List.mem_cons, reduceCtorEq,
    QCall.response.injEq, List.not_mem_nil, or_false, false_or] at h
  rcases h with ⟨rfl, -⟩ | ⟨rfl, -⟩ <;> decide

/-- The hypothesis of `C82_secret_commits_partial` is met by the honest run. -/
example : fin1.dealer.aggregator.dealCertified = true := by decide +kernel

end DkgRExample

open DkgRExample Kyber.Toy in
/-- C80 does not hold: dealer 2 commits to a polynomial of degree 2 that goes through the share of
participant 1, who finishes and then cannot compute the key. -/
theorem C80_violated : ¬ C80_statement := by
  intro h
  obtain ⟨k, hk⟩ := h (ZMod 11) (ZMod 11) _ _ _ _ envRI envRI_lawful prims_lawful (fun _ _ h => h)
    codecR_lawful _ _ netRI_honest.nodup _ _ _ _ ((netR envRI).D 1) (netRI_honest.start 1 (by decide))
    longRun MapOrder.id longRun_finished
  rw [longRun_key] at hk
  cases hk

open DkgRExample Kyber.Toy in
/-- C81 does not hold: the forged complaint takes a finished participant back. -/
theorem C81_violated : ¬ C81_statement := by
  intro h
  have h1 : fin1.finished MapOrder.id = true := by decide +kernel
  have := h (ZMod 11) (ZMod 11) _ _ _ _ envRI envRI_lawful prims_lawful (fun _ _ h => h)
    codecR_lawful _ _ netRI_honest.nodup _ _ _ _ ((netR envRI).D 1) (netRI_honest.start 1 (by decide))
    _ MapOrder.id (.complaint MapOrder.id forgedCc 4) (Or.inl ⟨_, _, _, rfl⟩) h1
  have h2 : fin2.finished MapOrder.id = false := by decide +kernel
  have h3 : fin2.finished MapOrder.id = true := this
  rw [h2] at h3
  cases h3

open DkgRExample Kyber.Toy in
/-- C82 does not hold: participant 2 of 3 stays silent; after the timeout participant 1 is in its own
qualified set, but its dealer does not know of the timeout. -/
theorem C82_violated : ¬ C82_statement := by
  intro h
  obtain ⟨sc, hsc⟩ := h (ZMod 11) (ZMod 11) _ _ _ _ envRI envRI_lawful prims_lawful (fun _ _ h => h)
    codecR_lawful _ _ netRI_honest.nodup _ _ _ _ ((netR envRI).D 1) (netRI_honest.start 1 (by decide))
    silentRun 4 (by
      have hn : (qRun envRI ((netR envRI).D 1) (silentRun ++ [.timeout])).verifiers.keys.Nodup := by
        decide +kernel
      rw [← mem_qualSet hn]
      decide +kernel)
  have : ((qRun envRI ((netR envRI).D 1) (silentRun ++ [.timeout])).secretCommits envRI.suite 4).2 =
      .err .dealNotCertified := by decide +kernel
  rw [this] at hsc
  cases hsc

end Kyber.Props
