/-
Properties C80 to C85 of the Rabin DKG (`src/share/dkg/rabin/dkg.rs`): `finished`, timeouts,
session binding, thresholds of deals, panics.
-/
import Verif.Props.DkgRabinEvidence
import Verif.Lemmas.DkgRabinDealer
import Verif.Props.DkgPedersenPanic

set_option linter.unusedSectionVars false

namespace Kyber.Props

open Kyber Kyber.Poly Kyber.Spec Kyber.VssR Kyber.DkgR

variable {F G : Type} [Field F] [AddCommGroup G] [DecidableEq G]

/-! ## C80 -/

section

variable [SMul F G]

/-- C80, the intended property: a participant that has finished can compute its share of the key. -/
def C80_statement : Prop :=
  ∀ (F G : Type) (_ : Field F) (_ : AddCommGroup G) (_ : Module F G) (_ : DecidableEq G)
    (E : Env F G) (_ : E.suite.Lawful) (_ : E.prims.Lawful) (_ : Function.Injective E.suite.hash)
    (_ : ∀ d, E.codec.dec (E.codec.enc d) = some d)
    (x : F) (pubs : List G) (_ : pubs.Nodup) (t : Nat) (secret : F) (fD gD : List F) (d0 : Dkg F G)
    (_ : newDistKeyGenerator E x pubs t secret fD gD = .ok d0) (cs : List (QCall F G))
    (ord : MapOrder),
    (qRun E d0 cs).finished ord = true → ∃ k, (qRun E d0 cs).distKeyShare ord = .ok k

/-- C80, what holds: a participant that has finished computes its share exactly when the commitments
of the qualified dealers have the same number of coefficients, otherwise it gets an error about the
number of coefficients. Missing: this hypothesis, which `process_secret_commits` does not check. -/
theorem C80_finished_partial (E : Env F G) (x : F) (pubs : List G) (t : Nat) (secret : F)
    (fD gD : List F) (d0 : Dkg F G)
    (h0 : newDistKeyGenerator E x pubs t secret fD gD = .ok d0) (cs : List (QCall F G))
    (ord : MapOrder) (hfin : (qRun E d0 cs).finished ord = true)
    (hlen : ∀ i p, QualifiedR (qRun E d0 cs) i → (qRun E d0 cs).commitments.get i = some p →
      p.commits.length = t) :
    ∃ k, (qRun E d0 cs).distKeyShare ord = .ok k ∧ k.commits.length = t := by
  obtain ⟨k, hk⟩ := (C39_succeeds_iff E x pubs t secret fD gD d0 h0 cs ord ord).2 ⟨hfin, t, hlen⟩
  refine ⟨k, hk, ?_⟩
  have hn : (qRun E d0 cs).verifiers.keys.Nodup := DkgR.reach_nodup h0 cs
  obtain ⟨h1, D, P, len, h2, rfl⟩ := (C39_dist_key_share_iff E x pubs t secret fD gD d0 h0 cs ord k _
    (fun i => mem_qualSet hn)).1 hk
  have ht := (thresholdR h0).1
  obtain ⟨i, hi⟩ := Finset.card_pos.1 (show 0 < (qualSet (qRun E d0 cs)).card by omega)
  obtain ⟨-, h3, h4⟩ := h2 i hi
  simp only [List.length_map, List.length_range]
  rw [← h4]
  exact hlen i (P i) ((mem_qualSet hn).1 hi) h3

/-! ## C81 -/

/-- C81, the intended property: a participant that has finished stays finished, whatever
complaints, commitments and shares arrive. -/
def C81_statement : Prop :=
  ∀ (F G : Type) (_ : Field F) (_ : AddCommGroup G) (_ : Module F G) (_ : DecidableEq G)
    (E : Env F G) (_ : E.suite.Lawful) (_ : E.prims.Lawful) (_ : Function.Injective E.suite.hash)
    (_ : ∀ d, E.codec.dec (E.codec.enc d) = some d)
    (x : F) (pubs : List G) (_ : pubs.Nodup) (t : Nat) (secret : F) (fD gD : List F) (d0 : Dkg F G)
    (_ : newDistKeyGenerator E x pubs t secret fD gD = .ok d0) (cs : List (QCall F G))
    (ord : MapOrder) (c : QCall F G),
    (∃ ord' cc k, c = .complaint ord' cc k) ∨ (∃ ord' sc k, c = .commits ord' sc k) ∨
      (∃ ord' rc, c = .reconstruct ord' rc) →
    (qRun E d0 cs).finished ord = true → (qStep E (qRun E d0 cs) c).finished ord = true

/-- C81, what holds: own commitments, commitments of others and reconstruction messages keep a
finished participant finished. Missing: complaints. -/
theorem C81_stays_finished_partial (E : Env F G) (x : F) (pubs : List G) (t : Nat) (secret : F)
    (fD gD : List F) (d0 : Dkg F G)
    (h0 : newDistKeyGenerator E x pubs t secret fD gD = .ok d0) (cs : List (QCall F G))
    (ord : MapOrder) (c : QCall F G)
    (hc : (∃ k, c = .ownCommits k) ∨ (∃ ord' sc k, c = .commits ord' sc k) ∨
      (∃ ord' rc, c = .reconstruct ord' rc))
    (hfin : (qRun E d0 cs).finished ord = true) :
    (qStep E (qRun E d0 cs) c).finished ord = true := by
  set d := qRun E d0 cs with hd
  have hnd : d.verifiers.keys.Nodup := DkgR.reach_nodup h0 cs
  have hver : (qStep E d c).verifiers = d.verifiers := by
    rcases hc with ⟨k, rfl⟩ | ⟨ord', sc, k, rfl⟩ | ⟨ord', rc, rfl⟩
    · show (d.secretCommits E.suite k).1.verifiers = _
      unfold Dkg.secretCommits
      split
      · rfl
      · split <;> rfl
    · show (d.processSecretCommits E ord' sc k).1.verifiers = _
      rcases processSecretCommits_cases E ord' d sc k with ⟨h, -⟩ | ⟨_, _, _, -, -, -, -, -, -, -, h⟩ <;>
        rw [h]
    · show (d.processReconstructCommits E ord' rc).1.verifiers = _
      rcases processReconstructCommits_cases E ord' d rc with (h | ⟨arr, h, -⟩) |
        ⟨_, _, _, -, -, -, -, -, -, -, -, h⟩ <;> rw [h]
  have hQ : ∀ i, i ∈ qualSet d ↔ QualifiedR d i := fun i => mem_qualSet hnd
  have hrun : qStep E d c = qRun E d0 (cs ++ [c]) := by
    rw [hd]; unfold qRun; rw [List.foldl_append]; rfl
  have hQ' : ∀ i, i ∈ qualSet d ↔ QualifiedR (qRun E d0 (cs ++ [c])) i := by
    intro i
    rw [hQ, ← hrun]
    unfold QualifiedR
    rw [hver]
  rw [C39_finished_iff E x pubs t secret fD gD d0 h0 cs ord _ hQ] at hfin
  rw [hrun, C39_finished_iff E x pubs t secret fD gD d0 h0 (cs ++ [c]) ord _ hQ']
  refine ⟨hfin.1, fun i hi => ?_⟩
  rw [← hrun]
  by_cases hch : (qStep E d c).commitments.get i = d.commitments.get i
  · rw [hch]; exact hfin.2 i hi
  · rcases C40_commitments_change E d hnd c i hch with ⟨k, rfl, rfl⟩ | ⟨_, _, _, _, -, -, -, -, -, -, -, h⟩ |
      ⟨ord', cc, k, rc, rfl, -⟩ | ⟨_, _, _, _, _, -, -, -, -, -, -, -, -, h⟩
    · have hch' : (d.secretCommits E.suite k).1.commitments.get d.index ≠ d.commitments.get d.index :=
        hch
      show ∃ p, (d.secretCommits E.suite k).1.commitments.get d.index = some p
      unfold Dkg.secretCommits at hch' ⊢
      split
      · rename_i h1; rw [if_pos h1] at hch'; exact absurd rfl hch'
      · rename_i h1
        rw [if_neg h1] at hch'
        split
        · rename_i h2; rw [h2] at hch'; exact absurd rfl hch'
        · exact ⟨_, (AMap.get_insert _ _ _ _).trans (if_pos rfl)⟩
    · exact ⟨_, h⟩
    · rcases hc with ⟨_, h⟩ | ⟨_, _, _, h⟩ | ⟨_, _, h⟩ <;> cases h
    · exact ⟨_, h⟩

/-- C81: a dealer whose reconstructed commitments are dropped by a complaint can never be
reconstructed again. As long as the dealer itself sends no commitments, they stay missing, and
while the dealer is qualified the participant does not finish. -/
theorem C81_stuck (E : Env F G) (x : F) (pubs : List G) (t : Nat) (secret : F)
    (fD gD : List F) (d0 : Dkg F G)
    (h0 : newDistKeyGenerator E x pubs t secret fD gD = .ok d0) (cs cs' : List (QCall F G))
    (j : Nat) (hj : j ≠ d0.index)
    (hr : (qRun E d0 cs).reconstructed.get j ≠ none) (hc : (qRun E d0 cs).commitments.get j = none)
    (hcs : ∀ ord sc k, QCall.commits ord sc k ∈ cs' → sc.index ≠ j) :
    (qRun E d0 (cs ++ cs')).commitments.get j = none ∧
    (QualifiedR (qRun E d0 (cs ++ cs')) j → ∀ ord, (qRun E d0 (cs ++ cs')).finished ord = false) := by
  have key : (qRun E d0 (cs ++ cs')).commitments.get j = none ∧
      (qRun E d0 (cs ++ cs')).reconstructed.get j ≠ none := by
    induction cs' using List.reverseRecOn with
    | nil => rw [List.append_nil]; exact ⟨hc, hr⟩
    | append_singleton cs' c ih =>
      obtain ⟨h1, h2⟩ := ih (fun ord sc k h => hcs ord sc k (by simp [h]))
      have hrun : qRun E d0 (cs ++ (cs' ++ [c])) = qStep E (qRun E d0 (cs ++ cs')) c := by
        unfold qRun; rw [← List.append_assoc, List.foldl_append]; rfl
      rw [hrun]
      refine ⟨?_, qStep_reconstructed E _ c j h2⟩
      have hnd : (qRun E d0 (cs ++ cs')).verifiers.keys.Nodup := DkgR.reach_nodup h0 _
      by_contra hne
      have hch : (qStep E (qRun E d0 (cs ++ cs')) c).commitments.get j ≠
          (qRun E d0 (cs ++ cs')).commitments.get j := by rw [h1]; exact hne
      rcases C40_commitments_change E _ hnd c j hch with ⟨k, -, hk⟩ |
        ⟨ord, sc, k, _, rfl, hk, -⟩ | ⟨_, _, _, _, -, -, -, h⟩ | ⟨ord, rc, pub, arr, pri, rfl, hk, -⟩
      · exact hj (hk.trans (qRun_evolves E d0 _).index)
      · exact hcs ord sc k (by simp) hk
      · exact hne h
      · apply hch
        show ((qRun E d0 (cs ++ cs')).processReconstructCommits E ord rc).1.commitments.get j = _
        unfold Dkg.processReconstructCommits
        rw [if_pos]
        rw [hk]
        unfold AMap.contains
        cases h3 : (qRun E d0 (cs ++ cs')).reconstructed.get j with
        | none => exact absurd h3 h2
        | some b => rfl
  refine ⟨key.1, fun hq ord => ?_⟩
  have hnd : (qRun E d0 (cs ++ cs')).verifiers.keys.Nodup := DkgR.reach_nodup h0 _
  rw [Bool.eq_false_iff]
  intro hf
  rw [C39_finished_iff E x pubs t secret fD gD d0 h0 _ ord _ (fun i => mem_qualSet hnd)] at hf
  obtain ⟨p, hp⟩ := hf.2 j ((mem_qualSet hnd).2 hq)
  rw [key.1] at hp; cases hp

/-! ## C82 -/

/-- C82, the intended property: after `set_timeout` a participant that is in its own qualified set
can publish its secret commitments, although some participants never answered. -/
def C82_statement : Prop :=
  ∀ (F G : Type) (_ : Field F) (_ : AddCommGroup G) (_ : Module F G) (_ : DecidableEq G)
    (E : Env F G) (_ : E.suite.Lawful) (_ : E.prims.Lawful) (_ : Function.Injective E.suite.hash)
    (_ : ∀ d, E.codec.dec (E.codec.enc d) = some d)
    (x : F) (pubs : List G) (_ : pubs.Nodup) (t : Nat) (secret : F) (fD gD : List F) (d0 : Dkg F G)
    (_ : newDistKeyGenerator E x pubs t secret fD gD = .ok d0) (cs : List (QCall F G)) (k : F),
    QualifiedR (qRun E d0 (cs ++ [.timeout])) d0.index →
    ∃ sc, ((qRun E d0 (cs ++ [.timeout])).secretCommits E.suite k).2 = .ok sc

/-- C82: one participant that does not answer a deal blocks its dealer for good: as long as no
response of `l` to the own deal is processed, `secret_commits` fails, whatever else happens and however
often the timeout is set. -/
theorem C82_silent_participant_blocks (E : Env F G) (x : F) (pubs : List G) (t : Nat) (secret : F)
    (fD gD : List F) (d0 : Dkg F G)
    (h0 : newDistKeyGenerator E x pubs t secret fD gD = .ok d0) (cs : List (QCall F G)) (k : F)
    (l : Nat) (hl : l < pubs.length) (hne : l ≠ d0.index)
    (hsilent : ∀ r k, QCall.response r k ∈ cs → r.index = d0.index → r.response.index ≠ l) :
    ((qRun E d0 cs).secretCommits E.suite k).2 = .err .dealNotCertified := by
  have hS : Setup E (qRun E d0 cs) := (setup_new h0).step (qRun_evolves E d0 cs)
  have hpart : (qRun E d0 cs).participants = pubs := by
    obtain ⟨-, -, -, -, h5, -⟩ := newDistKeyGenerator_ok h0
    exact (qRun_evolves E d0 cs).participants.trans h5
  have hget : (qRun E d0 cs).dealer.aggregator.responses.get l = none := by
    by_contra hc
    rcases qRun_dealer_get E d0 cs l hc with h | h | ⟨r, k, h1, h2, h3⟩
    · obtain ⟨-, h2, -⟩ := newDistKeyGenerator_ok h0
      obtain ⟨_, _, -, -, -, -, -, -, -, -, -, -, -, -, -, -, -, h10⟩ := newDealer_ok h2
      rw [h10] at h
      exact h rfl
    · exact hne h
    · exact hsilent r k h1 h2 h3
  have hcert : (qRun E d0 cs).dealer.aggregator.dealCertified = false := by
    unfold Aggregator.dealCertified
    simp only [Bool.and_eq_false_iff, Bool.not_eq_false', Bool.or_eq_true, decide_eq_true_eq]
    right; left
    rw [List.length_pos_iff_exists_mem]
    refine ⟨l, List.mem_filter.2 ⟨?_, by simp [AMap.contains, hget]⟩⟩
    rw [List.mem_range, hS.aggVerifiers, hpart]; exact hl
  unfold Dkg.secretCommits
  rw [if_pos hcert]

/-- C82, what holds: with all responses and `t` approvals `secret_commits` succeeds and gives
commitments to the own secret polynomial. Missing: timeouts. -/
theorem C82_secret_commits_partial (E : Env F G) (x : F) (pubs : List G) (t : Nat) (secret : F)
    (fD gD : List F) (d0 : Dkg F G)
    (h0 : newDistKeyGenerator E x pubs t secret fD gD = .ok d0) (cs : List (QCall F G)) (k : F)
    (hc : (qRun E d0 cs).dealer.aggregator.dealCertified = true) :
    ∃ sc, ((qRun E d0 cs).secretCommits E.suite k).2 = .ok sc ∧ sc.index = d0.index ∧
      sc.commitments = (secret :: fD.take (t - 1)).map (· • E.suite.base) := by
  have hev := qRun_evolves E d0 cs
  unfold Dkg.secretCommits Dealer.commits
  rw [if_neg (by simp [hc]), if_neg (by simp [hc, dealCertified_enough hc])]
  refine ⟨_, rfl, hev.index, ?_⟩
  show (qRun E d0 cs).dealer.secretCommits = _
  rw [hev.dealer.secretCommits]
  obtain ⟨-, h2, -⟩ := newDistKeyGenerator_ok h0
  obtain ⟨f, _, -, -, -, hf, -, -, -, -, -, -, -, h6, -⟩ := newDealer_ok h2
  rw [h6, hf]

end

/-! ## Cases -/

namespace DkgRExample

open Kyber.Toy

/-- `C80_finished_partial`: participant 1 is finished, all commitments have length 2. -/
example : fin1.finished MapOrder.rev = true ∧ qualSet fin1 = {0, 1, 2} ∧
    (fin1.commitments.get 0).map (fun p => p.commits.length) = some 2 ∧
    (fin1.commitments.get 1).map (fun p => p.commits.length) = some 2 ∧
    (fin1.commitments.get 2).map (fun p => p.commits.length) = some 2 := by
  decide +kernel

/-- `C81_stays_finished_partial` with a share that participant 2 made up. -/
example : (qStep envRI fin1 (.reconstruct MapOrder.id forgedRc)).finished MapOrder.rev = true :=
  C81_stays_finished_partial envRI _ _ _ _ _ _ _ (netRI_honest.start 1 (by decide)) _ MapOrder.rev _
    (Or.inr (Or.inr ⟨_, _, rfl⟩)) (by decide +kernel)

/-- Another complaint of participant 2 about dealer 0, with a share that is not on the reconstructed polynomial. -/
def offPolyCc : ComplaintCommits (ZMod 11) (ZMod 11) :=
  let cc : ComplaintCommits (ZMod 11) (ZMod 11) :=
    ⟨2, 0, ⟨((netR envRI).D 0).dealer.sessionId, ⟨2, 5⟩, ⟨2, 0⟩, 2, [10, 0]⟩, []⟩
  { cc with signature := Schnorr.sign envRI.suite 4 2 (cc.hash envRI) }

/-- A complaint, reconstruction, and another complaint. -/
def fin3 : List (QCall (ZMod 11) (ZMod 11)) :=
  [.complaint MapOrder.id forgedCc 4, .reconstruct MapOrder.id forgedRc, .complaint MapOrder.id offPolyCc 4]

/-- `C81_stuck`: after the second complaint dealer 0, still qualified, is without commitments, and whatever
shares are revealed the participant never finishes. -/
example (rcs : List (ReconstructCommits (ZMod 11))) :
    (qRun envRI fin1 (fin3 ++ rcs.map (QCall.reconstruct MapOrder.id))).commitments.get 0 = none := by
  have hrun : ∀ l, qRun envRI fin1 l = qRun envRI ((netR envRI).D 1)
      (sched.map (RMsg.call envRI (netR envRI) 1 MapOrder.id 1) ++ l) := by
    intro l; unfold fin1 qRun; rw [List.foldl_append]
  rw [hrun, ← List.append_assoc]
  refine (C81_stuck envRI _ _ _ _ _ _ _ (netRI_honest.start 1 (by decide)) _ _ 0 (by decide +kernel) ?_ ?_ ?_).1
  · rw [← hrun]; decide +kernel
  · rw [← hrun]; decide +kernel
  · intro ord sc k h
    simp at h

/-- Participant 1 with everything but the response of participant 0 to its deal, and timeouts. -/
def schedSilent0 : List RMsg := [.deals, .deal 0, .deal 2, .resp 1 2, .resp 0 2, .resp 2 0, .timeout, .timeout]

/-- `C82_silent_participant_blocks`: participant 1 is qualified in its own eyes and cannot go on. -/
example : qualSet (qRun envRI ((netR envRI).D 1) (schedSilent0.map (RMsg.call envRI (netR envRI) 1 MapOrder.id 1)))
      = {0, 1, 2} ∧
    ((qRun envRI ((netR envRI).D 1) (schedSilent0.map (RMsg.call envRI (netR envRI) 1 MapOrder.id 1))).secretCommits
      envRI.suite 4).2 = .err .dealNotCertified := by
  decide +kernel

/-- `C82_secret_commits_partial`: with all responses the commitments to `1 + 6 X` come out. -/
example : fin1.dealer.aggregator.dealCertified = true ∧
    (match (fin1.secretCommits envRI.suite 4).2 with
      | .ok sc => decide (sc.index = 1 ∧ sc.commitments = [1 * 2, 6 * 2])
      | _ => false) = true := by
  decide +kernel

end DkgRExample

end Kyber.Props
