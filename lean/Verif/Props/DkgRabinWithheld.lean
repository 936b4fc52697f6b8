/-
C135: a qualified dealer of the Rabin DKG (`src/share/dkg/rabin/dkg.rs`) that does not reveal its commitments.
-/
import Mathlib.LinearAlgebra.Lagrange
import Verif.Props.Agreement
import Verif.Props.DkgRabinEvidence

set_option linter.unusedSectionVars false

namespace Kyber.Spec

open Kyber.Poly Kyber.VssR Kyber.DkgR

variable {F G : Type} [Field F] [AddCommGroup G] [SMul F G] [DecidableEq G]

/-- Messages with shares for a reconstruction that carry a valid signature of a member of `H` were returned by a
call of that member, before they were heard. -/
def UnforgedR (E : Env F G) (ps : List G) (H : Finset Nat) (D : Nat → Dkg F G) (B : List (PublicR F G))
    (cs : Nat → List (QCall F G)) : Prop :=
  ∀ p rc pub, B[p]? = some (.reconstruct rc) → rc.index ∈ H → ps[rc.index]? = some pub →
    Schnorr.verify E.suite pub (rc.hash E.suite) rc.signature = .ok () →
    ∃ pre c post, cs rc.index = pre ++ c :: post ∧ saidR E (qRun E (D rc.index) pre) c = some (.reconstruct rc) ∧
      ((pre ++ [c]).filterMap heardR).length ≤ p

/-- No secret commitments with a valid signature of `j` are heard. -/
def WithheldR (E : Env F G) (ps : List G) (j : Nat) (B : List (PublicR F G)) : Prop :=
  ∀ sc pub, PublicR.commits sc ∈ B → sc.index = j → ps[j]? = some pub →
    Schnorr.verify E.suite pub (sc.hash E.suite) sc.signature ≠ .ok ()

/-- All secret commitments with a valid signature of `j` that are heard are `C`. -/
def RevealedR (E : Env F G) (ps : List G) (j : Nat) (C : List G) (B : List (PublicR F G)) : Prop :=
  ∀ sc pub, PublicR.commits sc ∈ B → sc.index = j → ps[j]? = some pub →
    Schnorr.verify E.suite pub (sc.hash E.suite) sc.signature = .ok () → sc.commitments = C

/-- The properly signed messages for a reconstruction of `j` are those of members of `H`. -/
def OnlyFromR (E : Env F G) (ps : List G) (H : Finset Nat) (j : Nat) (B : List (PublicR F G)) : Prop :=
  ∀ rc pub, PublicR.reconstruct rc ∈ B → rc.dealerIndex = j → ps[rc.index]? = some pub →
    Schnorr.verify E.suite pub (rc.hash E.suite) rc.signature = .ok () → rc.index ∈ H

end Kyber.Spec

namespace Kyber.Props

open Kyber Kyber.Poly Kyber.Spec Kyber.VssR Kyber.DkgR

/-- C135, the intended property: at most `n - |H|` participants, fewer than `t`, are faulty, the others follow the
protocol over a reliable broadcast channel and regard dealer `j` as qualified. Then they can go on, also if
`j` does not reveal its commitments, such that all of them finish. -/
def C135_statement : Prop :=
  ∀ (F G : Type) (_ : Field F) (_ : AddCommGroup G) (_ : DecidableEq G) (_ : DistribSMul F G)
    (E : VssR.Env F G) (_ : E.suite.Lawful) (_ : E.prims.Lawful) (_ : ∀ b, Lin F (E.pickFrom b))
    (_ : ∀ b b', E.suite.hash b = E.suite.hash b' → b = b')
    (_ : ∀ d, E.codec.dec (E.codec.enc d) = some d) (_ : PrimsOkR E)
    (ps : List G) (_ : ps.Nodup) (t : Nat) (H : Finset Nat) (_ : t ≤ H.card) (_ : ps.length < H.card + t)
    (x s : Nat → F) (fD gD : Nat → List F) (D : Nat → Dkg F G)
    (_ : ∀ i ∈ H, newDistKeyGenerator E (x i) ps t (s i) (fD i) (gD i) = .ok (D i) ∧ (D i).index = i)
    (B : List (PublicR F G)) (cs : Nat → List (QCall F G)) (_ : BroadcastR E H D B cs) (_ : UnforgedR E ps H D B cs)
    (j : Nat) (_ : j ∉ H) (_ : WithheldR E ps j B) (_ : ∀ i ∈ H, QualifiedR (qRun E (D i) (cs i)) j),
    ∃ B' cs', BroadcastR E H D B' cs' ∧ UnforgedR E ps H D B' cs' ∧ WithheldR E ps j B' ∧ ∀ i ∈ H, cs i <+: cs' i ∧
      QualifiedR (qRun E (D i) (cs' i)) j ∧ ∀ ord, (qRun E (D i) (cs' i)).finished ord = true

variable {F G : Type} [Field F] [AddCommGroup G] [DecidableEq G]

section

variable [SMul F G]

/-- The messages collected for the reconstruction of `j`. -/
def pendingOf (d : Dkg F G) (j : Nat) : List (ReconstructCommits F) := (d.pendingReconstruct.get j).getD []

theorem dealsLoop_pending (E : Env F G) (encs : List (VssP.EncryptedDeal G)) (vk : F) (l : List Nat)
    (d : Dkg F G) (dd : AMap (DkgR.Deal G)) :
    (Dkg.dealsLoop E encs vk l d dd).1.pendingReconstruct = d.pendingReconstruct := by
  have hpd : ∀ (d : Dkg F G) (dd : DkgR.Deal G),
      (d.processDeal E dd vk).1.pendingReconstruct = d.pendingReconstruct := by
    intro d dd
    rcases processDeal_cases E d dd vk with (⟨e, h⟩ | h) | ⟨_, _, _, _, -, -, -, -, h⟩ <;> rw [h]
  induction l generalizing d dd with
  | nil => rfl
  | cons i l ih =>
    unfold Dkg.dealsLoop
    split
    · rfl
    · rename_i e he
      split
      · split
        · exact ih d dd
        · have h0 := hpd d ⟨d.index, e⟩
          split
          · rename_i d' r hd'
            rw [hd'] at h0
            split
            · exact h0
            · rw [ih]; exact h0
          · rename_i hd'; rw [hd'] at h0; exact h0
          · rename_i hd'; rw [hd'] at h0; exact h0
      · exact ih d _

theorem processResponse_pending (E : Env F G) (d : Dkg F G) (r : DkgR.Response) (k : F) :
    (d.processResponse E r k).1.pendingReconstruct = d.pendingReconstruct := by
  unfold Dkg.processResponse
  split
  · rfl
  · split
    · rfl
    · rfl
    · simp only
      split
      · rfl
      · split
        · rfl
        · rfl
        · rfl
        · split <;> rfl

/-- One call, as long as no commitments of `j` are known. -/
theorem step_withheld (E : Env F G) (d : Dkg F G) (c : QCall F G) (j : Nat) (hn : d.commitments.get j = none) :
    ((qStep E d c).commitments.get j = none ∧ (pendingOf (qStep E d c) j = pendingOf d j ∨
      ∃ ord rc pub, c = .reconstruct ord rc ∧ rc.dealerIndex = j ∧ d.participants[rc.index]? = some pub ∧
        Schnorr.verify E.suite pub (rc.hash E.suite) rc.signature = .ok () ∧
        Dkg.scanPending rc (pendingOf d j) = none ∧ pendingOf (qStep E d c) j = pendingOf d j ++ [rc])) ∨
    (∃ k, c = .ownCommits k ∧ j = d.index) ∨
    (∃ ord sc k pub, c = .commits ord sc k ∧ sc.index = j ∧ d.participants[j]? = some pub ∧
      Schnorr.verify E.suite pub (sc.hash E.suite) sc.signature = .ok ()) ∨
    (∃ ord rc pub, c = .reconstruct ord rc ∧ rc.dealerIndex = j ∧ d.participants[rc.index]? = some pub ∧
      Schnorr.verify E.suite pub (rc.hash E.suite) rc.signature = .ok () ∧
      Dkg.scanPending rc (pendingOf d j) = none ∧ d.t ≤ (pendingOf d j ++ [rc]).length) := by
  have same : ∀ d' : Dkg F G, d'.commitments = d.commitments → d'.pendingReconstruct = d.pendingReconstruct →
      d'.commitments.get j = none ∧ pendingOf d' j = pendingOf d j := by
    intro d' h1 h2
    unfold pendingOf
    rw [h1, h2]
    exact ⟨hn, rfl⟩
  have keep : ∀ d' : Dkg F G, qStep E d c = d' → d'.commitments = d.commitments →
      d'.pendingReconstruct = d.pendingReconstruct →
      (qStep E d c).commitments.get j = none ∧ (pendingOf (qStep E d c) j = pendingOf d j ∨
      ∃ ord rc pub, c = .reconstruct ord rc ∧ rc.dealerIndex = j ∧ d.participants[rc.index]? = some pub ∧
        Schnorr.verify E.suite pub (rc.hash E.suite) rc.signature = .ok () ∧
        Dkg.scanPending rc (pendingOf d j) = none ∧ pendingOf (qStep E d c) j = pendingOf d j ++ [rc]) := by
    rintro d' h0 h1 h2
    rw [h0]
    exact ⟨(same d' h1 h2).1, Or.inl (same d' h1 h2).2⟩
  cases c with
  | deals dh k vk =>
    left
    refine keep _ rfl ?_ ?_
    · show (d.deals E dh k vk).1.commitments = _
      unfold Dkg.deals
      split
      · rfl
      · rfl
      · rw [(dealsLoop_cr E _ _ _ _ _).1]
    · show (d.deals E dh k vk).1.pendingReconstruct = _
      unfold Dkg.deals
      split
      · rfl
      · rfl
      · rw [dealsLoop_pending]
  | deal dd k =>
    left
    refine keep (d.processDeal E dd k).1 rfl ?_ ?_
    all_goals
      rcases processDeal_cases E d dd k with (⟨e, h⟩ | h) | ⟨_, _, _, _, -, -, -, -, h⟩ <;> rw [h]
  | response r k =>
    left
    refine keep (d.processResponse E r k).1 rfl (processResponse_cr E d r k).1 ?_
    exact processResponse_pending E d r k
  | justification jj =>
    left
    refine keep (d.processJustification E jj).1 rfl ?_ ?_
    all_goals
      unfold Dkg.processJustification
      split <;> rfl
  | timeout => exact Or.inl (keep d.setTimeout rfl rfl rfl)
  | ownCommits k =>
    by_cases hj : j = d.index
    · exact Or.inr (Or.inl ⟨k, rfl, hj⟩)
    · left
      have h1 : (qStep E d (.ownCommits k)).commitments.get j = none := by
        show (d.secretCommits E.suite k).1.commitments.get j = _
        unfold Dkg.secretCommits
        split
        · exact hn
        · split
          · exact hn
          · show (d.commitments.insert d.index _).get j = _
            rw [AMap.get_insert, if_neg hj, hn]
      refine ⟨h1, Or.inl ?_⟩
      show pendingOf (d.secretCommits E.suite k).1 j = _
      unfold Dkg.secretCommits
      split
      · rfl
      · split <;> rfl
  | commits ord sc k =>
    rcases processSecretCommits_cases E ord d sc k with ⟨h1, -⟩ | ⟨pub, v, dl, h1, h2, h3, h4, h5, h6, h7, h8⟩
    · exact Or.inl (keep d h1 rfl rfl)
    · by_cases hj : sc.index = j
      · exact Or.inr (Or.inr (Or.inl ⟨ord, sc, k, pub, rfl, hj, hj ▸ h1, h5⟩))
      · left
        have hst : qStep E d (.commits ord sc k) = setCommit d sc.index ⟨some E.suite.base, sc.commitments⟩ :=
          congrArg Prod.fst h8
        rw [hst]
        refine ⟨?_, Or.inl rfl⟩
        show (d.commitments.insert sc.index _).get j = _
        rw [AMap.get_insert, if_neg (Ne.symm hj), hn]
  | complaint ord cc k =>
    left
    rcases processComplaintCommits_cases E ord d cc k with ⟨h1 | ⟨v, -, h1⟩, -⟩ |
      ⟨issuer, v, a, p, deal, h1, h2, h3, h4, h5, h6, h7, h8, h9, rc', e1, e2, e3, e4, -, e5⟩
    · exact keep d h1 rfl rfl
    · exact keep _ h1 rfl rfl
    · have hj : cc.dealerIndex ≠ j := by
        intro hj
        rw [hj, hn] at h7
        cases h7
      have hst := congrArg Prod.fst e5
      have hst' : qStep E d (.complaint ord cc k) = _ := hst
      rw [hst']
      refine ⟨?_, Or.inl ?_⟩
      · show (d.commitments.remove cc.dealerIndex).get j = _
        rw [get_remove, if_neg (Ne.symm hj), hn]
      · show ((d.pendingReconstruct.insert cc.dealerIndex _).get j).getD [] = _
        rw [AMap.get_insert, if_neg (Ne.symm hj)]
        rfl
  | reconstruct ord rc =>
    rcases processReconstructCommits_cases E ord d rc with (h1 | ⟨arr, h1, h2⟩) |
      ⟨pub, arr, pri, h1, h2, h3, h4, h5, h6, h7, h8, h9⟩
    · exact Or.inl (keep d h1 rfl rfl)
    · left
      have hst : qStep E d (.reconstruct ord rc) = _ := h1
      rw [hst]
      refine ⟨hn, ?_⟩
      by_cases hj : rc.dealerIndex = j
      · subst hj
        have e : pendingOf { d with pendingReconstruct := d.pendingReconstruct.insert rc.dealerIndex arr }
            rc.dealerIndex = arr := by
          show ((d.pendingReconstruct.insert rc.dealerIndex arr).get rc.dealerIndex).getD [] = _
          rw [AMap.get_insert, if_pos rfl]
          rfl
        rw [e]
        rcases h2 with h2 | ⟨h2, pub, h3, h4, h5⟩
        · exact Or.inl h2
        · exact Or.inr ⟨ord, rc, pub, rfl, rfl, h3, h4, h5, h2⟩
      · left
        show ((d.pendingReconstruct.insert rc.dealerIndex arr).get j).getD [] = _
        rw [AMap.get_insert, if_neg (Ne.symm hj)]
        rfl
    · by_cases hj : rc.dealerIndex = j
      · subst hj
        exact Or.inr (Or.inr (Or.inr ⟨ord, rc, pub, rfl, rfl, h3, h4, h6, by rw [h5] at h7; exact h7⟩))
      · left
        have hst : qStep E d (.reconstruct ord rc) = _ := congrArg Prod.fst h9
        rw [hst]
        refine ⟨?_, Or.inl ?_⟩
        · show (d.commitments.insert rc.dealerIndex _).get j = _
          rw [AMap.get_insert, if_neg (Ne.symm hj), hn]
        · show (((d.pendingReconstruct.insert rc.dealerIndex arr).remove rc.dealerIndex).get j).getD [] = _
          rw [get_remove, if_neg (Ne.symm hj), AMap.get_insert, if_neg (Ne.symm hj)]
          rfl

/-- One call, when commitments of `j` are known: messages are added only by an accepted complaint. -/
theorem step_known (E : Env F G) (d : Dkg F G) (c : QCall F G) (j : Nat) (p : PubPoly G)
    (hp : d.commitments.get j = some p) :
    pendingOf (qStep E d c) j = pendingOf d j ∨
    ∃ ord cc k rc, c = .complaint ord cc k ∧ (d.processComplaintCommits E ord cc k).2 = .ok rc ∧
      pendingOf (qStep E d c) j = pendingOf d j ++ [rc] := by
  have keep : ∀ d' : Dkg F G, d'.pendingReconstruct = d.pendingReconstruct → pendingOf d' j = pendingOf d j := by
    intro d' h
    unfold pendingOf
    rw [h]
  cases c with
  | deals dh k vk =>
    left
    refine keep _ ?_
    show (d.deals E dh k vk).1.pendingReconstruct = _
    unfold Dkg.deals
    split
    · rfl
    · rfl
    · rw [dealsLoop_pending]
  | deal dd k =>
    left
    refine keep (d.processDeal E dd k).1 ?_
    rcases processDeal_cases E d dd k with (⟨e, h⟩ | h) | ⟨_, _, _, _, -, -, -, -, h⟩ <;> rw [h]
  | response r k =>
    left
    refine keep (d.processResponse E r k).1 ?_
    exact processResponse_pending E d r k
  | justification jj =>
    left
    refine keep (d.processJustification E jj).1 ?_
    unfold Dkg.processJustification
    split <;> rfl
  | timeout => exact Or.inl rfl
  | ownCommits k =>
    left
    show pendingOf (d.secretCommits E.suite k).1 j = _
    unfold Dkg.secretCommits
    split
    · rfl
    · split <;> rfl
  | commits ord sc k =>
    left
    rcases processSecretCommits_cases E ord d sc k with ⟨h1, -⟩ | ⟨_, _, _, -, -, -, -, -, -, -, h8⟩
    · exact congrArg (fun d' => pendingOf d' j) h1
    · exact congrArg (fun r => pendingOf (Prod.fst r) j) h8
  | complaint ord cc k =>
    rcases processComplaintCommits_cases E ord d cc k with ⟨h1 | ⟨v, -, h1⟩, -⟩ |
      ⟨issuer, v, a, p, deal, -, -, -, -, -, -, -, -, -, rc', -, -, e3, -, -, e5⟩
    · exact Or.inl (congrArg (fun d' => pendingOf d' j) h1)
    · have hst : qStep E d (.complaint ord cc k) = afterCheck E d cc v := h1
      rw [hst]
      exact Or.inl (keep _ rfl)
    · have hst : qStep E d (.complaint ord cc k) = _ := congrArg Prod.fst e5
      rw [hst]
      by_cases hj : cc.dealerIndex = j
      · right
        refine ⟨ord, cc, k, rc', rfl, congrArg Prod.snd e5, ?_⟩
        show ((d.pendingReconstruct.insert cc.dealerIndex _).get j).getD [] = _
        rw [AMap.get_insert, if_pos hj.symm, hj]
        rfl
      · left
        show ((d.pendingReconstruct.insert cc.dealerIndex _).get j).getD [] = _
        rw [AMap.get_insert, if_neg (Ne.symm hj)]
        rfl
  | reconstruct ord rc =>
    left
    by_cases hj : rc.dealerIndex = j
    · have : qStep E d (.reconstruct ord rc) = d := by
        show (d.processReconstructCommits E ord rc).1 = d
        unfold Dkg.processReconstructCommits
        split
        · rfl
        · rw [if_pos (by rw [hj]; simp [AMap.contains, hp])]
      rw [this]
    · rcases processReconstructCommits_cases E ord d rc with (h1 | ⟨arr, h1, -⟩) |
          ⟨_, arr, _, -, -, -, -, -, -, -, -, h9⟩
      · exact congrArg (fun d' => pendingOf d' j) h1
      · have hst : qStep E d (.reconstruct ord rc) = _ := h1
        rw [hst]
        show ((d.pendingReconstruct.insert rc.dealerIndex arr).get j).getD [] = _
        rw [AMap.get_insert, if_neg (Ne.symm hj)]
        rfl
      · have hst : qStep E d (.reconstruct ord rc) = _ := congrArg Prod.fst h9
        rw [hst]
        show (((d.pendingReconstruct.insert rc.dealerIndex arr).remove rc.dealerIndex).get j).getD [] = _
        rw [get_remove, if_neg (Ne.symm hj), AMap.get_insert, if_neg (Ne.symm hj)]
        rfl

theorem scanPending_none {rc : ReconstructCommits F} {l : List (ReconstructCommits F)}
    (h : Dkg.scanPending rc l = none) : ∀ r ∈ l, r.index ≠ rc.index := by
  induction l with
  | nil => intro r hr; cases hr
  | cons a l ih =>
    unfold Dkg.scanPending at h
    split at h
    · cases h
    · rename_i h1
      split at h
      · cases h
      · intro r hr
        rcases List.mem_cons.1 hr with rfl | hr
        · exact h1
        · exact ih h r hr

/-- A share for a reconstruction is given out only in answer to a complaint about known commitments; it is the share
of the held deal. -/
theorem said_reconstruct {E : Env F G} {d : Dkg F G} (hS : Setup E d) {c : QCall F G} {rc : ReconstructCommits F}
    (h : saidR E d c = some (.reconstruct rc)) :
    (∃ p, d.commitments.get rc.dealerIndex = some p) ∧ rc.index = d.index ∧ rc.share.i = d.index := by
  cases c with
  | complaint ord cc k =>
    unfold saidR at h
    simp only at h
    rcases processComplaintCommits_cases E ord d cc k with ⟨-, f1⟩ |
      ⟨issuer, v, a, p, deal, -, -, -, f0, f2, -, f7, -, f9, rc', -, g1, g2, g3, -, f5⟩
    · split at h
      · rename_i rc'' hrc; exact absurd hrc (f1 rc'')
      · cases h
    · rw [f5] at h
      simp only [Option.some.injEq, PublicR.reconstruct.injEq] at h
      subst h
      refine ⟨⟨p, by rw [g2]; exact f7⟩, g1, ?_⟩
      obtain ⟨a', dl, e1, e2, e3, -⟩ := hS.holds f0
      obtain ⟨a'', e4, e5⟩ := rStep_ext E v (.verifyDeal cc.deal false) a' e1
      have e6 : (rStep E v (.verifyDeal cc.deal false)).deal = some dl ∨
          (rStep E v (.verifyDeal cc.deal false)).deal = none := by
        unfold Verifier.deal
        simp only [e4, e5.deal _ e2]
        split <;> simp
      rw [f9] at e6
      rcases e6 with e6 | e6
      · cases e6
        rw [g3, e3]
      · cases e6
  | _ => unfold saidR at h; simp only at h; (try split at h) <;> cases h

/-- What `d` holds about the withheld commitments of `j` after the first `m` public messages. -/
structure Blank (E : Env F G) (ps : List G) (B : List (PublicR F G)) (j m : Nat) (d : Dkg F G) : Prop where
  none : d.commitments.get j = none
  nodup : ((pendingOf d j).map (·.index)).Nodup
  heard : ∀ r ∈ pendingOf d j, r.dealerIndex = j ∧ ∃ pub, ps[r.index]? = some pub ∧
    Schnorr.verify E.suite pub (r.hash E.suite) r.signature = .ok () ∧ ∃ p < m, B[p]? = some (.reconstruct r)

/-- A call of `secret_commits` that does not succeed changes nothing. -/
theorem secretCommits_same (E : Env F G) (d : Dkg F G) (k : F) :
    (d.secretCommits E.suite k).1 = d ∨ ∃ sc, (d.secretCommits E.suite k).2 = .ok sc := by
  unfold Dkg.secretCommits
  split
  · exact Or.inl rfl
  · split
    · exact Or.inl rfl
    · exact Or.inr ⟨_, rfl⟩

/-- If no commitments of `j` are revealed, by whatever reason, a correct participant never knows them. -/
theorem withheld_blocks (E : Env F G) (ps : List G) (t : Nat) (H : Finset Nat) (hfew : ps.length < H.card + t)
    (x s : Nat → F) (fD gD : Nat → List F) (D : Nat → Dkg F G)
    (hD : ∀ i ∈ H, newDistKeyGenerator E (x i) ps t (s i) (fD i) (gD i) = .ok (D i) ∧ (D i).index = i)
    (B : List (PublicR F G)) (cs : Nat → List (QCall F G)) (hB : BroadcastR E H D B cs) (hU : UnforgedR E ps H D B cs)
    (j : Nat)
    (hj : j ∈ H → ∀ pre k post sc, cs j = pre ++ .ownCommits k :: post →
      ((qRun E (D j) pre).secretCommits E.suite k).2 ≠ .ok sc) (hW : WithheldR E ps j B) (i : Nat) (hi : i ∈ H) (pre post : List (QCall F G))
    (hcs : cs i = pre ++ post) :
    (qRun E (D i) pre).commitments.get j = none ∧
    (∀ ord cc k rc, cc.dealerIndex = j → ((qRun E (D i) pre).processComplaintCommits E ord cc k).2 ≠ .ok rc) ∧
    (QualifiedR (qRun E (D i) pre) j → ∀ ord, (qRun E (D i) pre).finished ord = false ∧
      ∀ k, (qRun E (D i) pre).distKeyShare ord ≠ .ok k) := by
  have hlt : ∀ i ∈ H, i < ps.length := by
    intro i hi
    obtain ⟨h1, -⟩ := newDistKeyGenerator_ok (hD i hi).1
    rw [(hD i hi).2] at h1
    obtain ⟨hl, -⟩ := List.findIdx?_eq_some_iff_getElem.1 h1
    exact hl
  have key : ∀ m, ∀ i ∈ H, ∀ pre post, cs i = pre ++ post → (pre.filterMap heardR).length ≤ m →
      Blank E ps B j (pre.filterMap heardR).length (qRun E (D i) pre) := by
    intro m
    induction m using Nat.strong_induction_on with
    | _ m ihm =>
      intro i hi pre
      induction pre using List.reverseRecOn with
      | nil =>
        intro post _ _
        obtain ⟨-, -, -, -, -, -, -, h8, h9, -⟩ := newDistKeyGenerator_ok (hD i hi).1
        have hp : pendingOf (D i) j = [] := by unfold pendingOf; rw [h9]; rfl
        exact ⟨by show (D i).commitments.get j = none; rw [h8]; rfl,
          by show ((pendingOf (D i) j).map _).Nodup; rw [hp]; simp,
          by show ∀ r ∈ pendingOf (D i) j, _; rw [hp]; simp⟩
      | append_singleton pre c ih =>
        intro post hcs hm
        have hcs' : cs i = pre ++ c :: post := by rw [hcs]; simp
        have hpre := ih (c :: post) hcs' (by
          rw [List.filterMap_append, List.length_append] at hm; omega)
        have hev := qRun_evolves E (D i) pre
        obtain ⟨-, -, -, -, k5, k6, -⟩ := newDistKeyGenerator_ok (hD i hi).1
        have hpart : (qRun E (D i) pre).participants = ps := hev.participants.trans k5
        have ht : (qRun E (D i) pre).t = t := run_t (hD i hi).1 pre
        have hidx : (qRun E (D i) pre).index = i := hev.index.trans (hD i hi).2
        have hrun : qRun E (D i) (pre ++ [c]) = qStep E (qRun E (D i) pre) c := by simp [qRun]
        have hmono : (pre.filterMap heardR).length ≤ ((pre ++ [c]).filterMap heardR).length := by
          rw [List.filterMap_append, List.length_append]; omega
        -- what the call `c` hears stands in `B` right after what `pre` heard
        have hpos : ∀ b, heardR c = some b → B[(pre.filterMap heardR).length]? = some b ∧
            (pre.filterMap heardR).length < ((pre ++ [c]).filterMap heardR).length := by
          intro b hb
          have h1 := hB.heard i hi
          rw [hcs', List.filterMap_append, List.filterMap_cons, hb] at h1
          refine ⟨by rw [← h1]; simp, ?_⟩
          rw [List.filterMap_append, List.length_append, List.filterMap_cons, hb]
          simp
        rw [hrun]
        rcases step_withheld E (qRun E (D i) pre) c j hpre.none with ⟨h1, h2⟩ | ⟨k, rfl, h2⟩ |
          ⟨ord, sc, k, pub, rfl, h2, h3, h4⟩ | ⟨ord, rc, pub, rfl, h2, h3, h4, h5, h6⟩
        · refine ⟨h1, ?_, ?_⟩
          · rcases h2 with h2 | ⟨ord, rc, pub, rfl, h2, h3, h4, h5, h6⟩
            · rw [h2]; exact hpre.nodup
            · rw [h6, List.map_append, List.map_cons, List.map_nil]
              refine List.nodup_append.2 ⟨hpre.nodup, by simp, ?_⟩
              intro a ha b hb
              obtain ⟨r, hr, rfl⟩ := List.mem_map.1 ha
              rw [List.mem_singleton] at hb
              rw [hb]
              exact scanPending_none h5 r hr
          · rcases h2 with h2 | ⟨ord, rc, pub, rfl, h2, h3, h4, h5, h6⟩
            · rw [h2]
              intro r hr
              obtain ⟨g1, pub, g2, g3, p, g4, g5⟩ := hpre.heard r hr
              exact ⟨g1, pub, g2, g3, p, by omega, g5⟩
            · rw [h6]
              intro r hr
              rcases List.mem_append.1 hr with hr | hr
              · obtain ⟨g1, pub, g2, g3, p, g4, g5⟩ := hpre.heard r hr
                exact ⟨g1, pub, g2, g3, p, by omega, g5⟩
              · rw [List.mem_singleton] at hr
                subst hr
                obtain ⟨g1, g2⟩ := hpos _ rfl
                exact ⟨h2, pub, hpart ▸ h3, h4, _, g2, g1⟩
        · rw [hidx] at h2
          subst h2
          have hsame : qStep E (qRun E (D j) pre) (.ownCommits k) = qRun E (D j) pre := by
            rcases secretCommits_same E (qRun E (D j) pre) k with h | ⟨sc, h⟩
            · exact h
            · exact absurd h (hj hi pre k post sc hcs')
          rw [hsame]
          refine ⟨hpre.none, hpre.nodup, fun r hr => ?_⟩
          obtain ⟨g1, pub, g2, g3, p, g4, g5⟩ := hpre.heard r hr
          exact ⟨g1, pub, g2, g3, p, by omega, g5⟩
        · exfalso
          obtain ⟨g1, -⟩ := hpos _ rfl
          exact hW sc pub (List.mem_of_getElem? g1) h2 (hpart ▸ h3) h4
        · exfalso
          -- one of the `t` messages comes from a correct participant
          have hall : ∀ r ∈ pendingOf (qRun E (D i) pre) j ++ [rc], r.dealerIndex = j ∧ ∃ pub, ps[r.index]? = some pub ∧
              Schnorr.verify E.suite pub (r.hash E.suite) r.signature = .ok () ∧
              ∃ p < m, B[p]? = some (.reconstruct r) := by
            intro r hr
            rcases List.mem_append.1 hr with hr | hr
            · obtain ⟨g1, pub, g2, g3, p, g4, g5⟩ := hpre.heard r hr
              exact ⟨g1, pub, g2, g3, p, by omega, g5⟩
            · rw [List.mem_singleton] at hr
              subst hr
              obtain ⟨g1, g2⟩ := hpos _ rfl
              exact ⟨h2, pub, hpart ▸ h3, h4, _, by omega, g1⟩
          have hnd : ((pendingOf (qRun E (D i) pre) j ++ [rc]).map (·.index)).Nodup := by
            rw [List.map_append, List.map_cons, List.map_nil]
            refine List.nodup_append.2 ⟨hpre.nodup, by simp, ?_⟩
            intro a ha b hb
            obtain ⟨r, hr, rfl⟩ := List.mem_map.1 ha
            rw [List.mem_singleton] at hb
            rw [hb]
            exact scanPending_none h5 r hr
          obtain ⟨r, hr, hrH⟩ : ∃ r ∈ pendingOf (qRun E (D i) pre) j ++ [rc], r.index ∈ H := by
            by_contra hno
            push Not at hno
            have hsub : ((pendingOf (qRun E (D i) pre) j ++ [rc]).map (·.index)).toFinset ⊆
                Finset.range ps.length \ H := by
              intro a ha
              rw [List.mem_toFinset] at ha
              obtain ⟨r, hr, rfl⟩ := List.mem_map.1 ha
              obtain ⟨-, pub, g2, -⟩ := hall r hr
              obtain ⟨hl, -⟩ := List.getElem?_eq_some_iff.1 g2
              exact Finset.mem_sdiff.2 ⟨Finset.mem_range.2 hl, hno r hr⟩
            have h7 := Finset.card_le_card hsub
            rw [List.toFinset_card_of_nodup hnd, List.length_map] at h7
            have h8 : (Finset.range ps.length \ H).card = ps.length - H.card := by
              rw [Finset.card_sdiff_of_subset (fun a ha => Finset.mem_range.2 (hlt a ha)), Finset.card_range]
            have h9 := Finset.card_le_card (fun a ha => Finset.mem_range.2 (hlt a ha) : H ⊆ Finset.range ps.length)
            rw [Finset.card_range] at h9
            rw [ht] at h6
            omega
          obtain ⟨g1, pub', g2, g3, p, g4, g5⟩ := hall r hr
          obtain ⟨pre', c', post', e1, e2, e3⟩ := hU p r pub' g5 hrH g2 g3
          have hblank := ihm (pre'.filterMap heardR).length (by
            have : (pre'.filterMap heardR).length ≤ ((pre' ++ [c']).filterMap heardR).length := by
              rw [List.filterMap_append, List.length_append]; omega
            omega) r.index hrH pre' (c' :: post') e1 le_rfl
          obtain ⟨⟨p', f7⟩, -⟩ := said_reconstruct ((setup_new (hD r.index hrH).1).step (qRun_evolves E _ pre')) e2
          rw [g1, hblank.none] at f7
          cases f7
  have hb := key _ i hi pre post hcs le_rfl
  refine ⟨hb.none, ?_, ?_⟩
  · intro ord cc k rc hc hok
    rcases processComplaintCommits_cases E ord (qRun E (D i) pre) cc k with ⟨-, f1⟩ |
      ⟨issuer, v, a, p', deal, -, -, -, -, -, -, f7, -, -, -⟩
    · exact f1 rc hok
    · rw [hc, hb.none] at f7
      cases f7
  · intro hq ord
    have hn : (qRun E (D i) pre).verifiers.keys.Nodup := DkgR.reach_nodup (hD i hi).1 pre
    refine ⟨?_, fun k hk => ?_⟩
    · by_contra hf
      rw [Bool.not_eq_false] at hf
      obtain ⟨-, h2⟩ := (C39_finished_iff E (x i) ps t (s i) (fD i) (gD i) (D i) (hD i hi).1 pre ord _
        (fun i => mem_qualSet hn)).1 hf
      obtain ⟨p, hp⟩ := h2 j ((mem_qualSet hn).2 hq)
      rw [hb.none] at hp
      cases hp
    · obtain ⟨-, D', P, len, h2, -⟩ := (C39_dist_key_share_iff E (x i) ps t (s i) (fD i) (gD i) (D i) (hD i hi).1
        pre ord k _
        (fun i => mem_qualSet hn)).1 hk
      obtain ⟨-, hp, -⟩ := h2 j ((mem_qualSet hn).2 hq)
      rw [hb.none] at hp
      cases hp

/-- C135: fewer than `t` participants are faulty; dealer `j` is one of them and does not reveal its commitments. Then
no correct participant ever knows commitments of `j`, none of them ever gives out its share for a reconstruction,
and if `j` is qualified none of them finishes or gets a key, whatever the faulty participants send. -/
theorem C135_withheld (E : Env F G) (ps : List G) (t : Nat) (H : Finset Nat) (hfew : ps.length < H.card + t)
    (x s : Nat → F) (fD gD : Nat → List F) (D : Nat → Dkg F G)
    (hD : ∀ i ∈ H, newDistKeyGenerator E (x i) ps t (s i) (fD i) (gD i) = .ok (D i) ∧ (D i).index = i)
    (B : List (PublicR F G)) (cs : Nat → List (QCall F G)) (hB : BroadcastR E H D B cs) (hU : UnforgedR E ps H D B cs)
    (j : Nat) (hj : j ∉ H) (hW : WithheldR E ps j B) (i : Nat) (hi : i ∈ H) (pre post : List (QCall F G))
    (hcs : cs i = pre ++ post) :
    (qRun E (D i) pre).commitments.get j = none ∧
    (∀ ord cc k rc, cc.dealerIndex = j → ((qRun E (D i) pre).processComplaintCommits E ord cc k).2 ≠ .ok rc) ∧
    (QualifiedR (qRun E (D i) pre) j → ∀ ord, (qRun E (D i) pre).finished ord = false ∧
      ∀ k, (qRun E (D i) pre).distKeyShare ord ≠ .ok k) :=
  withheld_blocks E ps t H hfew x s fD gD D hD B cs hB hU j (fun h => absurd h hj) hW i hi pre post hcs

/-- What `d` holds about dealer `j` that revealed `C`, which only the members of `A` believe. -/
structure Partly (C : List G) (A : Finset Nat) (j i : Nat) (d : Dkg F G) : Prop where
  known : ∀ p, d.commitments.get j = some p → p.commits = C ∧ i ∈ A
  shares : ∀ r ∈ pendingOf d j, r.share.i ∈ A

/-- One call of a participant, when the pending shares and those heard are shares of members of `A`. -/
theorem step_partly (E : Env F G) (ps : List G) (C : List G) (A : Finset Nat) (j i : Nat) (d : Dkg F G) (c : QCall F G)
    (hS : Setup E d) (hnd : d.verifiers.keys.Nodup) (hidx : d.index = i) (hij : i ≠ j) (hpart : d.participants = ps)
    (hcard : A.card < d.t) (h : Partly C A j i d)
    (hsc : ∀ ord sc k pub, c = .commits ord sc k → sc.index = j → ps[j]? = some pub →
      Schnorr.verify E.suite pub (sc.hash E.suite) sc.signature = .ok () → sc.commitments = C)
    (hA : ∀ dl, HoldsDeal d j dl → pointVal C ((i + 1 : Nat) : F) = dl.secShare.v • E.suite.base → i ∈ A)
    (hrc : ∀ ord rc pub, c = .reconstruct ord rc → rc.dealerIndex = j → ps[rc.index]? = some pub →
      Schnorr.verify E.suite pub (rc.hash E.suite) rc.signature = .ok () → rc.share.i ∈ A) :
    Partly C A j i (qStep E d c) := by
  have hheld : ∀ dl, HoldsDeal d j dl → dl.secShare.i = i := by
    rintro dl ⟨v, a, h1, h2, h3⟩
    obtain ⟨a', dl', e1, e2, e3, -⟩ := hS.holds h1
    rw [h2] at e1; cases e1
    rw [h3] at e2; cases e2
    rw [e3, hidx]
  have hpend : ∀ r ∈ pendingOf (qStep E d c) j, r ∈ pendingOf d j ∨
      (∃ p, d.commitments.get j = some p ∧ r.share.i = i) ∨
      ∃ ord pub, c = .reconstruct ord r ∧ r.dealerIndex = j ∧ ps[r.index]? = some pub ∧
        Schnorr.verify E.suite pub (r.hash E.suite) r.signature = .ok () := by
    by_cases hn : d.commitments.get j = none
    · intro r hr
      rcases step_withheld E d c j hn with ⟨-, h2 | ⟨ord, rc, pub, rfl, h2, h3, h4, h5, h6⟩⟩ | ⟨k, -, h2⟩ |
          ⟨ord, sc, k, pub, rfl, h2, h3, h4⟩ | ⟨ord, rc, pub, rfl, h2, h3, h4, h5, h6⟩
      · rw [h2] at hr; exact Or.inl hr
      · rw [h6] at hr
        rcases List.mem_append.1 hr with hr | hr
        · exact Or.inl hr
        · rw [List.mem_singleton] at hr
          subst hr
          exact Or.inr (Or.inr ⟨ord, pub, rfl, h2, hpart ▸ h3, h4⟩)
      · exact absurd (hidx ▸ h2) (Ne.symm hij)
      · left
        rcases processSecretCommits_cases E ord d sc k with ⟨h1, -⟩ | ⟨_, _, _, -, -, -, -, -, -, -, h8⟩
        · have : qStep E d (.commits ord sc k) = d := h1
          rwa [this] at hr
        · have : qStep E d (.commits ord sc k) = setCommit d sc.index ⟨some E.suite.base, sc.commitments⟩ :=
            congrArg Prod.fst h8
          rwa [this] at hr
      · rcases processReconstructCommits_cases E ord d rc with (h1 | ⟨arr, h1, h7⟩) |
          ⟨pub', arr, pri, -, -, -, -, -, -, -, -, h9⟩
        · have : qStep E d (.reconstruct ord rc) = d := h1
          rw [this] at hr
          exact Or.inl hr
        · have hst : qStep E d (.reconstruct ord rc) = _ := h1
          rw [hst] at hr
          subst h2
          change r ∈ ((d.pendingReconstruct.insert rc.dealerIndex arr).get rc.dealerIndex).getD [] at hr
          rw [AMap.get_insert, if_pos rfl, Option.getD_some] at hr
          rcases h7 with h7 | ⟨h7, -⟩
          · rw [h7] at hr; exact Or.inl hr
          · rw [h7] at hr
            rcases List.mem_append.1 hr with hr | hr
            · exact Or.inl hr
            · rw [List.mem_singleton] at hr
              subst hr
              exact Or.inr (Or.inr ⟨ord, pub, rfl, rfl, hpart ▸ h3, h4⟩)
        · have hst : qStep E d (.reconstruct ord rc) = _ := congrArg Prod.fst h9
          rw [hst] at hr
          change r ∈ (((d.pendingReconstruct.insert rc.dealerIndex arr).remove rc.dealerIndex).get j).getD [] at hr
          rw [get_remove, if_pos h2.symm] at hr
          cases hr
    · obtain ⟨p, hp⟩ := Option.ne_none_iff_exists'.1 hn
      intro r hr
      rcases step_known E d c j p hp with h2 | ⟨ord, cc, k, rc, rfl, h3, h4⟩
      · rw [h2] at hr; exact Or.inl hr
      · rw [h4] at hr
        rcases List.mem_append.1 hr with hr | hr
        · exact Or.inl hr
        · rw [List.mem_singleton] at hr
          subst hr
          have hsaid : saidR E d (.complaint ord cc k) = some (.reconstruct r) := by
            unfold saidR
            simp only [h3]
          exact Or.inr (Or.inl ⟨p, hp, by rw [(said_reconstruct hS hsaid).2.2, hidx]⟩)
  refine ⟨?_, ?_⟩
  · intro p hp
    by_cases hsame : (qStep E d c).commitments.get j = d.commitments.get j
    · exact h.known p (by rw [← hsame]; exact hp)
    · rcases C40_commitments_change E d hnd c j hsame with ⟨k, -, h1⟩ |
        ⟨ord, sc, k, pub, rfl, h1, h2, h3, -, -, ⟨dl, h4, h5⟩, h6⟩ | ⟨ord, cc, k, rc, -, -, -, h1⟩ |
        ⟨ord, rc, pub, arr, pri, rfl, h1, h2, h3, h4, h5, h6, h7, h8⟩
      · exact absurd (hidx ▸ h1) (Ne.symm hij)
      · rw [hp] at h6
        cases h6
        have hC := hsc ord sc k pub rfl h1 (hpart ▸ h2) h3
        refine ⟨hC, hA dl h4 ?_⟩
        rw [hheld dl h4, hC] at h5
        exact h5
      · rw [hp] at h1; cases h1
      · exfalso
        have hsub : indices (arr.map (fun r => some r.share)) ⊆ A := by
          intro a ha
          rw [VssP.indices_map_some, List.mem_toFinset] at ha
          obtain ⟨r, hr, rfl⟩ := List.mem_map.1 ha
          rw [h5] at hr
          rcases List.mem_append.1 hr with hr | hr
          · exact h.shares r hr
          · rw [List.mem_singleton] at hr
            subst hr
            exact hrc ord r pub rfl h1 (hpart ▸ h3) h4
        rw [C02_recover_pri_poly_refuses ord _ _ (lt_of_le_of_lt (Finset.card_le_card hsub) hcard)] at h7
        cases h7
  · intro r hr
    rcases hpend r hr with h1 | ⟨p, h1, h2⟩ | ⟨ord, pub, h1, h2, h3, h4⟩
    · exact h.shares r h1
    · rw [h2]; exact (h.known p h1).2
    · exact hrc ord r pub h1 h2 h3 h4

/-- C135: dealer `j` reveals the commitments `C`, and fewer than `t` correct participants hold a share that agrees
with them. As long as the faulty participants do not help, `j` is never reconstructed: a correct participant
whose share does not agree, and who has complained, never knows commitments of `j`, and if `j` is qualified it does
not finish or get a key. -/
theorem C135_wrong (E : Env F G) (ps : List G) (t : Nat) (H : Finset Nat)
    (x s : Nat → F) (fD gD : Nat → List F) (D : Nat → Dkg F G)
    (hD : ∀ i ∈ H, newDistKeyGenerator E (x i) ps t (s i) (fD i) (gD i) = .ok (D i) ∧ (D i).index = i)
    (B : List (PublicR F G)) (cs : Nat → List (QCall F G)) (hB : BroadcastR E H D B cs) (hU : UnforgedR E ps H D B cs)
    (j : Nat) (hj : j ∉ H) (C : List G) (hC : RevealedR E ps j C B) (hO : OnlyFromR E ps H j B)
    (A : Finset Nat) (hA : ∀ i ∈ H, ∀ pre post dl, cs i = pre ++ post → HoldsDeal (qRun E (D i) pre) j dl →
      pointVal C ((i + 1 : Nat) : F) = dl.secShare.v • E.suite.base → i ∈ A) (hcard : A.card < t)
    (i : Nat) (hi : i ∈ H) (pre post : List (QCall F G)) (hcs : cs i = pre ++ post) :
    (∀ p, (qRun E (D i) pre).commitments.get j = some p → p.commits = C ∧ i ∈ A) ∧
    (i ∉ A → QualifiedR (qRun E (D i) pre) j → ∀ ord, (qRun E (D i) pre).finished ord = false ∧
      ∀ k, (qRun E (D i) pre).distKeyShare ord ≠ .ok k) := by
  have key : ∀ m, ∀ i ∈ H, ∀ pre post, cs i = pre ++ post → (pre.filterMap heardR).length ≤ m →
      Partly C A j i (qRun E (D i) pre) := by
    intro m
    induction m using Nat.strong_induction_on with
    | _ m ihm =>
      intro i hi pre
      induction pre using List.reverseRecOn with
      | nil =>
        intro post _ _
        obtain ⟨-, -, -, -, -, -, -, h8, h9, -⟩ := newDistKeyGenerator_ok (hD i hi).1
        have hp : pendingOf (D i) j = [] := by unfold pendingOf; rw [h9]; rfl
        refine ⟨?_, ?_⟩
        · show ∀ p, (D i).commitments.get j = some p → _
          rw [h8]; intro p hp; cases hp
        · show ∀ r ∈ pendingOf (D i) j, _
          rw [hp]; simp
      | append_singleton pre c ih =>
        intro post hcs hm
        have hcs' : cs i = pre ++ c :: post := by rw [hcs]; simp
        have hpre := ih (c :: post) hcs' (by
          rw [List.filterMap_append, List.length_append] at hm; omega)
        have hev := qRun_evolves E (D i) pre
        obtain ⟨-, -, -, -, k5, k6, -⟩ := newDistKeyGenerator_ok (hD i hi).1
        have hrun : qRun E (D i) (pre ++ [c]) = qStep E (qRun E (D i) pre) c := by simp [qRun]
        have hpos : ∀ b, heardR c = some b → B[(pre.filterMap heardR).length]? = some b ∧
            (pre.filterMap heardR).length < ((pre ++ [c]).filterMap heardR).length := by
          intro b hb
          have h1 := hB.heard i hi
          rw [hcs', List.filterMap_append, List.filterMap_cons, hb] at h1
          refine ⟨by rw [← h1]; simp, ?_⟩
          rw [List.filterMap_append, List.length_append, List.filterMap_cons, hb]
          simp
        rw [hrun]
        refine step_partly E ps C A j i _ c ((setup_new (hD i hi).1).step hev) (DkgR.reach_nodup (hD i hi).1 pre)
          (hev.index.trans (hD i hi).2) (fun e => hj (e ▸ hi)) (hev.participants.trans k5)
          (by rw [run_t (hD i hi).1 pre]; exact hcard) hpre ?_ (fun dl => hA i hi pre (c :: post) dl hcs') ?_
        · rintro ord sc k pub rfl h2 h3 h4
          exact hC sc pub (List.mem_of_getElem? (hpos _ rfl).1) h2 h3 h4
        · rintro ord rc pub rfl h2 h3 h4
          obtain ⟨g1, g2⟩ := hpos _ rfl
          have hin := hO rc pub (List.mem_of_getElem? g1) h2 h3 h4
          obtain ⟨pre', c', post', e1, e2, e3⟩ := hU _ rc pub g1 hin h3 h4
          have hprev := ihm (pre'.filterMap heardR).length (by
            have : (pre'.filterMap heardR).length ≤ ((pre' ++ [c']).filterMap heardR).length := by
              rw [List.filterMap_append, List.length_append]; omega
            omega) rc.index hin pre' (c' :: post') e1 le_rfl
          obtain ⟨⟨p, f1⟩, -, f3⟩ :=
            said_reconstruct ((setup_new (hD rc.index hin).1).step (qRun_evolves E _ pre')) e2
          rw [f3, (qRun_evolves E _ pre').index, (hD rc.index hin).2]
          rw [h2] at f1
          exact (hprev.known p f1).2
  have hb := key _ i hi pre post hcs le_rfl
  refine ⟨hb.known, fun hiA hq ord => ?_⟩
  have hn : (qRun E (D i) pre).verifiers.keys.Nodup := DkgR.reach_nodup (hD i hi).1 pre
  refine ⟨?_, fun k hk => ?_⟩
  · by_contra hf
    rw [Bool.not_eq_false] at hf
    obtain ⟨-, h2⟩ := (C39_finished_iff E (x i) ps t (s i) (fD i) (gD i) (D i) (hD i hi).1 pre ord _
      (fun i => mem_qualSet hn)).1 hf
    obtain ⟨p, hp⟩ := h2 j ((mem_qualSet hn).2 hq)
    exact hiA (hb.known p hp).2
  · obtain ⟨-, D', P, len, h2, -⟩ := (C39_dist_key_share_iff E (x i) ps t (s i) (fD i) (gD i) (D i) (hD i hi).1 pre
      ord k _ (fun i => mem_qualSet hn)).1 hk
    obtain ⟨-, hp, -⟩ := h2 j ((mem_qualSet hn).2 hq)
    exact hiA (hb.known _ hp).2

end

section

variable [Module F G]

/-- The value of a point polynomial with at most `|S|` coefficients from its values on `S`. -/
theorem pointVal_lagrange (S : Finset Nat) (hS : Set.InjOn (xc F) S) (Cs : List G) (hl : Cs.length ≤ S.card) (x : F) :
    ∑ k ∈ S, (Polynomial.eval x (Lagrange.basis S (xc F) k)) • pointVal Cs ((k + 1 : Nat) : F) = pointVal Cs x := by
  classical
  simp only [pointVal_eq_sum, Finset.smul_sum]
  rw [Finset.sum_comm]
  refine Finset.sum_congr rfl (fun m hm => ?_)
  have hdeg : (Polynomial.X ^ m : Polynomial F).degree < S.card := by
    rw [Polynomial.degree_X_pow]
    have := Finset.mem_range.1 hm
    exact_mod_cast lt_of_lt_of_le this hl
  have h1 := congrArg (Polynomial.eval x) (Lagrange.eq_interpolate_of_eval_eq (r := fun k => xc F k ^ m) hS hdeg
    (fun k _ => by simp))
  rw [Lagrange.interpolate_apply, Polynomial.eval_finsetSum, Polynomial.eval_pow, Polynomial.eval_X] at h1
  rw [h1, Finset.sum_smul]
  refine Finset.sum_congr rfl (fun k _ => ?_)
  rw [Polynomial.eval_mul, Polynomial.eval_C, smul_smul, mul_comm]
  rfl

/-- C135: the shares that dealer `j` dealt lie on a polynomial `f` with `t` coefficients, it reveals at most `t`
commitments, and they do not agree with the share of the correct participant `i`. Without the help of faulty
participants `i` never finishes, although its complaint is right. -/
theorem C135_wrong_dealt (q : Nat) [CharP F q] (E : Env F G) (hl : Lin F E.suite.base) (ps : List G) (t : Nat)
    (hn : ps.length ≤ q) (H : Finset Nat) (x s : Nat → F) (fD gD : Nat → List F) (D : Nat → Dkg F G)
    (hD : ∀ i ∈ H, newDistKeyGenerator E (x i) ps t (s i) (fD i) (gD i) = .ok (D i) ∧ (D i).index = i)
    (B : List (PublicR F G)) (cs : Nat → List (QCall F G)) (hB : BroadcastR E H D B cs) (hU : UnforgedR E ps H D B cs)
    (j : Nat) (hj : j ∉ H) (C : List G) (hC : RevealedR E ps j C B) (hO : OnlyFromR E ps H j B)
    (f : List F) (hf : f.length ≤ t) (hlen : C.length ≤ t)
    (hdealt : ∀ i ∈ H, ∀ pre post dl, cs i = pre ++ post → HoldsDeal (qRun E (D i) pre) j dl →
      dl.secShare.v = polyVal f ((i + 1 : Nat) : F))
    (i : Nat) (hi : i ∈ H) (hwrong : pointVal C ((i + 1 : Nat) : F) ≠ polyVal f ((i + 1 : Nat) : F) • E.suite.base)
    (pre post : List (QCall F G)) (hcs : cs i = pre ++ post) :
    (qRun E (D i) pre).commitments.get j = none ∧
    (QualifiedR (qRun E (D i) pre) j → ∀ ord, (qRun E (D i) pre).finished ord = false ∧
      ∀ k, (qRun E (D i) pre).distKeyShare ord ≠ .ok k) := by
  classical
  let A := H.filter (fun i => pointVal C ((i + 1 : Nat) : F) = polyVal f ((i + 1 : Nat) : F) • E.suite.base)
  have hiA : i ∉ A := fun h => hwrong (Finset.mem_filter.1 h).2
  have hcard : A.card < t := by
    by_contra hge
    push Not at hge
    have hlt : ∀ k ∈ A, k < q := by
      intro k hk
      have hk' := (Finset.mem_filter.1 hk).1
      obtain ⟨h1, -⟩ := newDistKeyGenerator_ok (hD k hk').1
      rw [(hD k hk').2] at h1
      obtain ⟨hl, -⟩ := List.findIdx?_eq_some_iff_getElem.1 h1
      omega
    have hinj := xc_injOn (F := F) q A hlt
    apply hwrong
    rw [← pointVal_lagrange A hinj C (by omega), ← pointVal_map_smul f hl,
      ← pointVal_lagrange A hinj (f.map (fun c => c • E.suite.base)) (by rw [List.length_map]; omega)]
    refine Finset.sum_congr rfl (fun k hk => ?_)
    rw [(Finset.mem_filter.1 hk).2, pointVal_map_smul f hl]
  obtain ⟨h1, h2⟩ := C135_wrong E ps t H x s fD gD D hD B cs hB hU j hj C hC hO A (by
    intro k hk pre post dl hcs hh hv
    rw [hdealt k hk pre post dl hcs hh] at hv
    exact Finset.mem_filter.2 ⟨hk, hv⟩) hcard i hi pre post hcs
  refine ⟨?_, h2 hiA⟩
  by_contra hne
  obtain ⟨p, hp⟩ := Option.ne_none_iff_exists'.1 hne
  exact hiA (h1 p hp).2

end

namespace WithheldExample

open Kyber.Toy DkgRExample AgreementExample

/-- What everybody sees when participant 2 follows the protocol up to the commitments. -/
def boardW : List RMsg :=
  [.resp 0 1, .resp 0 2, .resp 1 0, .resp 1 2, .resp 2 0, .resp 2 1, .commits 0, .commits 1]

def publicW : List (PublicR (ZMod 11) (ZMod 11)) := boardW.filterMap (fun m => heardR (toCall 0 m))

/-- What participants 0 and 1 do. -/
def doingW (i : Nat) : List RMsg :=
  [.deals, .deal (1 - i), .deal 2] ++ boardW.take 6 ++ [.ownCommits] ++ boardW.drop 6

def callsW (i : Nat) : List (QCall (ZMod 11) (ZMod 11)) := (doingW i).map (toCall i)

/-- Whether everything said is on the board. -/
def publishedW : Dkg (ZMod 11) (ZMod 11) → List (QCall (ZMod 11) (ZMod 11)) → Bool
  | _, [] => true
  | d, c :: cs => (match saidR envRI d c with
    | some m => decide (m ∈ publicW)
    | none => true) && publishedW (qStep envRI d c) cs

theorem publishedW_spec (d : Dkg (ZMod 11) (ZMod 11)) (cs : List (QCall (ZMod 11) (ZMod 11)))
    (h : publishedW d cs = true) : PublishesR envRI publicW d cs := by
  induction cs generalizing d with
  | nil => trivial
  | cons c cs ih =>
    unfold publishedW at h
    rw [Bool.and_eq_true] at h
    refine ⟨fun m hm => ?_, ih _ h.2⟩
    have := h.1
    rw [hm] at this
    exact of_decide_eq_true this

theorem publishedW0 : publishedW ((netR envRI).D 0) (callsW 0) = true := by decide +kernel
theorem publishedW1 : publishedW ((netR envRI).D 1) (callsW 1) = true := by decide +kernel

theorem broadcastW : BroadcastR envRI {0, 1} (netR envRI).D publicW callsW where
  heard i hi := by
    simp only [Finset.mem_insert, Finset.mem_singleton] at hi
    rcases hi with rfl | rfl <;> rfl
  said i hi := by
    simp only [Finset.mem_insert, Finset.mem_singleton] at hi
    rcases hi with rfl | rfl
    · exact publishedW_spec _ _ publishedW0
    · exact publishedW_spec _ _ publishedW1
  dealt i hi := by
    simp only [Finset.mem_insert, Finset.mem_singleton] at hi
    rcases hi with rfl | rfl
    · obtain ⟨out, h1, h2⟩ := dealt 0 (by decide)
      refine ⟨[], _, _, _, _, out, rfl, h1, fun j hj hne => ⟨_, 5, by
        simp only [Finset.mem_insert, Finset.mem_singleton] at hj
        obtain rfl : j = 1 := by omega
        rw [h2, if_pos (by decide)], ?_⟩⟩
      simp only [Finset.mem_insert, Finset.mem_singleton] at hj
      obtain rfl : j = 1 := by omega
      exact List.mem_map.2 ⟨.deal 0, by decide, rfl⟩
    · obtain ⟨out, h1, h2⟩ := dealt 1 (by decide)
      refine ⟨[], _, _, _, _, out, rfl, h1, fun j hj hne => ⟨_, 5, by
        simp only [Finset.mem_insert, Finset.mem_singleton] at hj
        obtain rfl : j = 0 := by omega
        rw [h2, if_pos (by decide)], ?_⟩⟩
      simp only [Finset.mem_insert, Finset.mem_singleton] at hj
      obtain rfl : j = 0 := by omega
      exact List.mem_map.2 ⟨.deal 1, by decide, rfl⟩

/-- The kind of public message and its author. -/
def kindW : PublicR (ZMod 11) (ZMod 11) → Nat
  | .commits sc => sc.index
  | .reconstruct _ => 2
  | _ => 0

theorem kindsW : ∀ m ∈ publicW, kindW m ≠ 2 := by decide +kernel

theorem unforgedW : UnforgedR envRI [6, 10, 4] {0, 1} (netR envRI).D publicW callsW := by
  intro p rc pub hp
  exact absurd rfl (kindsW _ (List.mem_of_getElem? hp))

theorem withheldW : WithheldR envRI [6, 10, 4] 2 publicW := by
  intro sc pub hm hsc
  exact absurd hsc (kindsW _ hm)

/-- Dealer 2 is qualified for both, and they know all other commitments. -/
theorem qualW : ∀ i ∈ ({0, 1} : Finset Nat), 2 ∈ qualSet (qRun envRI ((netR envRI).D i) (callsW i)) ∧
    ((qRun envRI ((netR envRI).D i) (callsW i)).commitments.contains 0 &&
      (qRun envRI ((netR envRI).D i) (callsW i)).commitments.contains 1) = true := by decide +kernel

theorem startW (i : Nat) (hi : i ∈ ({0, 1} : Finset Nat)) : newDistKeyGenerator envRI ((netR envRI).x i) [6, 10, 4] 2
    ((netR envRI).sec i) ((netR envRI).fD i) ((netR envRI).gD i) = .ok ((netR envRI).D i) ∧
    ((netR envRI).D i).index = i := by
  simp only [Finset.mem_insert, Finset.mem_singleton] at hi
  rcases hi with rfl | rfl
  · exact ⟨rfl, by decide +kernel⟩
  · exact ⟨rfl, by decide +kernel⟩

theorem qualifiedW (i : Nat) (hi : i ∈ ({0, 1} : Finset Nat)) :
    QualifiedR (qRun envRI ((netR envRI).D i) (callsW i)) 2 :=
  (mem_qualSet (DkgR.reach_nodup (startW i hi).1 _)).1 (qualW i hi).1

/-- A case for `C135_withheld`: participant 0 has heard everything but the commitments of dealer 2. -/
example (ord : MapOrder) : (qRun envRI ((netR envRI).D 0) (callsW 0)).finished ord = false ∧
    ∀ k, (qRun envRI ((netR envRI).D 0) (callsW 0)).distKeyShare ord ≠ .ok k :=
  (C135_withheld envRI [6, 10, 4] 2 {0, 1} (by decide) _ _ _ _ _ startW publicW callsW broadcastW unforgedW 2
    (by decide) withheldW 0 (by decide) (callsW 0) [] (by simp)).2.2 (qualifiedW 0 (by decide)) ord

/-- The complaint of participant 1 about the commitments `badCommits` of dealer 2. -/
def ccX : ComplaintCommits (ZMod 11) (ZMod 11) :=
  match ((qRun envRI ((netR envRI).D 1) (callsW 1)).processSecretCommits envRI MapOrder.id badCommits 4).2 with
  | .ok (some cc) => cc
  | _ => forgedCc

/-- The answer of participant 0, whose share agrees with them. -/
def rcX : ReconstructCommits (ZMod 11) :=
  match ((qRun envRI ((netR envRI).D 0) (callsW 0 ++ [.commits MapOrder.id badCommits 4])).processComplaintCommits envRI
    MapOrder.id ccX 4).2 with
  | .ok rc => rc
  | _ => revealed

def publicX : List (PublicR (ZMod 11) (ZMod 11)) :=
  publicW ++ [.commits badCommits, .complaint ccX, .reconstruct rcX]

def callsX (i : Nat) : List (QCall (ZMod 11) (ZMod 11)) :=
  callsW i ++ [.commits MapOrder.id badCommits 4, .complaint MapOrder.id ccX 4, .reconstruct MapOrder.id rcX]

/-- Whether everything said is on the board. -/
def publishedX : Dkg (ZMod 11) (ZMod 11) → List (QCall (ZMod 11) (ZMod 11)) → Bool
  | _, [] => true
  | d, c :: cs => (match saidR envRI d c with
    | some m => decide (m ∈ publicX)
    | none => true) && publishedX (qStep envRI d c) cs

theorem publishedX_spec (d : Dkg (ZMod 11) (ZMod 11)) (cs : List (QCall (ZMod 11) (ZMod 11)))
    (h : publishedX d cs = true) : PublishesR envRI publicX d cs := by
  induction cs generalizing d with
  | nil => trivial
  | cons c cs ih =>
    unfold publishedX at h
    rw [Bool.and_eq_true] at h
    refine ⟨fun m hm => ?_, ih _ h.2⟩
    have := h.1
    rw [hm] at this
    exact of_decide_eq_true this

theorem publishedX0 : publishedX ((netR envRI).D 0) (callsX 0) = true := by decide +kernel
theorem publishedX1 : publishedX ((netR envRI).D 1) (callsX 1) = true := by decide +kernel

theorem broadcastX : BroadcastR envRI {0, 1} (netR envRI).D publicX callsX where
  heard i hi := by
    have := broadcastW.heard i hi
    unfold callsX publicX
    rw [List.filterMap_append, this]
    rfl
  said i hi := by
    simp only [Finset.mem_insert, Finset.mem_singleton] at hi
    rcases hi with rfl | rfl
    · exact publishedX_spec _ _ publishedX0
    · exact publishedX_spec _ _ publishedX1
  dealt i hi := by
    obtain ⟨pre, dh, k, vk, post, out, h1, h2, h3⟩ := broadcastW.dealt i hi
    refine ⟨pre, dh, k, vk, _, out, by unfold callsX; rw [h1, List.append_assoc]; rfl, h2, fun j hj hne => ?_⟩
    obtain ⟨dd, k', g1, g2⟩ := h3 j hj hne
    exact ⟨dd, k', g1, List.mem_append_left _ g2⟩

theorem rcX_facts : rcX.index = 0 ∧
    ((callsW 0 ++ [QCall.commits MapOrder.id badCommits 4, .complaint MapOrder.id ccX 4]).filterMap heardR).length = 10 ∧
    publicW.length = 8 := by decide +kernel

theorem mem_publicX {rc : ReconstructCommits (ZMod 11)} {p : Nat} (h : publicX[p]? = some (.reconstruct rc)) :
    rc = rcX ∧ p = 10 := by
  have hl := rcX_facts.2.2
  unfold publicX at h
  by_cases hp : p < publicW.length
  · rw [List.getElem?_append_left hp] at h
    exact absurd rfl (kindsW _ (List.mem_of_getElem? h))
  · rw [List.getElem?_append_right (by omega), hl] at h
    obtain ⟨m, rfl⟩ : ∃ m, p = 8 + m := ⟨p - 8, by omega⟩
    rw [Nat.add_sub_cancel_left] at h
    match m, h with
    | 0, h => cases h
    | 1, h => cases h
    | 2, h => exact ⟨(PublicR.reconstruct.inj (Option.some.inj h)).symm, rfl⟩
    | _ + 3, h => cases h

theorem unforgedX : UnforgedR envRI [6, 10, 4] {0, 1} (netR envRI).D publicX callsX := by
  intro p rc pub hp _ _ _
  obtain ⟨e, rfl⟩ := mem_publicX hp
  obtain ⟨h1, h3, -⟩ := rcX_facts
  rw [e, h1]
  refine ⟨callsW 0 ++ [.commits MapOrder.id badCommits 4], .complaint MapOrder.id ccX 4, [.reconstruct MapOrder.id rcX],
    by simp [callsX], by decide +kernel, ?_⟩
  rw [List.append_assoc]
  exact h3.le

theorem revealedX : RevealedR envRI [6, 10, 4] 2 [2, 2] publicX := by
  intro sc pub hm hsc _ _
  unfold publicX at hm
  rcases List.mem_append.1 hm with hm | hm
  · exact absurd hsc (kindsW _ hm)
  · rcases List.mem_cons.1 hm with hm | hm
    · cases hm; rfl
    · rcases List.mem_cons.1 hm with hm | hm
      · cases hm
      · rcases List.mem_cons.1 hm with hm | hm <;> cases hm

theorem onlyFromX : OnlyFromR envRI [6, 10, 4] {0, 1} 2 publicX := by
  intro rc pub hm _ _ _
  obtain ⟨p, hp, he⟩ := List.mem_iff_getElem.1 hm
  obtain ⟨e, -⟩ := mem_publicX (List.getElem?_eq_some_iff.2 ⟨hp, he⟩)
  rw [e, rcX_facts.1]
  decide

/-- The value of the share of dealer 2 after each number of calls. -/
def shareX (i m : Nat) : Option (ZMod 11) :=
  ((((qRun envRI ((netR envRI).D i) ((callsX i).take m)).verifiers.get 2).bind (·.aggregator)).bind (·.deal)).map
    (·.secShare.v)

theorem sharesX : ∀ i ∈ ({0, 1} : Finset Nat), (callsX i).length = 15 ∧ ∀ m ∈ List.range 16,
    ∀ v ∈ shareX i m, v = polyVal [4, 9] ((i + 1 : Nat) : ZMod 11) := by decide +kernel

theorem dealtX (i : Nat) (hi : i ∈ ({0, 1} : Finset Nat)) (pre post : List (QCall (ZMod 11) (ZMod 11)))
    (dl : VssR.Deal (ZMod 11) (ZMod 11)) (hcs : callsX i = pre ++ post)
    (h : HoldsDeal (qRun envRI ((netR envRI).D i) pre) 2 dl) :
    dl.secShare.v = polyVal [4, 9] ((i + 1 : Nat) : ZMod 11) := by
  obtain ⟨hlen, hs⟩ := sharesX i hi
  have hpre : pre = (callsX i).take pre.length := by rw [hcs]; simp
  have hle : pre.length ≤ 15 := by
    have := congrArg List.length hcs
    rw [List.length_append] at this
    omega
  obtain ⟨v, a, h1, h2, h3⟩ := h
  refine hs pre.length (List.mem_range.2 (by omega)) _ ?_
  unfold shareX
  rw [← hpre, h1, Option.bind_some, h2, Option.bind_some, h3]
  rfl

/-- A case for `C135_wrong_dealt` and `C135_wrong`: dealer 2 dealt shares of `4 + 9 X` and reveals commitments to
`1 + X`. Participant 0 accepts them, participant 1 complains, 0 reveals its share, which is not enough for a
reconstruction. -/
theorem stuckX : (qRun envRI ((netR envRI).D 1) (callsX 1)).commitments.get 2 = none :=
  (C135_wrong_dealt 11 envRI ⟨fun a b => add_smul a b _, fun a b => mul_smul a b _⟩ [6, 10, 4] 2 (by decide) {0, 1}
    _ _ _ _ _ startW publicX callsX broadcastX unforgedX 2 (by decide) [2, 2] revealedX onlyFromX [4, 9] le_rfl le_rfl
    dealtX 1 (by decide) (by decide +kernel) (callsX 1) [] (by simp)).1

example : ccX.index = 1 ∧ rcX.share = ⟨0, 2⟩ ∧ 2 ∈ qualSet (qRun envRI ((netR envRI).D 1) (callsX 1)) ∧
    pendingOf (qRun envRI ((netR envRI).D 1) (callsX 1)) 2 = [rcX] := by decide +kernel

end WithheldExample

open WithheldExample DkgRExample Toy in
/-- C135 does not hold: participant 2 of three, with threshold 2, is qualified and keeps its commitments back. Nothing
that the other two can do makes them finish: a reconstruction starts with a complaint about commitments that were
revealed. -/
theorem C135_violated : ¬ C135_statement := by
  intro h
  obtain ⟨B', cs', h1, h2, h3, h4⟩ := h (ZMod 11) (ZMod 11) _ _ _ _ envRI envRI_lawful prims_lawful
    (fun _ => ⟨fun a b => add_smul a b _, fun a b => mul_smul a b _⟩) (fun _ _ h => h) codecR_lawful primsOkRI
    [6, 10, 4] (by decide +kernel) 2 {0, 1} (by decide) (by decide) (netR envRI).x (netR envRI).sec
    (netR envRI).fD (netR envRI).gD (netR envRI).D startW publicW callsW broadcastW unforgedW 2 (by decide) withheldW
    qualifiedW
  obtain ⟨-, hq, hf⟩ := h4 0 (by decide)
  have := ((C135_withheld envRI [6, 10, 4] 2 {0, 1} (by decide) _ _ _ _ _ startW B' cs' h1 h2 2 (by decide) h3 0
    (by decide) (cs' 0) [] (by simp)).2.2 hq MapOrder.id).1
  rw [hf MapOrder.id] at this
  cases this

end Kyber.Props
