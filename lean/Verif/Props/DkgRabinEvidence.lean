/-
Property C40 (`src/share/dkg/rabin/dkg.rs`): complaints about secret commitments, and what evidence
they need.
-/
import Verif.Props.DkgRabinHonest

set_option linter.unusedSectionVars false

namespace Kyber.Props

open Kyber Kyber.Poly Kyber.Spec Kyber.VssR Kyber.DkgR

variable {F G : Type} [Field F] [AddCommGroup G] [DecidableEq G]

section

variable [SMul F G]

/-- C40: exactly when a complaint is accepted. The issuer and the dealer must be qualified, the
issuer must have signed, the deal in the complaint must carry the session id and be consistent with
*the commitments written in it*, and must disagree with the dealer's secret commitments. Nothing ties
the deal to one the dealer made. -/
theorem C40_complaint_iff (E : Env F G) (x : F) (pubs : List G) (t : Nat) (secret : F)
    (fD gD : List F) (d0 : Dkg F G)
    (h0 : newDistKeyGenerator E x pubs t secret fD gD = .ok d0) (hn : pubs.length < 2 ^ 32)
    (cs : List (QCall F G)) (ord : MapOrder) (cc : ComplaintCommits F G) (k : F) :
    let d := qRun E d0 cs
    (∃ rc, (d.processComplaintCommits E ord cc k).2 = .ok rc) ↔
      (∃ issuer, pubs[cc.index]? = some issuer ∧
        Schnorr.verify E.suite issuer (cc.hash E) cc.signature = .ok ()) ∧
      QualifiedR d cc.index ∧
      (∃ v a, d.verifiers.get cc.dealerIndex = some v ∧ v.aggregator = some a ∧
        a.dealCertified = true ∧ a.sid = cc.deal.sessionId) ∧
      GoodDealR E.suite.base (deriveH E pubs) pubs.length cc.deal ∧
      ∃ p, d.commitments.get cc.dealerIndex = some p ∧ p.commits ≠ [] ∧
        pointVal p.commits ((cc.deal.secShare.i + 1 : Nat) : F) ≠
          cc.deal.secShare.v • p.b.getD E.suite.base := by
  intro d
  have hnd : d.verifiers.keys.Nodup := DkgR.reach_nodup h0 cs
  have hev := qRun_evolves E d0 cs
  have hS : Setup E d := (setup_new h0).step hev
  have hpart : d.participants = pubs := by
    obtain ⟨-, -, -, -, h5, -⟩ := newDistKeyGenerator_ok h0
    exact hev.participants.trans h5
  have hrem : ∀ (a : Aggregator F G) dl, a.deal = some dl → ∀ x, a.remember x = a := by
    intro a dl h x; unfold Aggregator.remember; rw [h]
  have hver : ∀ (a : Aggregator F G) dl, a.deal = some dl → ∀ x : VssR.Deal F G,
      a.verifyDeal E x false = (a, a.checkDeal E x) := by
    intro a dl h x
    unfold Aggregator.verifyDeal
    rw [hrem a dl h, if_neg (by simp)]
  have hcheck : ∀ (a : Aggregator F G), Wf d.participants a →
      (a.checkDeal E cc.deal = .ok () ↔
        a.sid = cc.deal.sessionId ∧ GoodDealR E.suite.base (deriveH E pubs) pubs.length cc.deal) := by
    intro a ha
    rw [checkDeal_ok_iff E a cc.deal (by rw [ha.verifiers, hpart]; exact hn), ha.verifiers, hpart]
  have hneg : ∀ p : PubPoly G, p.check E.suite.base cc.deal.secShare = .ok false ↔ p.commits ≠ [] ∧
      pointVal p.commits ((cc.deal.secShare.i + 1 : Nat) : F) ≠
          cc.deal.secShare.v • p.b.getD E.suite.base := by
    intro p
    rw [check_iff]; simp
  constructor
  · rintro ⟨rc, hrc⟩
    rcases processComplaintCommits_cases E ord d cc k with ⟨-, h⟩ |
      ⟨issuer, v, a, p, deal, h1, h2, h3, h4, h5, h6, h7, h8, h9, -⟩
    · exact absurd hrc (h rc)
    · obtain ⟨a', dl, g1, g2, -, -, g5⟩ := hS.holds h4
      rw [h5] at g1; cases g1
      rw [hver a dl g2] at h6
      have h6' := (hcheck a g5).1 h6
      refine ⟨⟨issuer, by rw [← hpart]; exact h1, h3⟩, (isInQual_iff hnd ord _).1 h2,
        ⟨v, a, h4, h5, ?_, h6'.1⟩, h6'.2, p, h7, (hneg p).1 h8⟩
      have hv' : rStep E v (.verifyDeal cc.deal false) = v := by
        simp only [rStep, Verifier.onAggregator, h5, Option.map_some, hver a dl g2]
        rw [← h5]
      rw [hv'] at h9
      by_contra hc
      unfold Verifier.deal at h9
      rw [h5] at h9
      simp only at h9
      rw [if_pos (Or.inr (by simpa using hc))] at h9
      cases h9
  · rintro ⟨⟨issuer, h1, h3⟩, h2, ⟨v, a, h4, h5, hc, h6⟩, h7, p, h8, h9, h10⟩
    obtain ⟨a', dl, g1, g2, -, -, g5⟩ := hS.holds h4
    rw [h5] at g1; cases g1
    have hck : a.checkDeal E cc.deal = .ok () := (hcheck a g5).2 ⟨h6, h7⟩
    unfold Dkg.processComplaintCommits
    rw [hpart, h1]
    simp only
    rw [if_neg (by simp [(isInQual_iff hnd ord _).2 h2]), h3]
    simp only [h4, h5, hver a dl g2, hck, h8]
    rw [(hneg p).2 ⟨h9, h10⟩]
    simp only
    have : (⟨v.longterm, v.pubb, v.dealer, v.index, v.verifiers, v.hkdfContext, some a⟩ :
        Verifier F G).deal = some dl := by
      rw [deal_of_certified rfl hc, g2]
    simp only [this]
    exact ⟨_, rfl⟩

/-- C40: what an accepted complaint does: the dealer's commitments are dropped, and the participant
signs and reveals the share it holds from that dealer. -/
theorem C40_complaint_effect (E : Env F G) (x : F) (pubs : List G) (t : Nat) (secret : F)
    (fD gD : List F) (d0 : Dkg F G)
    (h0 : newDistKeyGenerator E x pubs t secret fD gD = .ok d0)
    (cs : List (QCall F G)) (ord : MapOrder) (cc : ComplaintCommits F G) (k : F)
    (rc : ReconstructCommits F) :
    let d := qRun E d0 cs
    let r := d.processComplaintCommits E ord cc k
    r.2 = .ok rc →
    r.1.commitments.get cc.dealerIndex = none ∧
    (∀ j, j ≠ cc.dealerIndex → r.1.commitments.get j = d.commitments.get j) ∧
    r.1.verifiers.get cc.dealerIndex = d.verifiers.get cc.dealerIndex ∧
    rc.index = d0.index ∧ rc.dealerIndex = cc.dealerIndex ∧ rc.sessionId = cc.deal.sessionId ∧
    ∃ dl, HoldsDeal d cc.dealerIndex dl ∧ rc.share = dl.secShare := by
  intro d r hr
  have hev := qRun_evolves E d0 cs
  have hS : Setup E d := (setup_new h0).step hev
  rcases processComplaintCommits_cases E ord d cc k with ⟨-, h⟩ |
      ⟨issuer, v, a, p, deal, h1, h2, h3, h4, h5, h6, h7, h8, h9, rc', e1, e2, e3, e4, -, e5⟩
  · exact absurd hr (h rc)
  · obtain ⟨a', dl, g1, g2, -, -, -⟩ := hS.holds h4
    rw [h5] at g1; cases g1
    have hver : a.verifyDeal E cc.deal false = (a, a.checkDeal E cc.deal) := by
      unfold Aggregator.verifyDeal Aggregator.remember
      rw [g2, if_neg (by simp)]
    have hv' : rStep E v (.verifyDeal cc.deal false) = v := by
      simp only [rStep, Verifier.onAggregator, h5, Option.map_some, hver]
      rw [← h5]
    have hrr : r = _ := e5
    rw [hrr] at hr ⊢
    cases hr
    refine ⟨?_, ?_, ?_, e2.trans hev.index, e3, e1, dl, ⟨v, a, h4, h5, g2⟩, ?_⟩
    · show (d.commitments.remove cc.dealerIndex).get cc.dealerIndex = none
      rw [get_remove, if_pos rfl]
    · intro j hj
      show (d.commitments.remove cc.dealerIndex).get j = _
      rw [get_remove, if_neg hj]
    · show (d.verifiers.insert cc.dealerIndex (rStep E v (.verifyDeal cc.deal false))).get _ = _
      rw [AMap.get_insert, if_pos rfl, hv', h4]
    · rw [e4]
      rw [hv'] at h9
      unfold Verifier.deal at h9
      rw [h5] at h9
      simp only at h9
      split at h9
      · cases h9
      · rw [g2] at h9; cases h9; rfl

/-- C40: the commitments known for a dealer change in one call only if (1) the participant computes
its own; (2) the dealer, being qualified, signs new ones for the session of its deal that agree with the
share held from it; (3)
a complaint is accepted, which drops them; (4) they are missing and are reconstructed from `t`
signed messages of different participants. -/
theorem C40_commitments_change (E : Env F G) (d : Dkg F G) (hnd : d.verifiers.keys.Nodup)
    (c : QCall F G) (j : Nat) (h : (qStep E d c).commitments.get j ≠ d.commitments.get j) :
    (∃ k, c = .ownCommits k ∧ j = d.index) ∨
    (∃ ord sc k pub, c = .commits ord sc k ∧ sc.index = j ∧ d.participants[j]? = some pub ∧
      Schnorr.verify E.suite pub (sc.hash E.suite) sc.signature = .ok () ∧ QualifiedR d j ∧
      (∃ v a, d.verifiers.get j = some v ∧ v.aggregator = some a ∧ a.sid = sc.sessionId) ∧
      (∃ dl, HoldsDeal d j dl ∧
        pointVal sc.commitments ((dl.secShare.i + 1 : Nat) : F) = dl.secShare.v • E.suite.base) ∧
      (qStep E d c).commitments.get j = some ⟨some E.suite.base, sc.commitments⟩) ∨
    (∃ ord cc k rc, c = .complaint ord cc k ∧ cc.dealerIndex = j ∧
      (d.processComplaintCommits E ord cc k).2 = .ok rc ∧
      (qStep E d c).commitments.get j = none) ∨
    (∃ ord rc pub arr pri, c = .reconstruct ord rc ∧ rc.dealerIndex = j ∧
      d.commitments.get j = none ∧ d.participants[rc.index]? = some pub ∧
      Schnorr.verify E.suite pub (rc.hash E.suite) rc.signature = .ok () ∧
      arr = (d.pendingReconstruct.get j).getD [] ++ [rc] ∧ d.t ≤ arr.length ∧
      recoverPriPoly ord (arr.map (fun r => some r.share)) d.t = .ok pri ∧
      (qStep E d c).commitments.get j = some ⟨some E.suite.base, pri.coeffs.map (· • E.suite.base)⟩) := by
  cases c with
  | deals dh k vk =>
    exfalso; apply h
    show (d.deals E dh k vk).1.commitments.get j = _
    unfold Dkg.deals
    split
    · rfl
    · rfl
    · rw [(dealsLoop_cr E _ _ _ _ _).1]
  | deal dd k =>
    exfalso; apply h
    show (d.processDeal E dd k).1.commitments.get j = _
    unfold Dkg.processDeal
    repeat' split
    all_goals rfl
  | response r k =>
    exfalso; apply h
    show (d.processResponse E r k).1.commitments.get j = _
    rw [(processResponse_cr E d r k).1]
  | justification jj =>
    exfalso; apply h
    show (d.processJustification E jj).1.commitments.get j = _
    unfold Dkg.processJustification
    split <;> rfl
  | timeout => exact absurd rfl h
  | ownCommits k =>
    left
    refine ⟨k, rfl, ?_⟩
    by_contra hj
    apply h
    show (d.secretCommits E.suite k).1.commitments.get j = _
    unfold Dkg.secretCommits
    split
    · rfl
    · split
      · rfl
      · show (d.commitments.insert d.index _).get j = _
        rw [AMap.get_insert, if_neg hj]
  | commits ord sc k =>
    right; left
    rcases processSecretCommits_cases E ord d sc k with ⟨h1, -⟩ |
      ⟨pub, v, dl, h1, h2, h3, h4, h5, h6, h7, h8⟩
    · exfalso; apply h
      show (d.processSecretCommits E ord sc k).1.commitments.get j = _
      rw [h1]
    · have hst : qStep E d (.commits ord sc k) = setCommit d sc.index ⟨some E.suite.base, sc.commitments⟩ :=
        congrArg Prod.fst h8
      rw [hst] at h ⊢
      have hj : sc.index = j := by
        by_contra hj
        apply h
        show (d.commitments.insert sc.index _).get j = _
        rw [AMap.get_insert, if_neg (Ne.symm hj)]
      subst hj
      have hq := (isInQual_iff hnd ord _).1 h2
      refine ⟨ord, sc, k, pub, rfl, rfl, h1, h5, hq, ?_, ⟨dl, ?_, ?_⟩, ?_⟩
      · obtain ⟨v', a, g1, g2, -⟩ := hq
        rw [h3] at g1; cases g1
        refine ⟨v, a, h3, g2, ?_⟩
        unfold sessionIdV at h4
        rw [g2] at h4
        exact h4
      · obtain ⟨v', a, g1, g2, g3⟩ := hq
        rw [h3] at g1; cases g1
        refine ⟨v, a, h3, g2, ?_⟩
        rw [← deal_of_certified g2 g3, h6]
      · rw [check_iff] at h7
        exact h7.2.1 rfl
      · show (d.commitments.insert sc.index _).get sc.index = _
        rw [AMap.get_insert, if_pos rfl]
  | complaint ord cc k =>
    right; right; left
    rcases processComplaintCommits_cases E ord d cc k with ⟨h1 | ⟨v, -, h1⟩, -⟩ |
      ⟨issuer, v, a, p, deal, h1, h2, h3, h4, h5, h6, h7, h8, h9, rc', e1, e2, e3, e4, -, e5⟩
    · exfalso; apply h
      show (d.processComplaintCommits E ord cc k).1.commitments.get j = _
      rw [h1]
    · exfalso; apply h
      show (d.processComplaintCommits E ord cc k).1.commitments.get j = _
      rw [h1]; rfl
    · have hst : (qStep E d (.complaint ord cc k)).commitments = d.commitments.remove cc.dealerIndex :=
        congrArg (fun r => (Prod.fst r).commitments) e5
      rw [hst, get_remove] at h ⊢
      have hj : cc.dealerIndex = j := by
        by_contra hj
        apply h
        rw [if_neg (Ne.symm hj)]
      exact ⟨ord, cc, k, rc', rfl, hj, congrArg Prod.snd e5, by rw [if_pos hj.symm]⟩
  | reconstruct ord rc =>
    right; right; right
    rcases processReconstructCommits_cases E ord d rc with (h1 | ⟨arr, h1, -⟩) |
      ⟨pub, arr, pri, h1, h2, h3, h4, h5, h6, h7, h8, h9⟩
    · exfalso; apply h
      show (d.processReconstructCommits E ord rc).1.commitments.get j = _
      rw [h1]
    · exfalso; apply h
      show (d.processReconstructCommits E ord rc).1.commitments.get j = _
      rw [h1]
    · have hst : (qStep E d (.reconstruct ord rc)).commitments = d.commitments.insert rc.dealerIndex
          ⟨some E.suite.base, pri.coeffs.map (· • E.suite.base)⟩ :=
        congrArg (fun r => (Prod.fst r).commitments) h9
      rw [hst, AMap.get_insert] at h ⊢
      have hj : rc.dealerIndex = j := by
        by_contra hj
        apply h
        rw [if_neg (Ne.symm hj)]
      subst hj
      exact ⟨ord, rc, pub, arr, pri, rfl, rfl, h2, h3, h4, h5, h7, h8, by rw [if_pos rfl]⟩

/-- C40: exactly when secret commitments are taken over, and exactly when they are answered by a
complaint: both need a signature of a qualified dealer, the session id of its deal and at least one
commitment; what decides is whether the commitments agree with the share held. The complaint contains
the deal held. -/
theorem C40_commits_iff (E : Env F G) (x : F) (pubs : List G) (t : Nat) (secret : F)
    (fD gD : List F) (d0 : Dkg F G)
    (h0 : newDistKeyGenerator E x pubs t secret fD gD = .ok d0)
    (cs : List (QCall F G)) (ord : MapOrder) (sc : SecretCommits G) (k : F) :
    let d := qRun E d0 cs
    let r := d.processSecretCommits E ord sc k
    let valid := (∃ pub, pubs[sc.index]? = some pub ∧
        Schnorr.verify E.suite pub (sc.hash E.suite) sc.signature = .ok ()) ∧
      QualifiedR d sc.index ∧ sc.commitments ≠ [] ∧
      ∃ v a, d.verifiers.get sc.index = some v ∧ v.aggregator = some a ∧ a.sid = sc.sessionId
    let agrees := ∃ dl, HoldsDeal d sc.index dl ∧
      pointVal sc.commitments ((dl.secShare.i + 1 : Nat) : F) = dl.secShare.v • E.suite.base
    (r.2 = .ok none ↔ valid ∧ agrees) ∧
    (∀ cc, r.2 = .ok (some cc) → valid ∧ ¬ agrees ∧ cc.index = d0.index ∧
      cc.dealerIndex = sc.index ∧ HoldsDeal d sc.index cc.deal) ∧
    (valid → ¬ agrees → ∃ cc, r.2 = .ok (some cc)) := by
  intro d r valid agrees
  have hnd : d.verifiers.keys.Nodup := DkgR.reach_nodup h0 cs
  have hev := qRun_evolves E d0 cs
  have hS : Setup E d := (setup_new h0).step hev
  have hpart : d.participants = pubs := by
    obtain ⟨-, -, -, -, h5, -⟩ := newDistKeyGenerator_ok h0
    exact hev.participants.trans h5
  -- the answer of a valid message
  have hval : valid → ∃ dl, HoldsDeal d sc.index dl ∧
      (∀ dl', HoldsDeal d sc.index dl' → dl' = dl) ∧
      ((pointVal sc.commitments ((dl.secShare.i + 1 : Nat) : F) = dl.secShare.v • E.suite.base ∧
        r.2 = .ok none) ∨
       (pointVal sc.commitments ((dl.secShare.i + 1 : Nat) : F) ≠ dl.secShare.v • E.suite.base ∧
        r.2 = .ok (some { (⟨d.index, sc.index, dl, []⟩ : ComplaintCommits F G) with
          signature := Schnorr.sign E.suite k d.long
            ((⟨d.index, sc.index, dl, []⟩ : ComplaintCommits F G).hash E) }))) := by
    rintro ⟨⟨pub, h1, h2⟩, h3, h4, v, a, h5, h6, h7⟩
    obtain ⟨a', dl, g1, g2, -, -, -⟩ := hS.holds h5
    rw [h6] at g1; cases g1
    have hc : a.dealCertified = true := by
      obtain ⟨v', a', e1, e2, e3⟩ := h3
      rw [h5] at e1; cases e1
      rw [h6] at e2; cases e2
      exact e3
    refine ⟨dl, ⟨v, a, h5, h6, g2⟩, ?_, ?_⟩
    · rintro dl' ⟨v', a', e1, e2, e3⟩
      rw [h5] at e1; cases e1
      rw [h6] at e2; cases e2
      rw [g2] at e3; cases e3; rfl
    · have hsid : sessionIdV v = sc.sessionId := by unfold sessionIdV; rw [h6]; exact h7
      have hr : r = d.processSecretCommits E ord sc k := rfl
      unfold Dkg.processSecretCommits at hr
      rw [hpart, h1] at hr
      simp only at hr
      rw [if_neg (by simp [(isInQual_iff hnd ord _).2 h3]), h5] at hr
      simp only at hr
      rw [if_neg (by simp [hsid]), h2] at hr
      simp only [deal_of_certified h6 hc, g2] at hr
      by_cases hm : pointVal sc.commitments ((dl.secShare.i + 1 : Nat) : F) =
          dl.secShare.v • E.suite.base
      · left
        rw [(check_iff E.suite.base (⟨some E.suite.base, sc.commitments⟩ : PubPoly G) dl.secShare
          true).2 ⟨h4, by simpa using hm⟩] at hr
        exact ⟨hm, by rw [hr]⟩
      · right
        rw [(check_iff E.suite.base (⟨some E.suite.base, sc.commitments⟩ : PubPoly G) dl.secShare
          false).2 ⟨h4, by simpa using hm⟩] at hr
        exact ⟨hm, by rw [hr]⟩
  -- any answer needs a valid message
  have hneed : ∀ o, r.2 = .ok o → valid := by
    intro o ho
    have hr : r = d.processSecretCommits E ord sc k := rfl
    unfold Dkg.processSecretCommits at hr
    rw [hr] at ho
    split at ho
    · cases ho
    · rename_i pub hp
      split at ho
      · cases ho
      · rename_i hq
        have hq' := (isInQual_iff hnd ord _).1 (by simpa using hq)
        split at ho
        · cases ho
        · rename_i v hv
          split at ho
          · cases ho
          · rename_i hs
            split at ho
            · cases ho
            · cases ho
            · rename_i hsig
              split at ho
              · cases ho
              · have hne : sc.commitments ≠ [] := by
                  simp only at ho
                  split at ho
                  · cases ho
                  · cases ho
                  · rename_i hck; exact ((check_iff _ _ _ _).1 hck).1
                  · rename_i hck; exact ((check_iff _ _ _ _).1 hck).1
                have hq'' := hq'
                obtain ⟨v', a, e1, e2, -⟩ := hq''
                rw [hv] at e1; cases e1
                refine ⟨⟨pub, by rw [← hpart]; exact hp, hsig⟩, hq', hne, v, a, hv, e2, ?_⟩
                have : sessionIdV v = sc.sessionId := by simpa using hs
                unfold sessionIdV at this
                rw [e2] at this
                exact this
  refine ⟨⟨?_, ?_⟩, ?_, ?_⟩
  · intro h
    have hv := hneed _ h
    obtain ⟨dl, h1, -, ⟨h2, -⟩ | ⟨-, h2⟩⟩ := hval hv
    · exact ⟨hv, dl, h1, h2⟩
    · rw [h] at h2; cases h2
  · rintro ⟨hv, dl', h1', h2'⟩
    obtain ⟨dl, h1, hu, ⟨-, h2⟩ | ⟨h2, -⟩⟩ := hval hv
    · exact h2
    · rw [hu dl' h1'] at h2'; exact absurd h2' h2
  · intro cc h
    have hv := hneed _ h
    obtain ⟨dl, h1, hu, ⟨-, h2⟩ | ⟨h2, h3⟩⟩ := hval hv
    · rw [h] at h2; cases h2
    · rw [h] at h3
      cases h3
      refine ⟨hv, ?_, hev.index, rfl, h1⟩
      rintro ⟨dl', h1', h2'⟩
      rw [hu dl' h1'] at h2'; exact h2 h2'
  · intro hv hna
    obtain ⟨dl, h1, hu, ⟨h2, -⟩ | ⟨h2, h3⟩⟩ := hval hv
    · exact absurd ⟨dl, h1, h2⟩ hna
    · exact ⟨_, h3⟩

/-- C40: a genuine complaint is accepted. If participant `i` refuses commitments `sc` of dealer `j`
with a complaint, then every participant that accepted the same commitments, has `i` in its qualified
set and shares the session accepts the complaint, provided the deal held by `i` is a good one. -/
theorem C40_genuine_complaint (E : Env F G) (hS : E.suite.Lawful)
    (x : F) (pubs : List G) (t : Nat) (secret : F) (fD gD : List F) (di0 : Dkg F G)
    (hi0 : newDistKeyGenerator E x pubs t secret fD gD = .ok di0)
    (x' : F) (secret' : F) (fD' gD' : List F) (dl0 : Dkg F G)
    (hl0 : newDistKeyGenerator E x' pubs t secret' fD' gD' = .ok dl0) (hn : pubs.length < 2 ^ 32)
    (cs cs' : List (QCall F G)) (ord ord' : MapOrder) (sc : SecretCommits G)
    (cc : ComplaintCommits F G) (k k' : F)
    (hx : Usable E.suite (x • E.suite.base)) (hk : Usable E.suite (k • E.suite.base)) :
    let d := qRun E di0 cs
    let d' := qRun E dl0 cs'
    (d.processSecretCommits E ord sc k).2 = .ok (some cc) →
    (∀ dl, HoldsDeal d sc.index dl →
      GoodDealR E.suite.base (deriveH E pubs) pubs.length dl ∧
      ∃ v a, d'.verifiers.get sc.index = some v ∧ v.aggregator = some a ∧ a.sid = dl.sessionId) →
    d'.commitments.get sc.index = some ⟨some E.suite.base, sc.commitments⟩ →
    QualifiedR d' di0.index → QualifiedR d' sc.index →
    ∃ rc, (d'.processComplaintCommits E ord' cc k').2 = .ok rc := by
  intro d d' hcc hgood hcom hqi hqj
  have hev := qRun_evolves E di0 cs
  have hSt : Setup E d := (setup_new hi0).step hev
  have hpub : pubs[di0.index]? = some (x • E.suite.base) := by
    have := (setup_new hi0).pub
    obtain ⟨-, -, h3, -, h5, -⟩ := newDistKeyGenerator_ok hi0
    rw [h5, h3] at this
    exact this
  have hlong : d.long = x := by
    obtain ⟨-, -, h3, -⟩ := newDistKeyGenerator_ok hi0
    exact hev.long.trans h3
  refine (C40_complaint_iff E x' pubs t secret' fD' gD' dl0 hl0 hn cs' ord' cc k').2 ?_
  -- the complaint
  have key : ∃ v dl, d.verifiers.get sc.index = some v ∧ v.deal = some dl ∧
      (⟨some E.suite.base, sc.commitments⟩ : PubPoly G).check E.suite.base dl.secShare = .ok false ∧
      cc.index = d.index ∧ cc.dealerIndex = sc.index ∧ cc.deal = dl ∧
      cc.signature = Schnorr.sign E.suite k d.long (cc.hash E) := by
    revert hcc
    unfold Dkg.processSecretCommits
    split
    · intro h; cases h
    split
    · intro h; cases h
    split
    · intro h; cases h
    rename_i v hv
    split
    · intro h; cases h
    split
    · intro h; cases h
    · intro h; cases h
    split
    · intro h; cases h
    rename_i dl hdl
    simp only
    split
    · intro h; cases h
    · intro h; cases h
    · rename_i hck
      intro h; cases h
      exact ⟨v, dl, hv, hdl, hck, rfl, rfl, rfl, rfl⟩
    · intro h; cases h
  obtain ⟨v, dl, h1, h2, h3, h4, h5, h6, h7⟩ := key
  have hh : HoldsDeal d sc.index dl := by
    unfold Verifier.deal at h2
    split at h2
    · cases h2
    · rename_i a ha
      split at h2
      · cases h2
      · exact ⟨v, a, h1, ha, h2⟩
  obtain ⟨hg, vv, a, g1, g2, g3⟩ := hgood dl hh
  have hidx : cc.index = di0.index := h4.trans hev.index
  rw [check_iff] at h3
  refine ⟨⟨x • E.suite.base, by rw [hidx]; exact hpub, ?_⟩, by rw [hidx]; exact hqi, ?_, ?_, ?_⟩
  · rw [h7, hlong]
    exact C11_sign_verify E.suite hS k x _ hk.1 hk.2 hx.1 hx.2
  · rw [h5]
    obtain ⟨v1, a1, q1, q2, q3⟩ := hqj
    have e1 : v1 = vv := Option.some.inj (q1.symm.trans g1)
    subst e1
    have e2 : a1 = a := Option.some.inj (q2.symm.trans g2)
    subst e2
    exact ⟨v1, a1, g1, g2, q3, by rw [h6]; exact g3⟩
  · rw [h6]; exact hg
  · rw [h5, h6]
    refine ⟨_, hcom, h3.1, ?_⟩
    intro he
    have := h3.2.2 he
    cases this

/-- C40, the intended property, for an honest group: once everybody's deals, responses and
commitments have been delivered, no complaint about any dealer is accepted, whoever signs it. Hash
without collisions. -/
def C40_statement : Prop :=
  ∀ (F G : Type) (_ : Field F) (_ : AddCommGroup G) (_ : Module F G) (_ : DecidableEq G)
    (E : Env F G) (_ : E.suite.Lawful) (_ : E.prims.Lawful) (_ : Function.Injective E.suite.hash)
    (_ : ∀ d, E.codec.dec (E.codec.enc d) = some d) (_ : PrimsOkR E)
    (N : RNet F G) (_ : N.Honest E) (z : F) (ord : MapOrder) (i : Nat) (_ : i < N.n)
    (s : List RMsg) (_ : RSchedule N.n i s) (_ : RComplete N.n i s)
    (cc : ComplaintCommits F G) (k : F) (rc : ReconstructCommits F),
    ((qRun E (N.D i) (s.map (RMsg.call E N z ord i))).processComplaintCommits E ord cc k).2 ≠ .ok rc

/-- C40, the intended property for the key: messages that arrive at a participant after an honest
run has completed do not change its key. -/
def C40_key_statement : Prop :=
  ∀ (F G : Type) (_ : Field F) (_ : AddCommGroup G) (_ : Module F G) (_ : DecidableEq G)
    (E : Env F G) (_ : E.suite.Lawful) (_ : E.prims.Lawful) (_ : Function.Injective E.suite.hash)
    (_ : ∀ d, E.codec.dec (E.codec.enc d) = some d) (_ : PrimsOkR E)
    (N : RNet F G) (_ : N.Honest E) (z : F) (ord : MapOrder) (i : Nat) (_ : i < N.n)
    (s : List RMsg) (_ : RSchedule N.n i s) (_ : RComplete N.n i s)
    (later : List (QCall F G)) (k : DkgR.DistKeyShare F G),
    (qRun E (N.D i) (s.map (RMsg.call E N z ord i) ++ later)).finished ord = true →
    (qRun E (N.D i) (s.map (RMsg.call E N z ord i) ++ later)).distKeyShare ord = .ok k →
    k.commits = (rSumPoly N).map (fun c => c • E.suite.base)

end

namespace DkgRExample

open Kyber.Toy

section

variable [SMul F G]

/-- `netR` is an honest group, also with the hash without collisions. -/
theorem netRI_honest : (netR envRI).Honest envRI where
  nodup := by decide +kernel
  x := by unfold Usable; decide +kernel
  k i j := by
    unfold Usable netR
    simp only
    split <;> decide +kernel
  vk i j := by unfold Usable netR; simp only; decide +kernel
  ck i := by unfold Usable netR; simp only; decide +kernel
  start i hi := by
    have : i = 0 ∨ i = 1 ∨ i = 2 := by
      have : i < 3 := hi
      omega
    rcases this with rfl | rfl | rfl <;> rfl

theorem primsOkRI : PrimsOkR envRI := ⟨fun _ _ => rfl, fun _ _ _ _ => rfl⟩

/-- Participant 1 at the end of the honest run. -/
def fin1 : Dkg (ZMod 11) (ZMod 11) :=
  qRun envRI ((netR envRI).D 1) (sched.map (RMsg.call envRI (netR envRI) 1 MapOrder.id 1))

/-- A complaint by participant 2, whose key is 2, about dealer 0, with an invented deal: share 9 at
index 2, blinding share 0, commitments `[7, 0]` to the constant 9 (base 2). The polynomial of dealer 0 is `7 + 5 X`,
the true share is 0. -/
def forgedCc : ComplaintCommits (ZMod 11) (ZMod 11) :=
  let cc : ComplaintCommits (ZMod 11) (ZMod 11) :=
    ⟨2, 0, ⟨((netR envRI).D 0).dealer.sessionId, ⟨2, 9⟩, ⟨2, 0⟩, 2, [7, 0]⟩, []⟩
  { cc with signature := Schnorr.sign envRI.suite 4 2 (cc.hash envRI) }

/-- The share that participant 1 reveals. -/
def revealed : ReconstructCommits (ZMod 11) :=
  let rc : ReconstructCommits (ZMod 11) := ⟨((netR envRI).D 0).dealer.sessionId, 1, 0, ⟨1, 7 + 5 * 2⟩, []⟩
  { rc with signature := Schnorr.sign envRI.suite 4 5 (rc.hash envRI.suite) }

/-- A share invented by participant 2. -/
def forgedRc : ReconstructCommits (ZMod 11) :=
  let rc : ReconstructCommits (ZMod 11) := ⟨((netR envRI).D 0).dealer.sessionId, 2, 0, ⟨2, 9⟩, []⟩
  { rc with signature := Schnorr.sign envRI.suite 4 2 (rc.hash envRI.suite) }

theorem forged_accepted : (fin1.processComplaintCommits envRI MapOrder.id forgedCc 4).2 = .ok revealed := by
  decide +kernel

/-- After the complaint: participant 1 is waiting for shares of dealer 0. -/
def fin2 : Dkg (ZMod 11) (ZMod 11) := (fin1.processComplaintCommits envRI MapOrder.id forgedCc 4).1

theorem fin2_facts : fin2.t = 2 ∧ fin2.reconstructed.get 0 = none ∧ fin2.commitments.get 0 = none ∧
    fin2.participants[2]? = some 4 ∧
    Schnorr.verify envRI.suite 4 (forgedRc.hash envRI.suite) forgedRc.signature = .ok () ∧
    (fin2.pendingReconstruct.get 0).getD [] = [revealed] ∧
    fin2.commitments.get 1 = some ⟨some 2, [1 * 2, 6 * 2]⟩ ∧
    fin2.commitments.get 2 = some ⟨some 2, [4 * 2, 9 * 2]⟩ := by
  decide +kernel


/-- `C40_commits_iff` and `C40_commitments_change`: the commitments of dealer 0 go away with the complaint. -/
example := C40_commits_iff envRI 5 [6, 10, 4] 2 1 [6] [3, 7] ((netR envRI).D 1) rfl
  (sched.map (RMsg.call envRI (netR envRI) 1 MapOrder.id 1)) MapOrder.id ((netR envRI).commitMsg envRI 0) 4

example := C40_commitments_change envRI fin1 (by decide +kernel) (.complaint MapOrder.id forgedCc 4) 0
  (by decide +kernel)

theorem fin2_qual : ∀ j, j ∈ Finset.range 3 ↔ QualifiedR fin2 j := by
  intro j
  have hn : fin2.verifiers.keys.Nodup := by decide +kernel
  rw [← mem_qualSet hn]
  have : qualSet fin2 = Finset.range 3 := by decide +kernel
  rw [this]

end

end DkgRExample

section

variable [SMul F G]

open DkgRExample Kyber.Toy in
/-- C40 does not hold: in an honest group, participant 2 of 3 complains about dealer 0 with a deal it
made up; participant 1 accepts, drops the valid commitments of dealer 0 and reveals its share. -/
theorem C40_violated_forged_complaint : ¬ C40_statement := by
  intro h
  exact h (ZMod 11) (ZMod 11) _ _ _ _ envRI envRI_lawful prims_lawful (fun _ _ h => h) codecR_lawful
    primsOkRI (netR envRI) netRI_honest 1 MapOrder.id 1 (by decide) sched sched_ok.1 sched_ok.2
    forgedCc 4 revealed forged_accepted

set_option maxRecDepth 100000 in
open DkgRExample Kyber.Toy in
/-- C40 does not hold for the key: after the forged complaint one forged share is enough for
participant 1 to finish with a public key that is not the one of the others. The reconstructed
polynomial goes through the honest share 6 at 2 and the forged share 9 at 3: `0 + 3 X` instead of
`7 + 5 X`. -/
theorem C40_violated_key : ¬ C40_key_statement := by
  intro h
  obtain ⟨f1, f2, f3, f4, f5, f6, f7, f8⟩ := fin2_facts
  obtain ⟨r1, r2, r3, r4⟩ := C39_reconstruct 11 envRI MapOrder.id fin2 forgedRc [0, 3]
    (by rw [f1]; rfl) (by rw [f1]; decide) f2 f3 4 f4 f5 [revealed] f6 (by decide +kernel)
    (by
      intro r hr
      have : r = revealed ∨ r = forgedRc := by simpa using hr
      rcases this with rfl | rfl <;> decide +kernel) (by rw [f1]; decide +kernel)
  set later : List (QCall (ZMod 11) (ZMod 11)) :=
    [.complaint MapOrder.id forgedCc 4, .reconstruct MapOrder.id forgedRc] with hl
  have hrun : qRun envRI ((netR envRI).D 1)
      (sched.map (RMsg.call envRI (netR envRI) 1 MapOrder.id 1) ++ later) =
      (fin2.processReconstructCommits envRI MapOrder.id forgedRc).1 := by
    unfold qRun
    rw [List.foldl_append]
    rfl
  have hver : (fin2.processReconstructCommits envRI MapOrder.id forgedRc).1.verifiers =
      fin2.verifiers := by
    rcases processReconstructCommits_cases envRI MapOrder.id fin2 forgedRc with
      (h1 | ⟨arr, h1, -⟩) | ⟨pub, arr, pri, h1, h2, h3, h4, h5, h6, h7, h8, h9⟩
    · rw [h1]
    · rw [h1]
    · rw [h9]
  have hQ : ∀ j, j ∈ Finset.range 3 ↔ QualifiedR (qRun envRI ((netR envRI).D 1)
      (sched.map (RMsg.call envRI (netR envRI) 1 MapOrder.id 1) ++ later)) j := by
    intro j
    rw [fin2_qual j, hrun]
    unfold QualifiedR
    rw [hver]
  have hcom : ∀ i ∈ Finset.range 3, (([[0, 3], [1, 6], [4, 9]] : List (List (ZMod 11))).getD i []).length = 2 ∧
      ∃ p, (qRun envRI ((netR envRI).D 1)
        (sched.map (RMsg.call envRI (netR envRI) 1 MapOrder.id 1) ++ later)).commitments.get i = some p ∧
        p.commits = (([[0, 3], [1, 6], [4, 9]] : List (List (ZMod 11))).getD i []).map (· • envRI.suite.base) := by
    intro i hi
    rw [hrun]
    have hi' : i = 0 ∨ i = 1 ∨ i = 2 := by have := Finset.mem_range.1 hi; omega
    rcases hi' with rfl | rfl | rfl
    · exact ⟨rfl, _, r2, rfl⟩
    · exact ⟨rfl, _, (r4 1 (by decide)).trans f7, rfl⟩
    · exact ⟨rfl, _, (r4 2 (by decide)).trans f8, rfl⟩
  have hstart := netRI_honest.start 1 (by decide)
  obtain ⟨k, hk, -, -, hk0⟩ := C39_key_is_sum envRI (Lin.of_module _) _ _ _ _ _ _ ((netR envRI).D 1) hstart
    (sched.map (RMsg.call envRI (netR envRI) 1 MapOrder.id 1) ++ later) MapOrder.id (Finset.range 3) hQ
    (by decide) (fun i => ([[0, 3], [1, 6], [4, 9]] : List (List (ZMod 11))).getD i []) hcom
  have hfin : (qRun envRI ((netR envRI).D 1)
      (sched.map (RMsg.call envRI (netR envRI) 1 MapOrder.id 1) ++ later)).finished MapOrder.id = true := by
    rw [C39_finished_iff envRI _ _ _ _ _ _ ((netR envRI).D 1) hstart _ MapOrder.id (Finset.range 3) hQ]
    exact ⟨by decide, fun i hi => by obtain ⟨-, p, hp, -⟩ := hcom i hi; exact ⟨p, hp⟩⟩
  have := h (ZMod 11) (ZMod 11) _ _ _ _ envRI envRI_lawful prims_lawful (fun _ _ h => h) codecR_lawful
    primsOkRI (netR envRI) netRI_honest 1 MapOrder.id 1 (by decide) sched sched_ok.1 sched_ok.2
    later k hfin hk
  rw [this] at hk0
  revert hk0
  decide +kernel

end

namespace DkgRExample

open Kyber.Toy

section

variable [SMul F G]

/-- The conditions of `C40_complaint_iff` and `C40_complaint_effect` are met by the forged
complaint. -/
example : newDistKeyGenerator envRI 5 [6, 10, 4] 2 1 [6] [3, 7] = .ok ((netR envRI).D 1) ∧
    (fin1.processComplaintCommits envRI MapOrder.id forgedCc 4).2 = .ok revealed ∧
    fin2.commitments.get 0 = none := ⟨rfl, forged_accepted, fin2_facts.2.2.1⟩

/-- Commitments of dealer 2 to `1 + X` instead of `4 + 9 X`: participant 1 refuses (value 3 at 2, not
0), participant 0 accepts (value 2 at 1 and 13). -/
def badCommits : SecretCommits (ZMod 11) :=
  let sc : SecretCommits (ZMod 11) := ⟨2, [1 * 2, 1 * 2], ((netR envRI).D 2).dealer.sessionId, []⟩
  { sc with signature := Schnorr.sign envRI.suite 4 2 (sc.hash envRI.suite) }

/-- Participant 0 with all deals and responses. -/
def sched0 : List RMsg := [.deals, .deal 1, .deal 2, .resp 0 1, .resp 0 2, .resp 1 2, .resp 2 1]

@[inherit_doc sched0] def d0 : Dkg (ZMod 11) (ZMod 11) :=
  qRun envRI ((netR envRI).D 0) (sched0.map (RMsg.call envRI (netR envRI) 1 MapOrder.id 0) ++
    [.commits MapOrder.id badCommits 4])

/-- A genuine complaint, as in `C40_genuine_complaint`: participant 1 complains, participant 0, who
had accepted these commitments, reveals its share. -/
example : d0.commitments.get 2 = some ⟨some 2, badCommits.commitments⟩ ∧
    (match fin1.processSecretCommits envRI MapOrder.id badCommits 4 with
     | (_, .ok (some cc)) =>
        decide (cc.index = 1 ∧ cc.dealerIndex = 2 ∧ cc.deal.secShare = ⟨1, 0⟩) &&
        (match d0.processComplaintCommits envRI MapOrder.id cc 4 with
         | (_, .ok rc) => decide (rc.share = ⟨0, 2⟩ ∧ rc.dealerIndex = 2)
         | _ => false)
     | _ => false) = true := by
  decide +kernel

end

end DkgRExample

end Kyber.Props
