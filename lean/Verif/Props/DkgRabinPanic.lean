/-
Property C85 (no message makes a participant panic) of the Rabin DKG
(`src/share/dkg/rabin/dkg.rs`).
-/
import Verif.Props.DkgRabinBind

set_option linter.unusedSectionVars false

namespace Kyber.DkgR

open Kyber.Poly Kyber.Spec Kyber.VssR
open Kyber.VssP (validT)

variable {F G : Type} [Field F] [AddCommGroup G] [SMul F G] [DecidableEq G]

theorem schnorr_ne_panic (S : Suite F G) (P : G) (m s : Bytes) : Schnorr.verify S P m s ≠ .panic :=
  Props.C12_never_panics S (S.encG P) m s

theorem verifyResponse_ne_panic (S : Suite F G) (a : Aggregator F G) (r : VssP.Response) :
    (a.verifyResponse S r).2 ≠ .panic := by
  unfold Aggregator.verifyResponse
  split
  · simp
  split
  · simp
  split
  · rcases addResponse_cases a r with ⟨e, h⟩ | ⟨-, -, h⟩ <;> rw [h] <;> simp
  · simp
  · rename_i h; exact absurd h (schnorr_ne_panic S _ _ _)

theorem checkDeal_panic {E : Env F G} {a : Aggregator F G} {d : VssR.Deal F G} :
    a.checkDeal E d = .panic ↔ validT d.t a.verifiers = true ∧ a.sid = d.sessionId ∧
      d.secShare.i = d.rndShare.i ∧ d.secShare.i < a.verifiers.length ∧ d.commitments = [] := by
  unfold Aggregator.checkDeal
  by_cases h1 : validT d.t a.verifiers = false
  · rw [if_pos h1, h1]; simp
  rw [if_neg h1]
  by_cases h3 : a.sid ≠ d.sessionId
  · rw [if_pos h3]; simp [h3]
  rw [if_neg h3]
  by_cases h2 : d.secShare.i ≠ d.rndShare.i
  · rw [if_pos h2]; simp [h2]
  rw [if_neg h2]
  by_cases h4 : a.verifiers.length ≤ d.secShare.i
  · rw [if_pos h4]
    constructor
    · intro h; cases h
    · rintro ⟨-, -, -, h, -⟩; omega
  rw [if_neg h4]
  push Not at h2 h3 h4
  unfold PubPoly.eval
  by_cases h5 : d.commitments = []
  · simp only [h5, List.length_nil, if_true]
    simp only [Bool.not_eq_false] at h1
    exact ⟨fun _ => ⟨h1, h3, h2, h4, trivial⟩, fun _ => rfl⟩
  · rw [if_neg (by simpa using h5)]
    simp only [Res.mapErr_ok, Res.bind_ok]
    constructor
    · intro h; split at h <;> cases h
    · rintro ⟨-, -, -, -, h⟩; exact absurd h h5

theorem verifyJustification_panic {E : Env F G} {a : Aggregator F G} {j : VssR.Justification F G} :
    (a.verifyJustification E j).2 = .panic ↔ j.index < a.verifiers.length ∧
      (∃ r, a.responses.get j.index = some r ∧ r.status = false) ∧
      (a.remember j.deal).checkDeal E j.deal = .panic := by
  unfold Aggregator.verifyJustification
  have hlt : (VssP.findPub a.verifiers j.index).isNone = true ↔ ¬ j.index < a.verifiers.length := by
    unfold VssP.findPub; rw [Option.isNone_iff_eq_none, List.getElem?_eq_none_iff, not_lt]
  by_cases h1 : (VssP.findPub a.verifiers j.index).isNone = true
  · rw [if_pos h1]
    rw [hlt] at h1
    simp [h1]
  rw [if_neg h1]
  rw [hlt, not_not] at h1
  cases hg : a.responses.get j.index with
  | none => simp
  | some r =>
    simp only
    by_cases h2 : r.status = true
    · rw [if_pos h2]; simp [h2]
    rw [if_neg h2]
    rw [Bool.not_eq_true] at h2
    have : (a.verifyDeal E j.deal false).2 = (a.remember j.deal).checkDeal E j.deal := by
      unfold Aggregator.verifyDeal; rw [Bool.and_false]; rfl
    rw [this]
    cases hc : (a.remember j.deal).checkDeal E j.deal <;> simp [h1, h2]

theorem decryptDeal_panic {E : Env F G} {v : Verifier F G} {e : VssP.EncryptedDeal G}
    (h : v.decryptDeal E e = .panic) : e.nonce.length ≠ Dh.nonceSize ∧
      Schnorr.verify E.suite v.dealer (E.suite.encG e.dhkey) e.signature = .ok () := by
  have hs : Schnorr.verify E.suite v.dealer (E.suite.encG e.dhkey) e.signature = .ok () := by
    unfold Verifier.decryptDeal at h
    cases hv : Schnorr.verify E.suite v.dealer (E.suite.encG e.dhkey) e.signature with
    | err x => rw [hv] at h; cases h
    | panic => exact absurd hv (schnorr_ne_panic _ _ _ _)
    | ok u => rfl
  refine ⟨fun hn => ?_, hs⟩
  unfold Verifier.decryptDeal at h
  simp only [hn, ne_eq, not_true_eq_false, if_false] at h
  rw [hs] at h
  simp only [Res.mapErr_ok, Res.bind_ok] at h
  unfold Dh.AEAD.new Dh.hkdf at h
  generalize E.prims.hkdf _ _ _ = o at h
  cases o with
  | none => cases h
  | some key =>
    simp only [Res.ofOption_some, Res.bind_ok] at h
    by_cases hk : key.length ≠ 32
    · rw [if_pos hk] at h; cases h
    rw [if_neg hk] at h
    simp only [Res.mapErr_ok, Res.bind_ok] at h
    unfold Dh.AEAD.open_ Dh.aesDecrypt at h
    rw [if_neg hk] at h
    generalize E.prims.gcmOpen _ _ _ _ = o at h
    cases o with
    | none => cases h
    | some m =>
      simp only [Res.ofOption_some, Res.bind_ok, Dh.copyOut, Res.mapErr_ok] at h
      generalize E.codec.dec _ = o at h
      cases o <;> cases h

theorem decryptDeal_signed {E : Env F G} {v : Verifier F G} {e : VssP.EncryptedDeal G} {d : VssR.Deal F G}
    (h : v.decryptDeal E e = .ok d) :
    Schnorr.verify E.suite v.dealer (E.suite.encG e.dhkey) e.signature = .ok () := by
  unfold Verifier.decryptDeal at h
  cases hv : Schnorr.verify E.suite v.dealer (E.suite.encG e.dhkey) e.signature with
  | err x => rw [hv] at h; cases h
  | panic => exact absurd hv (schnorr_ne_panic _ _ _ _)
  | ok u => rfl

theorem processDeal_panic {E : Env F G} {v : Verifier F G} {d : VssR.Deal F G} {k : F}
    (h : (v.processDeal E d k).2 = .panic) : d.commitments = [] := by
  unfold Verifier.processDeal at h
  simp only at h
  have hadd : ∀ (a : Aggregator F G) (r : VssP.Response),
      ((a.addResponse r).2 >>= fun _ => (.ok r : Res VssP.VssError VssP.Response)) ≠ .panic := by
    intro a r
    rcases addResponse_cases a r with ⟨e, h⟩ | ⟨-, -, h⟩ <;> rw [h] <;> simp
  split at h
  · exact absurd h (hadd _ _)
  · cases h
  · exact absurd h (hadd _ _)
  · rename_i hv
    unfold Aggregator.verifyDeal at hv
    split at hv
    · cases hv
    · exact (checkDeal_panic.1 hv).2.2.2.2

/-- The dealer can answer every complaint. -/
def CanAnswer (dl : Dealer F G) : Prop :=
  dl.aggregator.verifiers.length = dl.deals.length ∧ ∀ x ∈ dl.deals, x.commitments ≠ []

theorem canAnswer {E : Env F G} {x : F} {pubs : List G} {t : Nat} {secret : F}
    {fD gD : List F} {d0 : Dkg F G} (h0 : newDistKeyGenerator E x pubs t secret fD gD = .ok d0)
    (cs : List (QCall F G)) : CanAnswer (qRun E d0 cs).dealer := by
  have hev := (qRun_evolves E d0 cs).dealer
  obtain ⟨-, h2, -⟩ := newDistKeyGenerator_ok h0
  obtain ⟨f, g, hfl, hgl, -, hf, -, hv, g1, -, -, g4, -, g6, g7, -, g9, g10⟩ := newDealer_ok h2
  simp only [validT, Bool.and_eq_true, decide_eq_true_eq] at hv
  unfold CanAnswer
  rw [hev.agg.verifiers, hev.deals, g10, g9]
  refine ⟨by simp [newAggregator], ?_⟩
  intro y hy
  rw [List.mem_map] at hy
  obtain ⟨i, -, rfl⟩ := hy
  simp only
  intro hnil
  have := congrArg List.length hnil
  simp only [commitsOf, List.length_zipWith, List.length_map, List.length_nil, hfl, hgl] at this
  omega

theorem dealer_ne_panic (E : Env F G) (dl : Dealer F G) (h : CanAnswer dl)
    (r : VssP.Response) (k : F) : (dl.processResponse E r k).2 ≠ .panic ∧
    ∀ j, (dl.processResponse E r k).2 = .ok (some j) → j.deal.commitments ≠ [] := by
  unfold Dealer.processResponse
  simp only
  split
  · simp
  · rename_i hp; exact absurd hp (verifyResponse_ne_panic _ _ _)
  · rename_i hok
    have hlt : r.index < dl.aggregator.verifiers.length := by
      rcases verifyResponse_cases E.suite dl.aggregator r with ⟨e, h'⟩ | h' | ⟨pub, -, h2, -, -⟩
      · rw [h'] at hok; cases hok
      · rw [h'] at hok; cases hok
      · exact (List.getElem?_eq_some_iff.1 h2).1
    rw [h.1] at hlt
    split
    · simp
    · rw [List.getElem?_eq_getElem hlt]
      simp only [ne_eq, reduceCtorEq, not_false_eq_true, Res.ok.injEq, Option.some.injEq, true_and]
      rintro j rfl
      exact h.2 _ (List.getElem_mem hlt)

/-- Stored commitments are not empty. -/
theorem commitments_ne {E : Env F G} {x : F} {pubs : List G} {t : Nat} {secret : F}
    {fD gD : List F} {d0 : Dkg F G} (h0 : newDistKeyGenerator E x pubs t secret fD gD = .ok d0)
    (cs : List (QCall F G)) (j : Nat) (p : PubPoly G)
    (h : (qRun E d0 cs).commitments.get j = some p) : p.commits ≠ [] := by
  induction cs using List.reverseRecOn generalizing p with
  | nil =>
    obtain ⟨-, -, -, -, -, -, -, h8, -⟩ := newDistKeyGenerator_ok h0
    have h' : d0.commitments.get j = some p := h
    rw [h8] at h'; cases h'
  | append_singleton cs c ih =>
    have hrun : qRun E d0 (cs ++ [c]) = qStep E (qRun E d0 cs) c := by
      unfold qRun; rw [List.foldl_append]; rfl
    rw [hrun] at h
    have hnd : (qRun E d0 cs).verifiers.keys.Nodup := reach_nodup h0 cs
    have hev := qRun_evolves E d0 cs
    by_cases hch : (qStep E (qRun E d0 cs) c).commitments.get j = (qRun E d0 cs).commitments.get j
    · exact ih p (hch.symm.trans h)
    · rcases Props.C40_commitments_change E _ hnd c j hch with ⟨k, rfl, rfl⟩ |
        ⟨ord, sc, k, pub, rfl, rfl, -, -, -, -, -, h'⟩ | ⟨_, _, _, _, -, -, -, h'⟩ |
        ⟨ord, rc, pub, arr, pri, rfl, rfl, -, -, -, -, -, hrec, h'⟩
      · have hne := (show (qRun E d0 cs).dealer.secretCommits ≠ [] by rw [hev.dealer.secretCommits]; exact secretCommits_new h0)
        have h' : ((qRun E d0 cs).secretCommits E.suite k).1.commitments.get (qRun E d0 cs).index = some p := h
        unfold Dkg.secretCommits at h'
        split at h'
        · exact ih p h'
        · split at h'
          · exact ih p h'
          · rename_i cs' hcs'
            have h3 := (AMap.get_insert _ _ _ _).symm.trans h'
            rw [if_pos rfl] at h3
            cases h3
            unfold Dealer.commits at hcs'
            split at hcs'
            · cases hcs'
            · cases hcs'; exact hne
      · have hst : (qRun E d0 cs).processSecretCommits E ord sc k |>.1.commitments.get sc.index = some p := h
        rcases processSecretCommits_cases E ord (qRun E d0 cs) sc k with ⟨h1, -⟩ |
          ⟨pub, v, dl, h1, h2, h3, h4, h5, h6, h7, h8⟩
        · rw [h1] at hst; exact ih p hst
        · rw [h'] at h; cases h
          rw [check_iff] at h7
          exact h7.1
      · rw [h'] at h; cases h
      · rw [h'] at h; cases h
        have ht : 0 < (qRun E d0 cs).t := by
          rw [hev.t]
          obtain ⟨h1, h2, h3, h4, h5, h6, h7, -⟩ := newDistKeyGenerator_ok h0
          have := (Props.thresholdR h0).1
          omega
        by_cases hle : (qRun E d0 cs).t ≤ (idxSet (arr.map (fun r => some r.share))).card
        · obtain ⟨r, hr1, hr2, -⟩ := recoverPriPoly_spec ord _ _ hle ht
          rw [hr1] at hrec; cases hrec
          intro hnil
          have := congrArg List.length hnil
          simp [hr2] at this
          omega
        · exfalso
          unfold recoverPriPoly at hrec
          simp only at hrec
          rw [if_pos (by rw [xy_length]; split <;> omega)] at hrec
          cases hrec

theorem recoverPriPoly_ne_panic (ord : MapOrder) (shares : List (Option (Share F))) (t : Nat)
    (ht : 0 < t) : recoverPriPoly ord shares t ≠ .panic := by
  by_cases hle : t ≤ (idxSet shares).card
  · obtain ⟨r, hr1, -, -⟩ := recoverPriPoly_spec ord _ _ hle ht
    rw [hr1]; simp
  · unfold recoverPriPoly
    simp only
    rw [if_pos (by rw [xy_length]; split <;> omega)]
    simp

end Kyber.DkgR

namespace Kyber.Props

open Kyber Kyber.Poly Kyber.Spec Kyber.VssR Kyber.DkgR
open Kyber.VssP (validT)

variable {F G : Type} [Field F] [AddCommGroup G] [SMul F G] [DecidableEq G]

/-- C85, the intended property: no message, whatever its origin, makes a participant panic. -/
def C85_statement : Prop :=
  ∀ (F G : Type) (_ : Field F) (_ : AddCommGroup G) (_ : Module F G) (_ : DecidableEq G)
    (E : Env F G) (_ : E.suite.Lawful) (_ : E.prims.Lawful) (_ : Function.Injective E.suite.hash)
    (_ : ∀ d, E.codec.dec (E.codec.enc d) = some d)
    (x : F) (pubs : List G) (_ : pubs.Nodup) (t : Nat) (secret : F) (fD gD : List F) (d0 : Dkg F G)
    (_ : newDistKeyGenerator E x pubs t secret fD gD = .ok d0) (cs : List (QCall F G)) (ord : MapOrder),
    (∀ dd k, ((qRun E d0 cs).processDeal E dd k).2 ≠ .panic) ∧
    (∀ r k, ((qRun E d0 cs).processResponse E r k).2 ≠ .panic) ∧
    (∀ j, ((qRun E d0 cs).processJustification E j).2 ≠ .panic) ∧
    (∀ sc k, ((qRun E d0 cs).processSecretCommits E ord sc k).2 ≠ .panic) ∧
    (∀ cc k, ((qRun E d0 cs).processComplaintCommits E ord cc k).2 ≠ .panic) ∧
    (∀ rc, ((qRun E d0 cs).processReconstructCommits E ord rc).2 ≠ .panic)

section
variable (E : Env F G) (x : F) (pubs : List G) (t : Nat) (secret : F)
    (fD gD : List F) (d0 : Dkg F G)
    (h0 : newDistKeyGenerator E x pubs t secret fD gD = .ok d0) (cs : List (QCall F G))
include h0

/-- C85 for responses: in every reachable state no response causes a panic. -/
theorem C85_response (r : DkgR.Response) (k : F) : ((qRun E d0 cs).processResponse E r k).2 ≠ .panic := by
  have hca := canAnswer h0 cs
  generalize qRun E d0 cs = d at *
  unfold Dkg.processResponse
  split
  · simp
  rename_i v hv
  have hvr : (v.processResponse E.suite r.response).2 ≠ .panic := by
    unfold Verifier.processResponse
    split
    · exact verifyResponse_ne_panic _ _ _
    · simp
  split
  · simp
  · rename_i h; rw [h] at hvr; exact absurd rfl hvr
  · rename_i w hw
    simp only
    split
    · simp
    · have hp := dealer_ne_panic E d.dealer hca r.response k
      split
      · simp
      · rename_i dl h; rw [h] at hp; exact absurd rfl hp.1
      · simp
      · rename_i dl j h
        have hne := hp.2 j (by rw [h])
        split
        · simp
        · rename_i hu
          exfalso
          unfold Verifier.processJustification at hu
          split at hu
          · have h3 := (verifyJustification_panic.1 hu).2.2
            exact absurd (checkDeal_panic.1 h3).2.2.2.2 hne
          · cases hu
        · simp

/-- C85 for revealed shares: in every reachable state no message that reveals a share causes a
panic. -/
theorem C85_reconstruct (ord : MapOrder) (rc : ReconstructCommits F) :
    ((qRun E d0 cs).processReconstructCommits E ord rc).2 ≠ .panic := by
  have ht : 0 < (qRun E d0 cs).t := by
    rw [(qRun_evolves E d0 cs).t]
    obtain ⟨h1, h2, h3, h4, h5, h6, -⟩ := newDistKeyGenerator_ok h0
    have := (thresholdR h0).1
    omega
  generalize qRun E d0 cs = d at *
  have hscan : ∀ l : List (ReconstructCommits F), Dkg.scanPending rc l ≠ some .panic := by
    intro l
    induction l with
    | nil => simp [Dkg.scanPending]
    | cons a l ih =>
      unfold Dkg.scanPending
      split
      · simp
      split
      · simp
      · exact ih
  unfold Dkg.processReconstructCommits
  split
  · simp
  split
  · simp
  split
  · simp
  split
  · simp
  · rename_i h; exact absurd h (schnorr_ne_panic _ _ _ _)
  simp only
  split
  · rename_i r hr
    simp only
    rintro rfl
    exact hscan _ hr
  split
  · split
    · simp
    · rename_i h; exact absurd h (recoverPriPoly_ne_panic _ _ _ ht)
    · simp
  · simp

/-- C85 for justifications: one causes a panic exactly if a deal of the dealer is held, there is a
complaint of the participant it names, and the deal in it has no commitments but passes the other
checks. No signature is looked at. -/
theorem C85_justification (j : DkgR.Justification F G) :
    ((qRun E d0 cs).processJustification E j).2 = .panic ↔
      ∃ v a, (qRun E d0 cs).verifiers.get j.index = some v ∧ v.aggregator = some a ∧
        j.justification.index < pubs.length ∧
        (∃ r, a.responses.get j.justification.index = some r ∧ r.status = false) ∧
        j.justification.deal.commitments = [] ∧ validT j.justification.deal.t pubs = true ∧
        a.sid = j.justification.deal.sessionId ∧
        j.justification.deal.secShare.i = j.justification.deal.rndShare.i ∧
        j.justification.deal.secShare.i < pubs.length := by
  have hev := qRun_evolves E d0 cs
  have hS : Setup E (qRun E d0 cs) := (setup_new h0).step hev
  have hpart : (qRun E d0 cs).participants = pubs := by
    obtain ⟨-, -, -, -, h5, -⟩ := newDistKeyGenerator_ok h0
    exact hev.participants.trans h5
  generalize qRun E d0 cs = d at *
  unfold Dkg.processJustification
  cases hv : d.verifiers.get j.index with
  | none => simp
  | some v =>
    obtain ⟨a, dl, g1, g2, -, -, g5⟩ := hS.holds hv
    rw [hpart] at g5
    simp only [Option.some.injEq, exists_and_left, exists_eq_left', g1]
    have hm : ∀ r : Res VssP.VssError Unit, r.mapErr DkgError.vss = .panic ↔ r = .panic := by
      intro r; cases r <;> simp [Res.mapErr]
    rw [hm]
    have : (v.processJustification E j.justification).2 = (a.verifyJustification E j.justification).2 := by
      unfold Verifier.processJustification; rw [g1]
    have hrem : a.remember j.justification.deal = a := by unfold Aggregator.remember; rw [g2]
    rw [this, verifyJustification_panic, hrem, checkDeal_panic, g5.verifiers]
    tauto

/-- C85 for secret commitments: they cause a panic exactly if they are empty and a qualified dealer has
signed them for this session. -/
theorem C85_commits (ord : MapOrder) (sc : SecretCommits G) (k : F) :
    ((qRun E d0 cs).processSecretCommits E ord sc k).2 = .panic ↔
      sc.commitments = [] ∧ ∃ pub v a, pubs[sc.index]? = some pub ∧
        (qRun E d0 cs).verifiers.get sc.index = some v ∧ v.aggregator = some a ∧
        a.dealCertified = true ∧ a.sid = sc.sessionId ∧
        Schnorr.verify E.suite pub (sc.hash E.suite) sc.signature = .ok () := by
  have hev := qRun_evolves E d0 cs
  have hS : Setup E (qRun E d0 cs) := (setup_new h0).step hev
  have hpart : (qRun E d0 cs).participants = pubs := by
    obtain ⟨-, -, -, -, h5, -⟩ := newDistKeyGenerator_ok h0
    exact hev.participants.trans h5
  have hnd : (qRun E d0 cs).verifiers.keys.Nodup := DkgR.reach_nodup h0 cs
  generalize qRun E d0 cs = d at *
  have hchk : ∀ (s : Share F), (⟨some E.suite.base, sc.commitments⟩ : PubPoly G).check E.suite.base s = .panic ↔
      sc.commitments = [] := by
    intro s
    unfold PubPoly.check
    rw [C06_pub_eval]
    by_cases h : sc.commitments = [] <;> simp [h]
  constructor
  · unfold Dkg.processSecretCommits
    split
    · simp
    rename_i pub hp
    split
    · simp
    rename_i hq
    split
    · simp
    rename_i v hv
    split
    · simp
    rename_i hs
    split
    · simp
    · rename_i h; exact absurd h (schnorr_ne_panic _ _ _ _)
    rename_i hsig
    split
    · simp
    rename_i dl hdl
    simp only
    split
    · simp
    · rename_i hc
      intro _
      obtain ⟨v', a, q1, q2, q3⟩ := (isInQual_iff hnd ord _).1 (by simpa using hq)
      rw [hv] at q1; cases q1
      refine ⟨(hchk _).1 hc, pub, v, a, by rw [← hpart]; exact hp, hv, q2, q3, ?_, hsig⟩
      push Not at hs
      unfold sessionIdV at hs
      rw [q2] at hs; exact hs
    · simp
    · simp
  · rintro ⟨hnil, pub, v, a, h1, h2, h3, h4, h5, h6⟩
    obtain ⟨a', dl, g1, g2, -, -, g5⟩ := hS.holds h2
    rw [h3] at g1; cases g1
    have hq : d.isInQual ord sc.index = true := (isInQual_iff hnd ord _).2 ⟨v, a, h2, h3, h4⟩
    have hsid : sessionIdV v = sc.sessionId := by unfold sessionIdV; rw [h3]; exact h5
    have hdl : v.deal = some dl := by rw [deal_of_certified h3 h4, g2]
    unfold Dkg.processSecretCommits
    simp only [hpart, h1, hq, h2, hsid, h6, hdl, (hchk dl.secShare).2 hnil]
    simp

/-- C85 for complaints: one causes a panic exactly if a qualified participant has signed it, a deal
of the dealer it names is held, and the deal in it has no commitments but passes the other checks. -/
theorem C85_complaint (ord : MapOrder) (cc : ComplaintCommits F G) (k : F) :
    ((qRun E d0 cs).processComplaintCommits E ord cc k).2 = .panic ↔
      cc.deal.commitments = [] ∧
      (∃ issuer, pubs[cc.index]? = some issuer ∧
        Schnorr.verify E.suite issuer (cc.hash E) cc.signature = .ok ()) ∧
      QualifiedR (qRun E d0 cs) cc.index ∧
      ∃ v a, (qRun E d0 cs).verifiers.get cc.dealerIndex = some v ∧ v.aggregator = some a ∧
        a.sid = cc.deal.sessionId ∧ validT cc.deal.t pubs = true ∧
        cc.deal.secShare.i = cc.deal.rndShare.i ∧ cc.deal.secShare.i < pubs.length := by
  have hev := qRun_evolves E d0 cs
  have hS : Setup E (qRun E d0 cs) := (setup_new h0).step hev
  have hpart : (qRun E d0 cs).participants = pubs := by
    obtain ⟨-, -, -, -, h5, -⟩ := newDistKeyGenerator_ok h0
    exact hev.participants.trans h5
  have hnd : (qRun E d0 cs).verifiers.keys.Nodup := DkgR.reach_nodup h0 cs
  have hne := fun j p => commitments_ne h0 cs j p
  generalize qRun E d0 cs = d at *
  have hver : ∀ (a : Aggregator F G) dl, a.deal = some dl → ∀ x : VssR.Deal F G,
      a.verifyDeal E x false = (a, a.checkDeal E x) := by
    intro a dl h x
    unfold Aggregator.verifyDeal Aggregator.remember
    rw [h, if_neg (by simp)]
  have hchk : ∀ (p : PubPoly G) (s : Share F), p.check E.suite.base s = .panic → p.commits = [] := by
    intro p s h
    unfold PubPoly.check at h
    rw [C06_pub_eval] at h
    by_contra hn
    simp [hn] at h
  constructor
  · unfold Dkg.processComplaintCommits
    split
    · simp
    rename_i issuer hp
    split
    · simp
    rename_i hq
    split
    · simp
    · rename_i h; exact absurd h (schnorr_ne_panic _ _ _ _)
    rename_i hsig
    split
    · simp
    rename_i v hv
    obtain ⟨a, dl, g1, g2, -, -, g5⟩ := hS.holds hv
    rw [hpart] at g5
    simp only [g1, hver a dl g2]
    split
    · simp
    · rename_i hc
      intro _
      rw [checkDeal_panic, g5.verifiers] at hc
      exact ⟨hc.2.2.2.2, ⟨issuer, by rw [← hpart]; exact hp, hsig⟩,
        (isInQual_iff hnd ord _).1 (by simpa using hq), v, a, hv, g1, hc.2.1, hc.1, hc.2.2.1, hc.2.2.2.1⟩
    split
    · simp
    rename_i p hpc
    split
    · simp
    · rename_i hc
      exact absurd (hchk _ _ hc) (hne _ _ hpc)
    · simp
    · split <;> simp
  · rintro ⟨hnil, ⟨issuer, h1, h2⟩, h3, v, a, h4, h5, h6, h7, h8, h9⟩
    obtain ⟨a', dl, g1, g2, -, -, g5⟩ := hS.holds h4
    rw [h5] at g1; cases g1
    rw [hpart] at g5
    have hq : d.isInQual ord cc.index = true := (isInQual_iff hnd ord _).2 h3
    have hc : a.checkDeal E cc.deal = .panic := by
      rw [checkDeal_panic, g5.verifiers]; exact ⟨h7, h6, h8, h9, hnil⟩
    unfold Dkg.processComplaintCommits
    simp only [hpart, h1, hq, h2, h4, h5, hver a dl g2, hc]
    simp

/-- C85 for deals: a deal that causes a panic is the first one of a dealer in the list, carries a
valid signature of the dealer, and has a nonce of the wrong length, or decrypts to a deal without
commitments. -/
theorem C85_deal_partial (dd : DkgR.Deal G) (k : F)
    (h : ((qRun E d0 cs).processDeal E dd k).2 = .panic) :
    ∃ P, pubs[dd.index]? = some P ∧ (qRun E d0 cs).verifiers.get dd.index = none ∧
      Schnorr.verify E.suite P (E.suite.encG dd.deal.dhkey) dd.deal.signature = .ok () ∧
      (dd.deal.nonce.length ≠ Dh.nonceSize ∨
        ∃ v dl, newVerifier E.suite x P pubs = .ok v ∧ v.decryptDeal E dd.deal = .ok dl ∧
          dl.commitments = []) := by
  have hev := qRun_evolves E d0 cs
  have hpart : (qRun E d0 cs).participants = pubs := by
    obtain ⟨-, -, -, -, h5, -⟩ := newDistKeyGenerator_ok h0
    exact hev.participants.trans h5
  have hlong : (qRun E d0 cs).long = x := by
    obtain ⟨-, -, h3, -⟩ := newDistKeyGenerator_ok h0
    exact hev.long.trans h3
  generalize qRun E d0 cs = d at *
  revert h
  unfold Dkg.processDeal
  rw [hpart, hlong]
  split
  · simp
  rename_i P hP
  split
  · simp
  rename_i hc
  have hn : d.verifiers.get dd.index = none := by simpa [AMap.contains] using hc
  split
  · simp
  · rename_i h
    unfold newVerifier at h
    simp only at h
    split at h <;> cases h
  rename_i v hv
  obtain ⟨f1, f2, f3, f4, f5, f6⟩ := newVerifier_fields hv
  split
  · simp
  · rename_i w hw
    intro _
    refine ⟨P, hP, hn, ?_⟩
    have hw' : (v.processEncryptedDeal E dd.deal k).2 = .panic := by rw [hw]
    unfold Verifier.processEncryptedDeal at hw'
    split at hw'
    · cases hw'
    · rename_i hd
      obtain ⟨h1, h2⟩ := decryptDeal_panic hd
      rw [f3] at h2
      exact ⟨h2, Or.inl h1⟩
    · rename_i dl hd
      split at hw'
      · cases hw'
      · have hs := decryptDeal_signed hd
        rw [f3] at hs
        exact ⟨hs, Or.inr ⟨v, dl, hv, hd, processDeal_panic hw'⟩⟩
  · simp

end

namespace DkgRExample

open Kyber.Toy

/-- An empty list of commitments, signed by dealer 2. -/
def emptyCommits : SecretCommits (ZMod 11) :=
  let sc : SecretCommits (ZMod 11) := ⟨2, [], ((netR envRI).D 2).dealer.sessionId, []⟩
  { sc with signature := Schnorr.sign envRI.suite 4 2 (sc.hash envRI.suite) }

theorem emptyCommits_panics :
    (fin1.processSecretCommits envRI MapOrder.id emptyCommits 4).2 = .panic := by decide +kernel

/-- Participant 1 with the deal of dealer 0 and a complaint of participant 2 about it. -/
def complained : List (QCall (ZMod 11) (ZMod 11)) :=
  let r : VssP.Response := ⟨((netR envRI).D 0).dealer.sessionId, 2, false, []⟩
  [.deal ((netR envRI).dealMsg envRI 0 1) 5,
   .response ⟨0, { r with signature := Schnorr.sign envRI.suite 5 2 (r.hash envRI.suite) }⟩ 1]

/-- A justification that nobody has signed. -/
def unsignedJust : DkgR.Justification (ZMod 11) (ZMod 11) :=
  ⟨0, [], 2, ⟨((netR envRI).D 0).dealer.sessionId, ⟨2, 0⟩, ⟨2, 0⟩, 2, []⟩, []⟩

theorem unsignedJust_panics :
    ((qRun envRI ((netR envRI).D 1) complained).processJustification envRI unsignedJust).2 = .panic := by
  decide +kernel

/-- A complaint of participant 2 about dealer 0 with a deal without commitments. -/
def emptyCc : ComplaintCommits (ZMod 11) (ZMod 11) :=
  let cc : ComplaintCommits (ZMod 11) (ZMod 11) :=
    ⟨2, 0, ⟨((netR envRI).D 0).dealer.sessionId, ⟨2, 9⟩, ⟨2, 0⟩, 2, []⟩, []⟩
  { cc with signature := Schnorr.sign envRI.suite 4 2 (cc.hash envRI) }

example : (fin1.processComplaintCommits envRI MapOrder.id emptyCc 4).2 = .panic := by decide +kernel

/-- The deal of participant 2 with the nonce cut off; the nonce is not signed. -/
def cutDeal : DkgR.Deal (ZMod 11) :=
  let dd := (netR envRI).dealMsg envRI 2 1
  { dd with deal := { dd.deal with nonce := [] } }

example : (((netR envRI).D 1).processDeal envRI cutDeal 4).2 = .panic := by decide +kernel

example := C85_deal_partial envRI 5 [6, 10, 4] 2 1 [6] [3, 7] ((netR envRI).D 1) rfl [] cutDeal 4 (by decide +kernel)

/-- `C85_response` and `C85_reconstruct`: a complaint and a forged share that are processed. -/
example : (((qRun envRI ((netR envRI).D 1) [.deal ((netR envRI).dealMsg envRI 0 1) 5]).processResponse
      envRI ((netR envRI).respMsg envRI 0 2) 4).2 = .ok none) ∧
    (fin2.processReconstructCommits envRI MapOrder.id { forgedRc with index := 7 }).2 =
      .err .reconstructCommitsInvalidVerifierIndex := by decide +kernel

end DkgRExample

open DkgRExample Kyber.Toy in
/-- C85 does not hold: a justification that nobody has signed, for a deal somebody complained about,
makes the participant panic. -/
theorem C85_violated_unsigned : ¬ C85_statement := by
  intro h
  exact (h (ZMod 11) (ZMod 11) _ _ _ _ envRI envRI_lawful prims_lawful (fun _ _ h => h)
    codecR_lawful _ _ netRI_honest.nodup _ _ _ _ ((netR envRI).D 1) (netRI_honest.start 1 (by decide))
    complained MapOrder.id).2.2.1 unsignedJust unsignedJust_panics

open DkgRExample Kyber.Toy in
/-- C85 does not hold: a qualified dealer that sends an empty list of commitments makes everybody
panic. -/
theorem C85_violated_commits : ¬ C85_statement := by
  intro h
  exact (h (ZMod 11) (ZMod 11) _ _ _ _ envRI envRI_lawful prims_lawful (fun _ _ h => h)
    codecR_lawful _ _ netRI_honest.nodup _ _ _ _ ((netR envRI).D 1) (netRI_honest.start 1 (by decide))
    (sched.map (RMsg.call envRI (netR envRI) 1 MapOrder.id 1)) MapOrder.id).2.2.2.1 emptyCommits 4
    emptyCommits_panics

end Kyber.Props
