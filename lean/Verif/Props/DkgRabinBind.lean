/-
Properties C83 and C84 of the Rabin DKG (`src/share/dkg/rabin/dkg.rs`): what the signatures of the
second phase cover, and how many approvals a qualified deal has.
-/
import Verif.Props.DkgRabinViol
import Verif.Spec.Apart

set_option linter.unusedSectionVars false

namespace Kyber.Props

open Kyber Kyber.Poly Kyber.Spec Kyber.VssR Kyber.DkgR

variable {F G : Type} [Field F] [AddCommGroup G] [DecidableEq G]

/-! ## C83 -/

section

variable [SMul F G]

theorem u32le_inj {a b : Nat} (ha : a < 2 ^ 32) (hb : b < 2 ^ 32) (h : u32le a = u32le b) : a = b := by
  unfold u32le at h
  simp only [List.cons.injEq, and_true] at h
  obtain ⟨p, q, r, s⟩ := h
  have p' := congrArg UInt8.toNat p
  have q' := congrArg UInt8.toNat q
  have r' := congrArg UInt8.toNat r
  have s' := congrArg UInt8.toNat s
  simp only [UInt8.toNat_ofNat'] at p' q' r' s'
  omega

theorem encG_inj {S : Suite F G} (hS : S.Lawful) {a b : G} (h : S.encG a = S.encG b) : a = b := by
  have := hS.decG_encG a
  rw [h, hS.decG_encG] at this
  exact (Option.some.inj this).symm

theorem encG_flatten_inj {S : Suite F G} (hS : S.Lawful) (hlen : 0 < S.pointLen) {l l' : List G}
    (h : (l.map S.encG).flatten = (l'.map S.encG).flatten) : l = l' := by
  induction l generalizing l' with
  | nil =>
    cases l' with
    | nil => rfl
    | cons b l' =>
      have := congrArg List.length h
      simp only [List.map_nil, List.flatten_nil, List.length_nil, List.map_cons, List.flatten_cons,
        List.length_append, hS.encG_length] at this
      omega
  | cons a l ih =>
    cases l' with
    | nil =>
      have := congrArg List.length h
      simp only [List.map_nil, List.flatten_nil, List.length_nil, List.map_cons, List.flatten_cons,
        List.length_append, hS.encG_length] at this
      omega
    | cons b l' =>
      simp only [List.map_cons, List.flatten_cons] at h
      obtain ⟨h5, h6⟩ := List.append_inj h (by rw [hS.encG_length, hS.encG_length])
      rw [encG_inj hS h5, ih h6]

/-- C83: what the signature of a complaint covers, if the hash does not collide: the issuer, the
dealer and the deal, with its session id. -/
theorem C83_complaint_signed (E : Env F G) (cc cc' : ComplaintCommits F G)
    (hash_inj : Apart E.suite (VssP.ascii "commitcomplaint" ++ u32le cc.index ++ u32le cc.dealerIndex ++ E.codec.enc cc.deal)
      (VssP.ascii "commitcomplaint" ++ u32le cc'.index ++ u32le cc'.dealerIndex ++ E.codec.enc cc'.deal))
    (hc : E.codec.dec (E.codec.enc cc.deal) = some cc.deal)
    (hc' : E.codec.dec (E.codec.enc cc'.deal) = some cc'.deal)
    (h1 : cc.index < 2 ^ 32) (h2 : cc'.index < 2 ^ 32) (h3 : cc.dealerIndex < 2 ^ 32)
    (h4 : cc'.dealerIndex < 2 ^ 32) (h : cc.hash E = cc'.hash E) :
    cc.index = cc'.index ∧ cc.dealerIndex = cc'.dealerIndex ∧ cc.deal = cc'.deal := by
  have h5 := hash_inj h
  rw [List.append_assoc, List.append_assoc, List.append_assoc, List.append_assoc] at h5
  have h6 := List.append_cancel_left h5
  obtain ⟨h7, h8⟩ := List.append_inj h6 (by rfl)
  obtain ⟨h9, h10⟩ := List.append_inj h8 (by rfl)
  refine ⟨u32le_inj h1 h2 h7, u32le_inj h3 h4 h9, ?_⟩
  rw [h10, hc'] at hc
  exact (Option.some.inj hc).symm

/-- C83: what the signature of secret commitments covers: the dealer and the commitments. -/
theorem C83_commits_signed (S : Suite F G) (hS : S.Lawful) (hlen : 0 < S.pointLen)
    (sc sc' : SecretCommits G)
    (hash_inj : Apart S (VssP.ascii "secretcommits" ++ u32le sc.index ++ (sc.commitments.map S.encG).flatten)
      (VssP.ascii "secretcommits" ++ u32le sc'.index ++ (sc'.commitments.map S.encG).flatten))
    (h1 : sc.index < 2 ^ 32) (h2 : sc'.index < 2 ^ 32) (h : sc.hash S = sc'.hash S) :
    sc.index = sc'.index ∧ sc.commitments = sc'.commitments := by
  have h5 := hash_inj h
  rw [List.append_assoc, List.append_assoc] at h5
  have h6 := List.append_cancel_left h5
  obtain ⟨h7, h8⟩ := List.append_inj h6 (by rfl)
  exact ⟨u32le_inj h1 h2 h7, encG_flatten_inj hS hlen h8⟩

/-- C83: what the signature of a revealed share covers: issuer, dealer and share. -/
theorem C83_reconstruct_signed (S : Suite F G) (hS : S.Lawful)
    (rc rc' : ReconstructCommits F)
    (hash_inj : Apart S (VssP.ascii "reconstructcommits" ++ u32le rc.index ++ u32le rc.dealerIndex ++ shareHash S rc.share)
      (VssP.ascii "reconstructcommits" ++ u32le rc'.index ++ u32le rc'.dealerIndex ++ shareHash S rc'.share))
    (share_inj : Apart S (S.encS rc.share.v ++ u32le rc.share.i)
      (S.encS rc'.share.v ++ u32le rc'.share.i))
    (h1 : rc.index < 2 ^ 32) (h2 : rc'.index < 2 ^ 32) (h3 : rc.dealerIndex < 2 ^ 32)
    (h4 : rc'.dealerIndex < 2 ^ 32) (h3' : rc.share.i < 2 ^ 32) (h4' : rc'.share.i < 2 ^ 32)
    (h : rc.hash S = rc'.hash S) :
    rc.index = rc'.index ∧ rc.dealerIndex = rc'.dealerIndex ∧ rc.share = rc'.share := by
  have h5 := hash_inj h
  rw [List.append_assoc, List.append_assoc, List.append_assoc, List.append_assoc] at h5
  have h6 := List.append_cancel_left h5
  obtain ⟨h7, h8⟩ := List.append_inj h6 (by rfl)
  obtain ⟨h9, h10⟩ := List.append_inj h8 (by rfl)
  refine ⟨u32le_inj h1 h2 h7, u32le_inj h3 h4 h9, ?_⟩
  have h11 := share_inj h10
  obtain ⟨h12, h13⟩ := List.append_inj h11 (by rw [hS.encS_length, hS.encS_length])
  have hv : rc.share.v = rc'.share.v := by
    have := hS.decS_encS rc.share.v
    rw [h12, hS.decS_encS] at this
    exact (Option.some.inj this).symm
  have hi := u32le_inj h3' h4' h13
  cases h : rc.share; cases h' : rc'.share
  rw [h, h'] at hv hi
  simp only at hv hi
  rw [hv, hi]

/-- C83, the intended property: a message signed in one session is not accepted in another. A
message of secret commitments that a participant accepts, carrying the session id of its session, is
refused in every session with another id, also if the session id in the message is replaced. -/
def C83_statement : Prop :=
  ∀ (F G : Type) (_ : Field F) (_ : AddCommGroup G) (_ : Module F G) (_ : DecidableEq G)
    (E : Env F G) (_ : E.suite.Lawful) (_ : E.prims.Lawful) (_ : Function.Injective E.suite.hash)
    (_ : ∀ d, E.codec.dec (E.codec.enc d) = some d)
    (x : F) (pubs : List G) (_ : pubs.Nodup) (t : Nat)
    (secret : F) (fD gD : List F) (d0 : Dkg F G)
    (_ : newDistKeyGenerator E x pubs t secret fD gD = .ok d0)
    (secret' : F) (fD' gD' : List F) (d0' : Dkg F G)
    (_ : newDistKeyGenerator E x pubs t secret' fD' gD' = .ok d0')
    (cs cs' : List (QCall F G)) (ord : MapOrder) (sc : SecretCommits G) (sid : Bytes) (k : F),
    ((qRun E d0 cs).processSecretCommits E ord sc k).2 = .ok none → sid ≠ sc.sessionId →
    ∀ r, ((qRun E d0' cs').processSecretCommits E ord { sc with sessionId := sid } k).2 ≠ .ok r

/-- C83: replay of secret commitments. In a session where dealer `sc.index` is qualified and its deal
is held, the old signed message is taken for a message of this session once its session id is
replaced: it is stored if it fits the share, and otherwise the participant signs a complaint about the
dealer. -/
theorem C83_replay_commits (E : Env F G) (x : F) (pubs : List G) (t : Nat) (secret : F)
    (fD gD : List F) (d0 : Dkg F G)
    (h0 : newDistKeyGenerator E x pubs t secret fD gD = .ok d0) (cs : List (QCall F G))
    (ord : MapOrder) (sc : SecretCommits G) (k : F) (pub : G)
    (hpub : pubs[sc.index]? = some pub)
    (hsig : Schnorr.verify E.suite pub (sc.hash E.suite) sc.signature = .ok ())
    (hne : sc.commitments ≠ []) (v : Verifier F G) (a : Aggregator F G) (dl : VssR.Deal F G)
    (hv : (qRun E d0 cs).verifiers.get sc.index = some v) (ha : v.aggregator = some a)
    (hc : a.dealCertified = true) (hd : a.deal = some dl) :
    let r := ((qRun E d0 cs).processSecretCommits E ord { sc with sessionId := a.sid } k).2
    (pointVal sc.commitments ((dl.secShare.i + 1 : Nat) : F) = dl.secShare.v • E.suite.base →
      r = .ok none) ∧
    (pointVal sc.commitments ((dl.secShare.i + 1 : Nat) : F) ≠ dl.secShare.v • E.suite.base →
      ∃ cc, r = .ok (some cc) ∧ cc.index = d0.index ∧ cc.dealerIndex = sc.index ∧ cc.deal = dl) := by
  intro r
  have hev := qRun_evolves E d0 cs
  have hpart : (qRun E d0 cs).participants = pubs := by
    obtain ⟨-, -, -, -, h5, -⟩ := newDistKeyGenerator_ok h0
    exact hev.participants.trans h5
  have hnd : (qRun E d0 cs).verifiers.keys.Nodup := DkgR.reach_nodup h0 cs
  have hq : (qRun E d0 cs).isInQual ord sc.index = true :=
    (isInQual_iff hnd ord _).2 ⟨v, a, hv, ha, hc⟩
  have hdeal : v.deal = some dl := by rw [deal_of_certified ha hc, hd]
  have hchk : ∀ b, (⟨some E.suite.base, sc.commitments⟩ : PubPoly G).check E.suite.base dl.secShare = .ok b ↔
      (b = true ↔ pointVal sc.commitments ((dl.secShare.i + 1 : Nat) : F) =
        dl.secShare.v • E.suite.base) := by
    intro b
    rw [check_iff]
    exact ⟨fun h => h.2, fun h => ⟨hne, h⟩⟩
  have hsig' : Schnorr.verify E.suite pub
      (({ sc with sessionId := a.sid } : SecretCommits G).hash E.suite) sc.signature = .ok () := hsig
  have hr : r = ((qRun E d0 cs).processSecretCommits E ord { sc with sessionId := a.sid } k).2 := rfl
  unfold Dkg.processSecretCommits at hr
  have hsid : sessionIdV v = a.sid := by unfold sessionIdV; rw [ha]
  simp only [hpart, hpub, hq, hv, hsid, hsig', hdeal] at hr
  constructor
  · intro he
    rw [(hchk true).2 ⟨fun _ => he, fun _ => rfl⟩] at hr
    simpa using hr
  · intro he
    rw [(hchk false).2 ⟨fun h => (by cases h), fun h => absurd h he⟩] at hr
    rw [hr]
    exact ⟨_, by simp; rfl, hev.index, rfl, rfl⟩

/-- C83: replay of a revealed share. The session id of a message that reveals a share is compared
with the messages already received about that dealer only: if there are none, any session id will
do. -/
theorem C83_replay_reconstruct (E : Env F G) (ord : MapOrder) (d : Dkg F G)
    (rc : ReconstructCommits F) (sid : Bytes) (hno : (d.pendingReconstruct.get rc.dealerIndex).getD [] = [])
    (h : (d.processReconstructCommits E ord rc).2 = .ok ()) :
    (d.processReconstructCommits E ord { rc with sessionId := sid }).2 = .ok () := by
  revert h
  have hh : ({ rc with sessionId := sid } : ReconstructCommits F).hash E.suite = rc.hash E.suite := rfl
  unfold Dkg.processReconstructCommits
  simp only [hh, hno, Dkg.scanPending, List.nil_append, List.length_cons, List.length_nil, List.map_cons,
    List.map_nil]
  split
  · exact fun h => h
  split
  · exact fun h => h
  split
  · exact fun h => h
  split
  · exact fun h => h
  · exact fun h => h
  split
  · split
    · exact fun h => h
    · exact fun h => h
    · exact fun h => h
  · exact fun h => h

end

namespace DkgRExample

open Kyber.Toy

section

variable [SMul F G]

/-- The same group in another session: dealer 0 has the secret 8 instead of 7. -/
def netR2 (E : VssR.Env (ZMod 11) (ZMod 11)) : RNet (ZMod 11) (ZMod 11) :=
  { netR E with
    sec := fun i => [8, 1, 4].getD i 0
    D := fun i => getDkgR (newDistKeyGenerator E ([3, 5, 2].getD i 1) [6, 10, 4] 2
      ([8, 1, 4].getD i 0) ([[5], [6], [9]].getD i []) ([[2, 8], [3, 7], [10, 1]].getD i [])) }

/-- Participant 1 with the deal of dealer 0 and the responses to it, in either session. -/
def half (N : RNet (ZMod 11) (ZMod 11)) : List (QCall (ZMod 11) (ZMod 11)) :=
  ([.deals, .deal 0, .resp 0 2] : List RMsg).map (RMsg.call envRI N 1 MapOrder.id 1)

/-- Participant 1 accepts the commitments of dealer 0 in the other session, and with the session id
replaced it complains about dealer 0 in this one. -/
theorem replay :
    ((qRun envRI ((netR2 envRI).D 1) (half (netR2 envRI))).processSecretCommits envRI MapOrder.id
      ((netR2 envRI).commitMsg envRI 0) 4).2 = .ok none ∧
    ((netR envRI).D 0).dealer.sessionId ≠ ((netR2 envRI).commitMsg envRI 0).sessionId ∧
    (match ((qRun envRI ((netR envRI).D 1) (half (netR envRI))).processSecretCommits envRI MapOrder.id
        { (netR2 envRI).commitMsg envRI 0 with sessionId := ((netR envRI).D 0).dealer.sessionId } 4).2 with
      | .ok (some cc) => decide (cc.index = 1 ∧ cc.dealerIndex = 0)
      | _ => false) = true := by
  decide +kernel


/-- `C83_replay_commits` there. -/
example : ∃ v a dl, (qRun envRI ((netR envRI).D 1) (half (netR envRI))).verifiers.get 0 = some v ∧
    v.aggregator = some a ∧ a.deal = some dl ∧
    (pointVal ((netR2 envRI).commitMsg envRI 0).commitments ((dl.secShare.i + 1 : Nat) : ZMod 11) =
        dl.secShare.v • envRI.suite.base →
      ((qRun envRI ((netR envRI).D 1) (half (netR envRI))).processSecretCommits envRI MapOrder.id
        { (netR2 envRI).commitMsg envRI 0 with sessionId := a.sid } 4).2 = .ok none) := by
  have h : (match (qRun envRI ((netR envRI).D 1) (half (netR envRI))).verifiers.get 0 with
    | some v => match v.aggregator with
      | some a => a.dealCertified && a.deal.isSome
      | none => false
    | none => false) = true := by decide +kernel
  split at h
  · rename_i v hv
    split at h
    · rename_i a ha
      obtain ⟨hc, hd⟩ := Bool.and_eq_true_iff.1 h
      obtain ⟨dl, hd⟩ := Option.isSome_iff_exists.1 hd
      exact ⟨v, a, dl, hv, ha, hd, (C83_replay_commits envRI 5 [6, 10, 4] 2 1 [6] [3, 7] ((netR envRI).D 1) rfl
        (half (netR envRI)) MapOrder.id ((netR2 envRI).commitMsg envRI 0) 4 6 (by decide +kernel) (by decide +kernel)
        (by decide +kernel) v a dl hv ha hc hd).1⟩
    · cases h
  · cases h

/-- `C83_complaint_signed`, `C83_commits_signed`, `C83_reconstruct_signed`: copies of a message under another
session id or another signature have the same hash. -/
example := C83_complaint_signed envRI forgedCc { forgedCc with signature := [] } (fun h => h) (codecR_lawful _)
  (codecR_lawful _) (by decide) (by decide) (by decide) (by decide) rfl

example := C83_commits_signed envRI.suite envRI_lawful (by decide) badCommits { badCommits with sessionId := [1] }
  (fun h => h) (by decide) (by decide) rfl

example := C83_reconstruct_signed envRI.suite envRI_lawful revealed { revealed with sessionId := [1] } (fun h => h)
  (fun h => h) (by decide +kernel) (by decide +kernel) (by decide +kernel) (by decide +kernel) (by decide +kernel)
  (by decide +kernel) rfl

/-- A case for `C83_replay_reconstruct`: a share revealed by participant 2 about a dealer whose
commitments participant 1 does not know yet, with two session ids. -/
example :
    ((qRun envRI ((netR envRI).D 1) []).processReconstructCommits envRI MapOrder.id forgedRc).2 = .ok () ∧
    ((qRun envRI ((netR envRI).D 1) []).processReconstructCommits envRI MapOrder.id
      { forgedRc with sessionId := [1, 2, 3] }).2 = .ok () := by decide +kernel

/-- Two complaints, commitments and revealed shares with different hashes, for the theorems on what
is signed. -/
example : forgedCc.hash envRI ≠ forgedCc2.hash envRI ∧
    badCommits.hash envRI.suite ≠ longCommits.hash envRI.suite ∧
    revealed.hash envRI.suite ≠ forgedRc.hash envRI.suite ∧ envRI.suite.pointLen ≠ 0 := by
  decide +kernel

end

end DkgRExample

section

variable [SMul F G]

open DkgRExample Kyber.Toy in
/-- C83 does not hold: the session id is not signed. A message that dealer 0 signed in another session
makes participant 1 complain about dealer 0, who followed the protocol in both. -/
theorem C83_violated : ¬ C83_statement := by
  intro h
  obtain ⟨h1, h2, h3⟩ := replay
  have := h (ZMod 11) (ZMod 11) _ _ _ _ envRI envRI_lawful prims_lawful (fun _ _ h => h)
    codecR_lawful 5 [6, 10, 4] (by decide) 2 1 [6] [3, 7] ((netR2 envRI).D 1) rfl
    1 [6] [3, 7] ((netR envRI).D 1) rfl (half (netR2 envRI)) (half (netR envRI)) MapOrder.id _ _ 4 h1 h2
  revert h3
  split
  · rename_i cc hcc
    exact absurd hcc (this _)
  · intro h; cases h

/-! ## C84 -/

/-- C84, the intended property: the deal of a qualified dealer has been approved by as many
participants as the threshold of the DKG. -/
def C84_statement : Prop :=
  ∀ (F G : Type) (_ : Field F) (_ : AddCommGroup G) (_ : Module F G) (_ : DecidableEq G)
    (E : Env F G) (_ : E.suite.Lawful) (_ : E.prims.Lawful) (_ : Function.Injective E.suite.hash)
    (_ : ∀ d, E.codec.dec (E.codec.enc d) = some d)
    (x : F) (pubs : List G) (_ : pubs.Nodup) (t : Nat) (secret : F) (fD gD : List F) (d0 : Dkg F G)
    (_ : newDistKeyGenerator E x pubs t secret fD gD = .ok d0) (cs : List (QCall F G)) (i : Nat)
    (v : Verifier F G) (a : Aggregator F G),
    (qRun E d0 cs).verifiers.get i = some v → v.aggregator = some a → a.dealCertified = true →
    t ≤ (approvedBy a.responses pubs.length).card

/-- C84, what holds: the deal of a qualified dealer has been approved by as many participants as the
threshold written in the deal, and everybody has answered or been timed out. Missing: the threshold of
the deal need not be that of the DKG. -/
theorem C84_approvals_partial (E : Env F G) (x : F) (pubs : List G) (t : Nat) (secret : F)
    (fD gD : List F) (d0 : Dkg F G)
    (h0 : newDistKeyGenerator E x pubs t secret fD gD = .ok d0) (cs : List (QCall F G)) (i : Nat)
    (v : Verifier F G) (a : Aggregator F G)
    (hv : (qRun E d0 cs).verifiers.get i = some v) (ha : v.aggregator = some a) :
    ∃ dl, a.deal = some dl ∧ (a.dealCertified = true ↔
      dl.t ≤ (approvedBy a.responses pubs.length).card ∧
      (∀ j < pubs.length, ∃ r, a.responses.get j = some r) ∧ a.badDealer = false) := by
  have hev := qRun_evolves E d0 cs
  have hS : Setup E (qRun E d0 cs) := (setup_new h0).step hev
  have hpart : (qRun E d0 cs).participants = pubs := by
    obtain ⟨-, -, -, -, h5, -⟩ := newDistKeyGenerator_ok h0
    exact hev.participants.trans h5
  obtain ⟨a', dl, g1, g2, -, g4, g5⟩ := hS.holds hv
  rw [ha] at g1; cases g1
  rw [hpart] at g5
  refine ⟨dl, g2, ?_⟩
  unfold Aggregator.dealCertified Aggregator.enoughApprovals
  rw [approvals_card g5, g5.verifiers, g4]
  have hall : ((List.range pubs.length).filter (fun i => !a.responses.contains i)).length = 0 ↔
      ∀ j < pubs.length, ∃ r, a.responses.get j = some r := by
    simp only [List.length_eq_zero_iff, List.filter_eq_nil_iff, List.mem_range, AMap.contains,
      Bool.not_eq_true, Bool.not_eq_false', Option.isSome_iff_exists]
  rw [← hall]
  simp only [Bool.and_eq_true, decide_eq_true_eq, Bool.not_eq_true', Bool.or_eq_false_iff]
  refine and_congr_right (fun _ => and_congr_left (fun _ => ?_))
  generalize List.length _ = n
  rw [decide_eq_false_iff_not]
  omega

end

namespace DkgRExample

open Kyber.Toy

section

variable [SMul F G]

/-- `C84_approvals_partial` for dealer 0 there. -/
example : ∃ v a dl, (qRun envRI ((netR envRI).D 1) (half (netR envRI))).verifiers.get 0 = some v ∧
    v.aggregator = some a ∧ a.deal = some dl := by
  have h : ((qRun envRI ((netR envRI).D 1) (half (netR envRI))).verifiers.get 0).isSome ∧
      (((qRun envRI ((netR envRI).D 1) (half (netR envRI))).verifiers.get 0).bind (·.aggregator)).isSome := by
    decide +kernel
  obtain ⟨v, hv⟩ := Option.isSome_iff_exists.1 h.1
  rw [hv] at h
  obtain ⟨a, ha⟩ := Option.isSome_iff_exists.1 h.2
  obtain ⟨dl, hd, -⟩ := C84_approvals_partial envRI 5 [6, 10, 4] 2 1 [6] [3, 7] ((netR envRI).D 1) rfl
    (half (netR envRI)) 0 v a hv ha
  exact ⟨v, a, dl, hv, ha, hd⟩

/-- A participant that wants threshold 3 takes part with key 5; participant 2 deals with threshold
2. -/
def strict : Dkg (ZMod 11) (ZMod 11) :=
  getDkgR (newDistKeyGenerator envRI 5 [6, 10, 4] 3 1 [6, 2] [3, 7, 1])

def strictRun : List (QCall (ZMod 11) (ZMod 11)) :=
  [.deal ((netR envRI).dealMsg envRI 2 1) 5, .timeout]

theorem strict_start : newDistKeyGenerator envRI 5 [6, 10, 4] 3 1 [6, 2] [3, 7, 1] = .ok strict := rfl

/-- Dealer 2 is qualified with two approvals, its own and that of participant 1. -/
theorem strict_qualified : (match (qRun envRI strict strictRun).verifiers.get 2 with
    | some v => match v.aggregator with
      | some a => a.dealCertified && decide ((approvedBy a.responses 3).card = 2)
      | none => false
    | none => false) = true := by decide +kernel

end

end DkgRExample

section

variable [SMul F G]

open DkgRExample Kyber.Toy in
/-- C84 does not hold: the number of approvals is compared with the threshold in the dealer's
message. -/
theorem C84_violated : ¬ C84_statement := by
  intro h
  have hq := strict_qualified
  revert hq
  split
  · rename_i v hv
    split
    · rename_i a ha
      intro hq
      simp only [Bool.and_eq_true, decide_eq_true_eq] at hq
      have := h (ZMod 11) (ZMod 11) _ _ _ _ envRI envRI_lawful prims_lawful (fun _ _ h => h)
        codecR_lawful 5 [6, 10, 4] (by decide) 3 1 [6, 2] [3, 7, 1] strict strict_start strictRun 2 v a
        hv ha hq.1
      have h2 : (approvedBy a.responses 3).card = 2 := hq.2
      have h3 : 3 ≤ (approvedBy a.responses 3).card := this
      omega
    · intro h; cases h
  · intro h; cases h

end

end Kyber.Props
