/-
Property C117: printing an object does not print its secrets.
-/
import Verif.Model.Display
import Mathlib.Data.Nat.Digits.Lemmas

namespace Kyber.Props

open Kyber Kyber.Poly Kyber.Display

variable {F G : Type}

/-! ## The public part of an object

`hide` replaces every secret scalar by the only element of `Unit` and every list of secret
coefficients by the empty list, so nothing about the secrets is left in the result. -/

def hideShare (s : Share F) : Share Unit := ⟨s.i, ()⟩

def hideDealP (d : VssP.Deal F G) : VssP.Deal Unit G :=
  ⟨d.sessionId, hideShare d.secShare, d.t, d.commitments⟩

def hideJustP (j : VssP.Justification F G) : VssP.Justification Unit G :=
  ⟨j.sessionId, j.index, hideDealP j.deal, j.signature⟩

def hideAggP (a : VssP.Aggregator F G) : VssP.Aggregator Unit G :=
  ⟨a.verifiers, a.commits, a.responses, a.sid, a.deal.map hideDealP, a.t, a.badDealer, a.timeout⟩

def hideDealerP (d : VssP.Dealer F G) : VssP.Dealer Unit G :=
  ⟨(), d.pubb, (), d.secretCommits, ⟨[]⟩, d.verifiers, d.hkdfContext, d.t, d.sessionId,
    d.deals.map hideDealP, hideAggP d.aggregator⟩

def hideVerifierP (v : VssP.Verifier F G) : VssP.Verifier Unit G :=
  ⟨(), v.pubb, v.dealer, v.index, v.verifiers, v.hkdfContext, hideAggP v.aggregator⟩

def hideDealR (d : VssR.Deal F G) : VssR.Deal Unit G :=
  ⟨d.sessionId, hideShare d.secShare, hideShare d.rndShare, d.t, d.commitments⟩

def hideJustR (j : VssR.Justification F G) : VssR.Justification Unit G :=
  ⟨j.sessionId, j.index, hideDealR j.deal, j.signature⟩

def hideAggR (a : VssR.Aggregator F G) : VssR.Aggregator Unit G :=
  ⟨a.verifiers, a.commits, a.responses, a.sid, a.deal.map hideDealR, a.t, a.badDealer⟩

def hideDealerR (d : VssR.Dealer F G) : VssR.Dealer Unit G :=
  ⟨(), d.pubb, (), d.secretCommits, d.verifiers, d.hkdfContext, d.t, d.sessionId,
    d.deals.map hideDealR, hideAggR d.aggregator⟩

def hideVerifierR (v : VssR.Verifier F G) : VssR.Verifier Unit G :=
  ⟨(), v.pubb, v.dealer, v.index, v.verifiers, v.hkdfContext, v.aggregator.map hideAggR⟩

def hideKeyP (s : DkgP.DistKeyShare F G) : DkgP.DistKeyShare Unit G := ⟨s.commits, hideShare s.share, []⟩

def hideConfig (c : DkgP.Config F G) : DkgP.Config Unit G :=
  ⟨(), c.oldNodes, c.publicCoeffs, c.newNodes, c.share.map hideKeyP, c.threshold, c.oldThreshold⟩

def hideDkgP (d : DkgP.Dkg F G) : DkgP.Dkg Unit G :=
  ⟨hideConfig d.c, d.pubb, d.dpub, hideDealerP d.dealer,
    d.verifiers.map fun e => (e.1, hideVerifierP e.2),
    d.oldAggregators.map fun e => (e.1, hideAggP e.2), d.oidx, d.nidx, d.oldT, d.newT, d.isResharing,
    d.canIssue, d.canReceive, d.newPresent, d.oldPresent, d.processed, d.timeout⟩

def hideJustDkg (j : DkgP.Justification F G) : DkgP.Justification Unit G :=
  ⟨j.index, hideJustP j.justification⟩

def hideKeyR (s : DkgR.DistKeyShare F G) : DkgR.DistKeyShare Unit G := ⟨s.commits, hideShare s.share⟩

def hideComplaint (c : DkgR.ComplaintCommits F G) : DkgR.ComplaintCommits Unit G :=
  ⟨c.index, c.dealerIndex, hideDealR c.deal, c.signature⟩

def hideReconstruct (r : DkgR.ReconstructCommits F) : DkgR.ReconstructCommits Unit :=
  ⟨r.sessionId, r.index, r.dealerIndex, hideShare r.share, r.signature⟩

def hideDkgR (d : DkgR.Dkg F G) : DkgR.Dkg Unit G :=
  ⟨d.index, (), d.pubb, d.participants, d.t, hideDealerR d.dealer,
    d.verifiers.map fun e => (e.1, hideVerifierR e.2), d.commitments,
    d.pendingReconstruct.map fun e => (e.1, e.2.map hideReconstruct), d.reconstructed⟩

def hideDss (d : Dss.DSS F G) : Dss.DSS Unit G :=
  ⟨(), d.pub, d.index, d.participants, d.t, ⟨hideShare d.long.share, d.long.commits⟩,
    ⟨hideShare d.random.share, d.random.commits⟩, d.msg, d.partials.map (Option.map hideShare),
    d.partialsIdx, d.signed, d.sessionId⟩

def hidePartialSig (p : Dss.PartialSig F) : Dss.PartialSig Unit :=
  ⟨hideShare p.partialShare, p.sessionId, p.signature⟩

/-! ## The text depends on the public part only -/

/-- C117: private shares, private polynomials and key pairs. -/
theorem C117_shares (A : Fmt G) :
    (∀ s s' : Share F, hideShare s = hideShare s' → priShareD s = priShareD s' ∧ priShareS s = priShareS s') ∧
    (∀ p p' : PriPoly F, priPolyD A p = priPolyD A p' ∧ priPolyS A p = priPolyS A p') ∧
    (∀ (P : G) (k k' : F), pairD A P k = pairD A P k' ∧ pairS A P k = pairS A P k') := by
  refine ⟨fun s s' h => ?_, fun _ _ => ⟨rfl, rfl⟩, fun _ _ _ => ⟨rfl, rfl⟩⟩
  simp only [hideShare, Share.mk.injEq, and_true] at h
  simp only [priShareD, priShareS, h, and_self]

theorem dealP_hide (A : Fmt G) (d : VssP.Deal F G) :
    P.dealD A (hideDealP d) = P.dealD A d ∧ P.dealS A (hideDealP d) = P.dealS A d := ⟨rfl, rfl⟩

theorem dealR_hide (A : Fmt G) (d : VssR.Deal F G) :
    R.dealD A (hideDealR d) = R.dealD A d ∧ R.dealS A (hideDealR d) = R.dealS A d := ⟨rfl, rfl⟩

theorem aggP_hide (A : Fmt G) (X : G) (a : VssP.Aggregator F G) :
    P.aggD A X (hideAggP a) = P.aggD A X a ∧ P.aggS A X (hideAggP a) = P.aggS A X a := by
  obtain ⟨v, c, r, s, d, t, b, tt⟩ := a
  cases d <;> exact ⟨rfl, rfl⟩

theorem aggR_hide (A : Fmt G) (P : G) (a : VssR.Aggregator F G) :
    R.aggD A P (hideAggR a) = R.aggD A P a ∧ R.aggS A P (hideAggR a) = R.aggS A P a := by
  obtain ⟨v, c, r, s, d, t, b⟩ := a
  cases d <;> exact ⟨rfl, rfl⟩

theorem dealerP_hide (A : Fmt G) (d : VssP.Dealer F G) :
    P.dealerD A (hideDealerP d) = P.dealerD A d ∧ P.dealerS A (hideDealerP d) = P.dealerS A d := by
  unfold P.dealerD P.dealerS hideDealerP
  simp only [(aggP_hide A _ _).1, (aggP_hide A _ _).2, List.map_map, Function.comp_def,
    (dealP_hide A _).1, (dealP_hide A _).2]
  exact ⟨trivial, trivial⟩

theorem dealerR_hide (A : Fmt G) (d : VssR.Dealer F G) :
    R.dealerD A (hideDealerR d) = R.dealerD A d ∧ R.dealerS A (hideDealerR d) = R.dealerS A d := by
  unfold R.dealerD R.dealerS hideDealerR
  simp only [(aggR_hide A _ _).1, (aggR_hide A _ _).2, List.map_map, Function.comp_def,
    (dealR_hide A _).1, (dealR_hide A _).2]
  exact ⟨trivial, trivial⟩

theorem verifierP_hide (A : Fmt G) (v : VssP.Verifier F G) :
    P.verifierD A (hideVerifierP v) = P.verifierD A v ∧
    P.verifierS A (hideVerifierP v) = P.verifierS A v := by
  unfold P.verifierD P.verifierS hideVerifierP
  simp only [(aggP_hide A _ _).1, (aggP_hide A _ _).2]
  exact ⟨trivial, trivial⟩

theorem verifierR_hide (A : Fmt G) (v : VssR.Verifier F G) :
    R.verifierD A (hideVerifierR v) = R.verifierD A v ∧
    R.verifierS A (hideVerifierR v) = R.verifierS A v := by
  obtain ⟨l, p, d, i, vs, c, a⟩ := v
  cases a with
  | none => exact ⟨rfl, rfl⟩
  | some a =>
    unfold R.verifierD R.verifierS hideVerifierR
    simp only [Option.map_some, (aggR_hide A _ _).1, (aggR_hide A _ _).2]
    exact ⟨trivial, trivial⟩

/-- C117: the objects of Pedersen's VSS: deals, justifications, aggregators, dealers, verifiers. -/
theorem C117_vss_pedersen (A : Fmt G) :
    (∀ d d' : VssP.Deal F G, hideDealP d = hideDealP d' →
      P.dealD A d = P.dealD A d' ∧ P.dealS A d = P.dealS A d') ∧
    (∀ j j' : VssP.Justification F G, hideJustP j = hideJustP j' →
      P.justD A j = P.justD A j' ∧ P.justS A j = P.justS A j') ∧
    (∀ (X : G) (a a' : VssP.Aggregator F G), hideAggP a = hideAggP a' →
      P.aggD A X a = P.aggD A X a' ∧ P.aggS A X a = P.aggS A X a') ∧
    (∀ d d' : VssP.Dealer F G, hideDealerP d = hideDealerP d' →
      P.dealerD A d = P.dealerD A d' ∧ P.dealerS A d = P.dealerS A d') ∧
    (∀ v v' : VssP.Verifier F G, hideVerifierP v = hideVerifierP v' →
      P.verifierD A v = P.verifierD A v' ∧ P.verifierS A v = P.verifierS A v') := by
  refine ⟨fun d d' h => ?_, fun j j' h => ?_, fun X a a' h => ?_, fun d d' h => ?_, fun v v' h => ?_⟩
  · rw [← (dealP_hide A d).1, ← (dealP_hide A d).2, h]; exact ⟨rfl, rfl⟩
  · have key : ∀ j : VssP.Justification F G, P.justD A (hideJustP j) = P.justD A j ∧
        P.justS A (hideJustP j) = P.justS A j := fun j => ⟨rfl, rfl⟩
    rw [← (key j).1, ← (key j).2, h]; exact key j'
  · rw [← (aggP_hide A X a).1, ← (aggP_hide A X a).2, h]; exact aggP_hide A X a'
  · rw [← (dealerP_hide A d).1, ← (dealerP_hide A d).2, h]; exact dealerP_hide A d'
  · rw [← (verifierP_hide A v).1, ← (verifierP_hide A v).2, h]; exact verifierP_hide A v'

/-- C117: the same for Rabin's VSS. -/
theorem C117_vss_rabin (A : Fmt G) :
    (∀ d d' : VssR.Deal F G, hideDealR d = hideDealR d' →
      R.dealD A d = R.dealD A d' ∧ R.dealS A d = R.dealS A d') ∧
    (∀ j j' : VssR.Justification F G, hideJustR j = hideJustR j' →
      R.justD A j = R.justD A j' ∧ R.justS A j = R.justS A j') ∧
    (∀ (P : G) (a a' : VssR.Aggregator F G), hideAggR a = hideAggR a' →
      R.aggD A P a = R.aggD A P a' ∧ R.aggS A P a = R.aggS A P a') ∧
    (∀ d d' : VssR.Dealer F G, hideDealerR d = hideDealerR d' →
      R.dealerD A d = R.dealerD A d' ∧ R.dealerS A d = R.dealerS A d') ∧
    (∀ v v' : VssR.Verifier F G, hideVerifierR v = hideVerifierR v' →
      R.verifierD A v = R.verifierD A v' ∧ R.verifierS A v = R.verifierS A v') := by
  refine ⟨fun d d' h => ?_, fun j j' h => ?_, fun P a a' h => ?_, fun d d' h => ?_, fun v v' h => ?_⟩
  · rw [← (dealR_hide A d).1, ← (dealR_hide A d).2, h]; exact ⟨rfl, rfl⟩
  · have key : ∀ j : VssR.Justification F G, R.justD A (hideJustR j) = R.justD A j ∧
        R.justS A (hideJustR j) = R.justS A j := fun j => ⟨rfl, rfl⟩
    rw [← (key j).1, ← (key j).2, h]; exact key j'
  · rw [← (aggR_hide A P a).1, ← (aggR_hide A P a).2, h]; exact aggR_hide A P a'
  · rw [← (dealerR_hide A d).1, ← (dealerR_hide A d).2, h]; exact dealerR_hide A d'
  · rw [← (verifierR_hide A v).1, ← (verifierR_hide A v).2, h]; exact verifierR_hide A v'

theorem config_hide (A : Fmt G) (r o : Bool) (c : DkgP.Config F G) :
    DP.configD A r o (hideConfig c) = DP.configD A r o c ∧
    DP.configS A r o (hideConfig c) = DP.configS A r o c := by
  obtain ⟨l, on, pc, nn, s, t, ot⟩ := c
  cases s <;> exact ⟨rfl, rfl⟩

theorem dkgP_hide (A : Fmt G) (r o : Bool) (od : Nat → G) (d : DkgP.Dkg F G) :
    DP.dkgD A r o od (hideDkgP d) = DP.dkgD A r o od d ∧
    DP.dkgS A r o od (hideDkgP d) = DP.dkgS A r o od d := by
  unfold DP.dkgD DP.dkgS hideDkgP
  simp only [(config_hide A r o _).1, (config_hide A r o _).2, (dealerP_hide A _).1,
    (dealerP_hide A _).2, List.map_map, Function.comp_def, (verifierP_hide A _).1,
    (verifierP_hide A _).2, (aggP_hide A _ _).1, (aggP_hide A _ _).2]
  exact ⟨trivial, trivial⟩

/-- C117: the objects of Pedersen's DKG: key shares, configurations (which hold the long-term
key), justifications and the generator with everything in it. -/
theorem C117_dkg_pedersen (A : Fmt G) (r o : Bool) (od : Nat → G) :
    (∀ s s' : DkgP.DistKeyShare F G, hideKeyP s = hideKeyP s' →
      DP.shareD A s = DP.shareD A s' ∧ DP.shareS A s = DP.shareS A s') ∧
    (∀ c c' : DkgP.Config F G, hideConfig c = hideConfig c' →
      DP.configD A r o c = DP.configD A r o c' ∧ DP.configS A r o c = DP.configS A r o c') ∧
    (∀ d d' : DkgP.Dkg F G, hideDkgP d = hideDkgP d' →
      DP.dkgD A r o od d = DP.dkgD A r o od d' ∧ DP.dkgS A r o od d = DP.dkgS A r o od d') ∧
    (∀ j j' : DkgP.Justification F G, hideJustDkg j = hideJustDkg j' →
      DP.justD A j = DP.justD A j' ∧ DP.justS A j = DP.justS A j') := by
  refine ⟨fun s s' h => ?_, fun c c' h => ?_, fun d d' h => ?_, fun j j' h => ?_⟩
  · have key : ∀ s : DkgP.DistKeyShare F G, DP.shareD A (hideKeyP s) = DP.shareD A s ∧
        DP.shareS A (hideKeyP s) = DP.shareS A s := fun s => ⟨rfl, rfl⟩
    rw [← (key s).1, ← (key s).2, h]; exact key s'
  · rw [← (config_hide A r o c).1, ← (config_hide A r o c).2, h]; exact config_hide A r o c'
  · rw [← (dkgP_hide A r o od d).1, ← (dkgP_hide A r o od d).2, h]; exact dkgP_hide A r o od d'
  · have key : ∀ j : DkgP.Justification F G, DP.justD A (hideJustDkg j) = DP.justD A j ∧
        DP.justS A (hideJustDkg j) = DP.justS A j := fun j => ⟨rfl, rfl⟩
    rw [← (key j).1, ← (key j).2, h]; exact key j'

theorem dkgR_hide (A : Fmt G) (d : DkgR.Dkg F G) :
    DR.dkgD A (hideDkgR d) = DR.dkgD A d ∧ DR.dkgS A (hideDkgR d) = DR.dkgS A d := by
  have h1 : ∀ r : DkgR.ReconstructCommits F, DR.reconstructD (hideReconstruct r) = DR.reconstructD r :=
    fun r => rfl
  have h2 : ∀ r : DkgR.ReconstructCommits F, DR.reconstructS (hideReconstruct r) = DR.reconstructS r :=
    fun r => rfl
  unfold DR.dkgD DR.dkgS hideDkgR
  simp only [(dealerR_hide A _).1, (dealerR_hide A _).2, List.map_map, Function.comp_def,
    (verifierR_hide A _).1, (verifierR_hide A _).2, h1, h2]
  exact ⟨trivial, trivial⟩

/-- C117: the objects of Rabin's DKG: key shares, complaints, revealed shares and the generator. -/
theorem C117_dkg_rabin (A : Fmt G) :
    (∀ s s' : DkgR.DistKeyShare F G, hideKeyR s = hideKeyR s' →
      DR.shareD A s = DR.shareD A s' ∧ DR.shareS A s = DR.shareS A s') ∧
    (∀ c c' : DkgR.ComplaintCommits F G, hideComplaint c = hideComplaint c' →
      DR.complaintD A c = DR.complaintD A c' ∧ DR.complaintS A c = DR.complaintS A c') ∧
    (∀ r r' : DkgR.ReconstructCommits F, hideReconstruct r = hideReconstruct r' →
      DR.reconstructD r = DR.reconstructD r' ∧ DR.reconstructS r = DR.reconstructS r') ∧
    (∀ d d' : DkgR.Dkg F G, hideDkgR d = hideDkgR d' →
      DR.dkgD A d = DR.dkgD A d' ∧ DR.dkgS A d = DR.dkgS A d') := by
  refine ⟨fun s s' h => ?_, fun c c' h => ?_, fun r r' h => ?_, fun d d' h => ?_⟩
  · have key : ∀ s : DkgR.DistKeyShare F G, DR.shareD A (hideKeyR s) = DR.shareD A s ∧
        DR.shareS A (hideKeyR s) = DR.shareS A s := fun s => ⟨rfl, rfl⟩
    rw [← (key s).1, ← (key s).2, h]; exact key s'
  · have key : ∀ c : DkgR.ComplaintCommits F G, DR.complaintD A (hideComplaint c) = DR.complaintD A c ∧
        DR.complaintS A (hideComplaint c) = DR.complaintS A c := fun c => ⟨rfl, rfl⟩
    rw [← (key c).1, ← (key c).2, h]; exact key c'
  · have key : ∀ r : DkgR.ReconstructCommits F, DR.reconstructD (hideReconstruct r) = DR.reconstructD r ∧
        DR.reconstructS (hideReconstruct r) = DR.reconstructS r := fun r => ⟨rfl, rfl⟩
    rw [← (key r).1, ← (key r).2, h]; exact key r'
  · rw [← (dkgR_hide A d).1, ← (dkgR_hide A d).2, h]; exact dkgR_hide A d'

/-- C117: distributed signatures: sessions and partial signatures. -/
theorem C117_dss (A : Fmt G) (base : G) :
    (∀ d d' : Dss.DSS F G, hideDss d = hideDss d' →
      Sig.dssD A base d = Sig.dssD A base d' ∧ Sig.dssS A base d = Sig.dssS A base d') ∧
    (∀ p p' : Dss.PartialSig F, hidePartialSig p = hidePartialSig p' →
      Sig.partialSigD p = Sig.partialSigD p') := by
  have key : ∀ d : Dss.DSS F G, Sig.dssD A base (hideDss d) = Sig.dssD A base d ∧
      Sig.dssS A base (hideDss d) = Sig.dssS A base d := by
    intro d
    have h1 : ∀ p : Option (Share F), Option.map priShareD (Option.map hideShare p) =
        Option.map priShareD p := by rintro (_ | p) <;> rfl
    have h2 : ∀ p : Option (Share F), Sig.partialS (Option.map hideShare p) = Sig.partialS p := by
      rintro (_ | p) <;> rfl
    unfold Sig.dssD Sig.dssS hideDss
    simp only [List.map_map, Function.comp_def, h1, h2]
    exact ⟨trivial, trivial⟩
  refine ⟨fun d d' h => ?_, fun p p' h => ?_⟩
  · rw [← (key d).1, ← (key d).2, h]; exact key d'
  · have key : ∀ p : Dss.PartialSig F, Sig.partialSigD (hidePartialSig p) = Sig.partialSigD p :=
      fun p => rfl
    rw [← key p, h]; exact key p'

/-! ## EdDSA keys and `PriPoly::string` do print their secrets -/

/-- A decimal digit. -/
def isDig (c : Char) : Bool := decide (48 ≤ c.toNat ∧ c.toNat < 58)

theorem toNat_digit (d : Nat) (h : d < 10) : (Char.ofNat (48 + d)).toNat = 48 + d := by
  have : ∀ d : Fin 10, (Char.ofNat (48 + d.val)).toNat = 48 + d.val := by decide
  exact this ⟨d, h⟩

theorem dec_isDig (n : Nat) : ∀ c ∈ dec n, isDig c = true := by
  unfold dec
  split
  · simp [isDig]
  · intro c hc
    rw [List.mem_map] at hc
    obtain ⟨d, hd, rfl⟩ := hc
    have := Nat.digits_lt_base (by norm_num) (List.mem_reverse.1 hd)
    unfold isDig
    rw [toNat_digit d this]
    simp; omega

theorem dec_ne_nil (n : Nat) : dec n ≠ [] := by
  unfold dec
  split
  · simp
  · rename_i h
    simpa [Nat.digits_eq_nil_iff_eq_zero] using h

theorem dec_value (n : Nat) : Nat.ofDigits 10 ((dec n).reverse.map (fun c => c.toNat - 48)) = n := by
  unfold dec
  split
  · rename_i h; subst h; rfl
  · rw [← List.map_reverse, List.reverse_reverse, List.map_map]
    have : (Nat.digits 10 n).map ((fun c => c.toNat - 48) ∘ fun d => Char.ofNat (48 + d)) =
        Nat.digits 10 n := by
      conv_rhs => rw [← List.map_id (Nat.digits 10 n)]
      refine List.map_congr_left fun d hd => ?_
      have := Nat.digits_lt_base (by norm_num) hd
      simp only [Function.comp_apply, id_eq, toNat_digit d this]
      omega
    rw [this, Nat.ofDigits_digits]

/-- A number followed by something that is not a digit can be read off a text. -/
theorem dec_cons_inj (a b : Nat) (c c' : Char) (r r' : Txt) (hc : isDig c = false) (hc' : isDig c' = false)
    (h : dec a ++ c :: r = dec b ++ c' :: r') : a = b ∧ c = c' ∧ r = r' := by
  have key : ∀ n (c : Char) (r : Txt), isDig c = false →
      (dec n ++ c :: r).takeWhile isDig = dec n := by
    intro n c r hc
    rw [List.takeWhile_append_of_pos (dec_isDig n), List.takeWhile_cons_of_neg (by simp [hc])]
    simp
  have h1 : dec a = dec b := by rw [← key a c r hc, h, key b c' r' hc']
  refine ⟨by rw [← dec_value a, h1, dec_value], ?_⟩
  rw [h1] at h
  have := List.append_cancel_left h
  simpa using this

/-- A list of numbers in `Debug` form can be read off a text. -/
theorem join_dec_inj (xs ys : List Nat) (r r' : Txt)
    (h : join (lit ", ") (xs.map dec) ++ ']' :: r = join (lit ", ") (ys.map dec) ++ ']' :: r') :
    xs = ys ∧ r = r' := by
  have hne : ∀ (y : Nat) (t r : Txt), dec y ++ t ≠ ']' :: r := by
    intro y t r he
    obtain ⟨c, l, hcl⟩ := List.exists_cons_of_ne_nil (dec_ne_nil y)
    have hd := dec_isDig y c (by rw [hcl]; simp)
    rw [hcl] at he
    simp only [List.cons_append, List.cons.injEq] at he
    rw [he.1] at hd
    exact absurd hd (by decide)
  induction xs generalizing ys with
  | nil =>
    match ys with
    | [] => simpa [join] using h
    | [y] => exact absurd h.symm (hne y _ _)
    | y :: z :: zs =>
      simp only [List.map_cons, List.map_nil, join, List.append_assoc, List.nil_append] at h
      exact absurd h.symm (hne y _ _)
  | cons x xs ih =>
    match xs, ys with
    | [], [] => exact absurd h (hne x _ _)
    | [], [y] =>
      obtain ⟨rfl, -, rfl⟩ := dec_cons_inj x y ']' ']' r r' (by decide) (by decide) h
      exact ⟨rfl, rfl⟩
    | [], y :: z :: zs =>
      simp only [List.map_cons, List.map_nil, join, List.append_assoc] at h
      have := dec_cons_inj x y ']' ',' r _ (by decide) (by decide) h
      exact absurd this.2.1 (by decide)
    | x' :: xs, [] =>
      simp only [List.map_cons, List.map_nil, join, List.append_assoc, List.nil_append] at h
      exact absurd h (hne x _ _)
    | x' :: xs, [y] =>
      simp only [List.map_cons, List.map_nil, join, List.append_assoc] at h
      have := dec_cons_inj x y ',' ']' _ r' (by decide) (by decide) h
      exact absurd this.2.1 (by decide)
    | x' :: xs, y :: z :: zs =>
      simp only [List.map_cons, join, List.append_assoc] at h
      obtain ⟨rfl, -, h⟩ := dec_cons_inj x y ',' ',' _ _ (by decide) (by decide) h
      have h : join (lit ", ") ((x' :: xs).map dec) ++ ']' :: r =
          join (lit ", ") ((z :: zs).map dec) ++ ']' :: r' := by
        simpa [lit] using h
      obtain ⟨h1, h2⟩ := ih (z :: zs) h
      rw [h1]
      exact ⟨rfl, h2⟩

theorem dBytes_inj (b b' : Bytes) (r r' : Txt) (h : dBytes b ++ r = dBytes b' ++ r') :
    b = b' ∧ r = r' := by
  unfold dBytes dList at h
  have hm : ∀ b : Bytes, b.map (fun x => dec x.toNat) = (b.map (·.toNat)).map dec := by
    intro b; rw [List.map_map]; rfl
  rw [hm, hm] at h
  have h : join (lit ", ") ((b.map (·.toNat)).map dec) ++ ']' :: r =
      join (lit ", ") ((b'.map (·.toNat)).map dec) ++ ']' :: r' := by
    simpa [lit, List.append_assoc] using h
  obtain ⟨h1, h2⟩ := join_dec_inj _ _ r r' h
  refine ⟨?_, h2⟩
  exact List.map_injective_iff.2 (fun x y hxy => UInt8.toNat_inj.1 hxy) h1

/-- C117, the intended property for EdDSA keys: two keys with the same public key print alike. -/
def C117_eddsa_statement : Prop :=
  ∀ (G : Type) (A : Fmt G) (e e' : Eddsa.EdDSA Bytes G), e.pub = e'.pub →
    Sig.eddsaD Sig.scalarD A e = Sig.eddsaD Sig.scalarD A e'

/-- C117 does not hold for EdDSA keys: `{:?}` prints secret, seed and prefix, and from the text
all three can be read back, for every key. -/
theorem C117_eddsa_reveals (A : Fmt G) (e e' : Eddsa.EdDSA Bytes G)
    (h : Sig.eddsaD Sig.scalarD A e = Sig.eddsaD Sig.scalarD A e') :
    e.secret = e'.secret ∧ (e.pub = e'.pub → e = e') := by
  have expand : ∀ e : Eddsa.EdDSA Bytes G, Sig.eddsaD Sig.scalarD A e =
      lit "EdDSA { secret: Scalar { v: " ++ (dBytes e.secret ++ (lit " }, public: " ++ (A.ptD e.pub ++
      (lit ", seed: " ++ (dBytes e.seed ++ (lit ", prefix: " ++ (dBytes e.prefix_ ++ lit " }"))))))) := by
    intro e
    simp [Sig.eddsaD, Sig.scalarD, dStruct, join, lit]
  rw [expand, expand] at h
  have h := List.append_cancel_left h
  obtain ⟨h1, h⟩ := dBytes_inj _ _ _ _ h
  refine ⟨h1, fun hp => ?_⟩
  have h := List.append_cancel_left h
  rw [hp] at h
  have h := List.append_cancel_left (List.append_cancel_left h)
  obtain ⟨h2, h⟩ := dBytes_inj _ _ _ _ h
  have h := List.append_cancel_left h
  obtain ⟨h3, -⟩ := dBytes_inj _ _ _ _ h
  obtain ⟨s, p, sd, pf⟩ := e
  obtain ⟨s', p', sd', pf'⟩ := e'
  simp only at h1 h2 h3 hp
  subst h1 h2 h3 hp
  rfl


/-- Two keys with the same public key and different seeds print differently. -/
example : Sig.eddsaD Sig.scalarD (⟨[], [], fun _ => lit "P", fun _ => []⟩ : Fmt Unit) ⟨[104], (), [1], [255]⟩ ≠
    Sig.eddsaD Sig.scalarD ⟨[], [], fun _ => lit "P", fun _ => []⟩ ⟨[104], (), [2], [255]⟩ := fun h =>
  absurd ((C117_eddsa_reveals _ _ _ h).2 rfl) (by simp)

/-- C117: the intended property fails for EdDSA keys. -/
theorem C117_violated_eddsa : ¬ C117_eddsa_statement := by
  intro H
  have h := H Unit ⟨[], [], fun _ => [], fun _ => []⟩ ⟨[1], (), [], []⟩ ⟨[2], (), [], []⟩ rfl
  have := (C117_eddsa_reveals _ _ _ h).1
  revert this
  decide

/-- C117: `PriPoly::string` prints all coefficients: for scalars whose text form is injective and
of one length (those of edwards25519: `C113`) the text determines the polynomial. -/
theorem C117_string_reveals (sc : F → Txt) (k : Nat) (hk : 0 < k) (hlen : ∀ x, (sc x).length = k)
    (hinj : ∀ x y, sc x = sc y → x = y) (p p' : PriPoly F)
    (h : priPolyString sc p = priPolyString sc p') : p = p' := by
  unfold priPolyString at h
  rw [List.append_assoc, List.append_assoc] at h
  replace h := List.append_cancel_right (List.append_cancel_left h)
  obtain ⟨cs⟩ := p
  obtain ⟨cs'⟩ := p'
  congr 1
  simp only at h
  induction cs generalizing cs' with
  | nil =>
    match cs' with
    | [] => rfl
    | [y] =>
      have := congrArg List.length h
      simp [join, hlen] at this <;> omega
    | y :: z :: zs =>
      have := congrArg List.length h
      simp [join, hlen] at this <;> omega
  | cons x cs ih =>
    match cs, cs' with
    | [], [] =>
      have := congrArg List.length h
      simp [join, hlen] at this <;> omega
    | x' :: cs, [] =>
      have := congrArg List.length h
      simp [join, hlen] at this <;> omega
    | [], [y] => rw [hinj x y h]
    | [], y :: z :: zs =>
      have := congrArg List.length h
      simp [join, hlen, lit] at this <;> omega
    | x' :: cs, [y] =>
      have := congrArg List.length h
      simp [join, hlen, lit] at this <;> omega
    | x' :: cs, y :: z :: zs =>
      simp only [List.map_cons, join, List.append_assoc] at h
      obtain ⟨h1, h2⟩ := List.append_inj h (by rw [hlen, hlen])
      have h2 := List.append_cancel_left h2
      rw [hinj x y h1, ih (z :: zs) h2]

/-! ## Examples -/

/-- A dealer of Pedersen's VSS and another with other secrets and the same public part. -/
example :
    let A : Fmt Nat := ⟨lit "S", lit "s", dec, dec⟩
    let agg : VssP.Aggregator Int Nat := ⟨[7, 8], [9], [(1, ⟨[1], 1, true, [2]⟩)], [3], none, 2, false, false⟩
    let d : VssP.Dealer Int Nat :=
      ⟨5, 7, 6, [1], ⟨[6, 4]⟩, [7, 8], [1], 2, [3], [⟨[3], ⟨0, 10⟩, 2, [9]⟩], agg⟩
    let d' : VssP.Dealer Int Nat :=
      ⟨15, 7, 16, [1], ⟨[16, 14]⟩, [7, 8], [1], 2, [3], [⟨[3], ⟨0, 30⟩, 2, [9]⟩], agg⟩
    hideDealerP d = hideDealerP d' ∧ d.secret ≠ d'.secret ∧
    P.dealerD A d = lit ("Dealer { suite: S, pubb: 7, verifiers: [7, 8], hkdf_context: [1], t: 2, " ++
      "session_id: [3], deals: [Deal { session_id: [3], t: 2, commitments: [9] }], aggregator: " ++
      "Aggregator { suite: S, dealer: 7, verifiers: [7, 8], commits: [9], responses: {1: Response " ++
      "{ session_id: [1], index: 1, status: true, signature: [2] }}, sid: [3], deal: None, t: 2, " ++
      "bad_dealer: false, timeout: false } }") := by
  refine ⟨rfl, by decide, by decide +kernel⟩

/-- What `{:?}` of an EdDSA key looks like. -/
example : Sig.eddsaD Sig.scalarD (⟨[], [], fun _ => lit "P", fun _ => []⟩ : Fmt Unit)
      ⟨[104, 7, 0], (), [1, 22], [255]⟩ =
    lit "EdDSA { secret: Scalar { v: [104, 7, 0] }, public: P, seed: [1, 22], prefix: [255] }" := by
  decide +kernel

end Kyber.Props
