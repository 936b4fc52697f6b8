/-
Property C144: threshold signatures (`src/sign/dss/dss_sig.rs`) of a group that got its key by resharing, verified under
the first public key.
-/
import Verif.Props.DkgEpochs
import Verif.Props.DssLive

set_option linter.unusedSectionVars false

namespace Kyber.Props

open Kyber Kyber.Poly Kyber.Schnorr Kyber.Dss Kyber.Spec

variable {F G : Type} [Field F] [AddCommGroup G] [DecidableEq G] [DistribSMul F G]

/-- `new_dss` with the own key at place `i` of the list. -/
theorem newDss_at (S : Suite F G) (n : Nat) (x : Nat → F) (hnd : ((List.range n).map (fun i => x i • S.base)).Nodup)
    (i : Nat) (hin : i < n) (long random : Dss.DistKeyShare F G) (msg : Bytes) (t : Nat) :
    ∃ d, newDss S (x i) ((List.range n).map (fun i => x i • S.base)) long random msg t = .ok d ∧ d.index = i := by
  have hf : ((List.range n).map (fun i => x i • S.base)).findIdx? (fun p => decide (p = x i • S.base)) = some i := by
    rw [List.findIdx?_eq_some_iff_getElem]
    have hlen : ((List.range n).map (fun i => x i • S.base)).length = n := by simp
    have hg : ∀ j (hj : j < ((List.range n).map (fun i => x i • S.base)).length),
        ((List.range n).map (fun i => x i • S.base))[j] = x j • S.base := by
      intro j hj
      simp
    refine ⟨by omega, by simp, fun j hj => ?_⟩
    simp only [decide_eq_true_eq]
    intro he
    have h1 := hg i (by omega)
    have := (List.Nodup.getElem_inj_iff hnd (hi := by omega) (hj := by omega)).1 (he.trans h1.symm)
    omega
  unfold newDss
  simp only [hf]
  exact ⟨_, rfl, rfl⟩

/-- C144: the holders of shares of one polynomial and of a nonce shared with the same threshold open signing sessions,
and whichever messages arrive, any `t` correct holders lead to the signature of the secret. The holders may
be only some of the participants. -/
theorem C144_holders (q : Nat) [CharP F q] (S : Suite F G) (hS : S.Lawful)
    (hB : ∀ s : F, s • S.base = 0 → s = 0) (a r : F) (as rs : List F) (t : Nat) (has : (a :: as).length = t)
    (hrs : (r :: rs).length = t)
    (B : Finset Nat) (κ ρ : Nat → DkgP.DistKeyShare F G) (hκ : ∀ i ∈ B, HoldsOf S (a :: as) i (κ i))
    (hρ : ∀ i ∈ B, HoldsOf S (r :: rs) i (ρ i))
    (n : Nat) (x : Nat → F) (hnd : ((List.range n).map (fun i => x i • S.base)).Nodup)
    (hx : ∀ i ∈ B, Usable S (x i • S.base)) (hn : n ≤ q) (hBn : ∀ i ∈ B, i < n) (msg : Bytes) :
    ∃ ds : Nat → DSS F G,
      (∀ i ∈ B, newDss S (x i) ((List.range n).map (fun i => x i • S.base))
        ⟨(κ i).share, (κ i).commits⟩ ⟨(ρ i).share, (ρ i).commits⟩ msg t = .ok (ds i)) ∧
      ∀ i ∈ B, ∀ (calls : List (DssCall F)) (correct : Finset Nat), t ≤ correct.card →
        (∀ j ∈ correct, j ∈ B ∧ ((j = i ∧ ∃ k, .own k ∈ calls) ∨
          ∃ (k : F) (ps : PartialSig F) (d' : DSS F G) (theirs : List (DssCall F)), Usable S (k • S.base) ∧
            partialSig S k (dssRun S (ds j) theirs) = .ok (ps, d') ∧ .recv ps ∈ calls)) →
        ∀ ord, signature S ord (dssRun S (ds i) calls) =
          .ok (S.encG (r • S.base) ++ S.encS (r + dssChallenge S (r • S.base) (a • S.base) msg * a)) := by
  have hnew : ∀ i ∈ B, ∃ d, newDss S (x i) ((List.range n).map (fun i => x i • S.base))
      ⟨(κ i).share, (κ i).commits⟩ ⟨(ρ i).share, (ρ i).commits⟩ msg t = .ok d ∧ d.index = i :=
    fun i hi => newDss_at S n x hnd i (hBn i hi) _ _ msg _
  have hlen : ((List.range n).map (fun i => x i • S.base)).length ≤ q := by
    rw [List.length_map, List.length_range]; exact hn
  generalize (List.range n).map (fun i => x i • S.base) = pubs at hnew hlen ⊢
  have : Nonempty (DSS F G) := ⟨⟨0, 0, 0, [], 0, ⟨⟨0, 0⟩, []⟩, ⟨⟨0, 0⟩, []⟩, [], [], [], false, []⟩⟩
  choose! ds hds hidx using hnew
  have hsig : ∀ i ∈ B, Signer S pubs (a :: as) (r :: rs) msg t (x i) (ds i) := by
    intro i hi
    refine ⟨(κ i).share, (ρ i).share, ?_, ?_, ?_⟩
    · rw [← (hκ i hi).1, ← (hρ i hi).1]
      exact hds i hi
    · rw [hidx i hi, (hκ i hi).2]
    · rw [hidx i hi, (hρ i hi).2]
  refine ⟨ds, hds, ?_⟩
  intro i hi calls correct hcount hc ord
  refine C137_signature q ord S hS hB pubs hlen a r as rs t has hrs msg (x i) (ds i) (hsig i hi) calls correct hcount
    fun j hj => ?_
  obtain ⟨hjB, hj⟩ := hc j hj
  rcases hj with ⟨rfl, hk⟩ | ⟨k, ps, d', cs, hk, hps, hc⟩
  · exact Or.inl ⟨(hidx j hjB).symm, hk⟩
  · exact Or.inr ⟨ps, ⟨x j, k, ds j, d', cs, hsig j hjB, hidx j hjB, hk, hx j hjB, hps⟩, hc⟩

/-- C144: after any number of resharings, every holder opens a signing session with its newest key and any
nonce shared with the same threshold, and whichever messages arrive, any `f.length` correct holders lead to the
signature of the first secret. -/
theorem C144_signature (q : Nat) [CharP F q] (E : DkgP.DkgEnv F G) (hS : E.suite.Lawful) (hP : E.prims.Lawful)
    (hO : DkgP.PrimsOk E) (hB : ∀ s : F, s • E.suite.base = 0 → s = 0) (f0 : List F) (h0 : f0 ≠ [])
    (f : List F) (B : Finset Nat) (κ : Nat → DkgP.DistKeyShare F G) (h : Epochs q E f0 f B κ)
    (R : List F) (hR : R.length = f.length) (ρ : Nat → DkgP.DistKeyShare F G)
    (hρ : ∀ i ∈ B, HoldsOf E.suite R i (ρ i))
    (n : Nat) (x : Nat → F) (hnd : ((List.range n).map (fun i => x i • E.suite.base)).Nodup)
    (hx : ∀ i ∈ B, Usable E.suite (x i • E.suite.base)) (hn : n ≤ q) (hBn : ∀ i ∈ B, i < n) (msg : Bytes) :
    ∃ ds : Nat → DSS F G,
      (∀ i ∈ B, newDss E.suite (x i) ((List.range n).map (fun i => x i • E.suite.base))
        ⟨(κ i).share, (κ i).commits⟩ ⟨(ρ i).share, (ρ i).commits⟩ msg f.length = .ok (ds i)) ∧
      ∀ i ∈ B, ∀ (calls : List (DssCall F)) (correct : Finset Nat), f.length ≤ correct.card →
        (∀ j ∈ correct, j ∈ B ∧ ((j = i ∧ ∃ k, .own k ∈ calls) ∨
          ∃ (k : F) (ps : PartialSig F) (d' : DSS F G) (theirs : List (DssCall F)), Usable E.suite (k • E.suite.base) ∧
            partialSig E.suite k (dssRun E.suite (ds j) theirs) = .ok (ps, d') ∧ .recv ps ∈ calls)) →
        ∀ ord, signature E.suite ord (dssRun E.suite (ds i) calls) =
          .ok (E.suite.encG (R.getD 0 0 • E.suite.base) ++ E.suite.encS (R.getD 0 0 +
            dssChallenge E.suite (R.getD 0 0 • E.suite.base) (f0.getD 0 0 • E.suite.base) msg * f0.getD 0 0)) := by
  obtain ⟨hf, hhead, hhold⟩ := C143_epochs q E hS hP hO f0 h0 f B κ h
  obtain ⟨a, as, rfl⟩ : ∃ a as, f = a :: as := List.exists_cons_of_ne_nil hf
  obtain ⟨r, rs, rfl⟩ : ∃ r rs, R = r :: rs := by
    cases R with
    | nil => cases hR
    | cons r rs => exact ⟨r, rs, rfl⟩
  have ha : f0.getD 0 0 = a := hhead.symm
  rw [ha]
  exact C144_holders q E.suite hS hB a r as rs _ rfl hR B κ ρ (fun i hi => (hhold i hi).1) hρ n x hnd hx hn hBn msg

/-! ## A case

The toy key of `qepochs` (secret 1, reshared from three holders to two), nonce 4, signers 0 and 1 of three. -/

namespace DssEpochsExample

open Kyber.Toy

/-- The nonce shares. -/
def nonce (i : Nat) : DkgP.DistKeyShare (ZMod 11) (ZMod 11) := ⟨[8, 2], ⟨i, [5, 6].getD i 0⟩, []⟩

/-- The keys of the participants. -/
def keys (i : Nat) : ZMod 11 := ((5 + i : Nat) : ZMod 11)

example : ∃ (κ : Nat → DkgP.DistKeyShare (ZMod 11) (ZMod 11)) (ds : Nat → DSS (ZMod 11) (ZMod 11)),
    Epochs 11 envDI [1, 4] [1, 10] {0, 1} κ ∧
    (∀ i ∈ ({0, 1} : Finset Nat), newDss envDI.suite (keys i) [10, 1, 3] ⟨(κ i).share, (κ i).commits⟩
      ⟨(nonce i).share, (nonce i).commits⟩ [1] 2 = .ok (ds i)) ∧
    ∀ ps d', partialSig envDI.suite 1 (ds 1) = .ok (ps, d') →
      signature envDI.suite MapOrder.rev (dssRun envDI.suite (ds 0) [.recv LiveExample.junk, .own 1, .recv ps]) =
      .ok (enc 8 ++ enc (4 + dssChallenge suite 8 2 [1] * 1)) := by
  obtain ⟨κ, h⟩ := DkgPExample.qepochs
  obtain ⟨ds, h1, h2⟩ := C144_signature 11 envDI envDI_lawful DkgPExample.envDI_ok.1
    DkgPExample.envDI_ok.2.2 (by decide +kernel) [1, 4]
    (by decide) _ _ κ h [4, 1] rfl nonce
    (by
      intro i hi
      obtain rfl | rfl : i = 0 ∨ i = 1 := by simpa using hi
      · exact ⟨by decide +kernel, rfl⟩
      · exact ⟨by decide +kernel, rfl⟩)
    3 keys (by decide +kernel) (by unfold Usable; decide +kernel) (by decide) (by decide) [1]
  refine ⟨κ, ds, h, h1, fun ps d' hps => ?_⟩
  refine (h2 0 (by decide) _ {0, 1} (by decide) ?_ MapOrder.rev).trans (by decide +kernel)
  intro j hj
  obtain rfl | rfl : j = 0 ∨ j = 1 := by simpa using hj
  · exact ⟨by decide, Or.inl ⟨rfl, 1, by simp⟩⟩
  · exact ⟨by decide, Or.inr ⟨1, ps, d', [], by unfold Usable; decide +kernel, hps, by simp⟩⟩

/-- Shares of the key `3 + 7 X`. -/
def longKey (i : Nat) : DkgP.DistKeyShare (ZMod 11) (ZMod 11) := ⟨[6, 3], ⟨i, [10, 6].getD i 0⟩, []⟩

/-- `C144_holders`: two of three participants hold shares of `3 + 7 X` and of the nonce `4 + X`. -/
example : ∃ ds : Nat → DSS (ZMod 11) (ZMod 11),
    (∀ i ∈ ({0, 1} : Finset Nat), newDss envDI.suite (keys i) [10, 1, 3] ⟨(longKey i).share, (longKey i).commits⟩
      ⟨(nonce i).share, (nonce i).commits⟩ [1] 2 = .ok (ds i)) ∧
    ∀ ps d', partialSig envDI.suite 1 (ds 1) = .ok (ps, d') →
      signature envDI.suite MapOrder.rev (dssRun envDI.suite (ds 0) [.recv LiveExample.junk, .own 1, .recv ps]) =
      .ok (enc 8 ++ enc (4 + dssChallenge suite 8 6 [1] * 3)) := by
  obtain ⟨ds, h1, h2⟩ := C144_holders 11 envDI.suite envDI_lawful (by decide +kernel) 3 4 [7] [1] 2 rfl rfl {0, 1} longKey
    nonce
    (by
      intro i hi
      obtain rfl | rfl : i = 0 ∨ i = 1 := by simpa using hi
      · exact ⟨by decide +kernel, rfl⟩
      · exact ⟨by decide +kernel, rfl⟩)
    (by
      intro i hi
      obtain rfl | rfl : i = 0 ∨ i = 1 := by simpa using hi
      · exact ⟨by decide +kernel, rfl⟩
      · exact ⟨by decide +kernel, rfl⟩)
    3 keys (by decide +kernel) (by unfold Usable; decide +kernel) (by decide) (by decide) [1]
  refine ⟨ds, h1, fun ps d' hps => ?_⟩
  refine (h2 0 (by decide) _ {0, 1} (by decide) ?_ MapOrder.rev).trans (by decide +kernel)
  intro j hj
  obtain rfl | rfl : j = 0 ∨ j = 1 := by simpa using hj
  · exact ⟨by decide, Or.inl ⟨rfl, 1, by simp⟩⟩
  · exact ⟨by decide, Or.inr ⟨1, ps, d', [], by unfold Usable; decide +kernel, hps, by simp⟩⟩

end DssEpochsExample

end Kyber.Props

namespace Kyber.Ed

open Kyber Kyber.ModInt Kyber.Poly Kyber.Spec Kyber.Props Kyber.Dss

/-- C144 on edwards25519: the bytes are those of the EdDSA signature of the first secret; RFC 8032 accepts them under
the public key that the holders of every period give, and the library does unless it refuses one of the points. -/
theorem C144_edwards25519 (sha hash : Bytes → Bytes) (E : DkgP.DkgEnv (ZMod L) EdPt)
    (hE : E.suite = edSuite sha hash) (hP : E.prims.Lawful) (hO : DkgP.PrimsOk E)
    (f0 : List (ZMod L)) (h0 : f0 ≠ []) (f : List (ZMod L)) (B : Finset Nat)
    (κ : Nat → DkgP.DistKeyShare (ZMod L) EdPt) (h : Epochs L E f0 f B κ)
    (R : List (ZMod L)) (hR : R.length = f.length) (ρ : Nat → DkgP.DistKeyShare (ZMod L) EdPt)
    (hρ : ∀ i ∈ B, HoldsOf E.suite R i (ρ i)) (n : Nat) (x : Nat → ZMod L)
    (hinj : ∀ i < n, ∀ j < n, x i = x j → i = j) (hx : ∀ i ∈ B, Accepted (x i • basePt)) (hn : n ≤ L)
    (hBn : ∀ i ∈ B, i < n) (msg : Bytes) (a r : ZMod L) (ha : f0.getD 0 0 = a) (hr : R.getD 0 0 = r) :
    ∃ ds : Nat → DSS (ZMod L) EdPt,
      (∀ i ∈ B, (κ i).publicKey = .ok (a • basePt) ∧
        newDss E.suite (x i) ((List.range n).map (fun i => x i • basePt))
          ⟨(κ i).share, (κ i).commits⟩ ⟨(ρ i).share, (ρ i).commits⟩ msg f.length = .ok (ds i)) ∧
      ∀ i ∈ B, ∀ (calls : List (DssCall (ZMod L))) (correct : Finset Nat), f.length ≤ correct.card →
        (∀ j ∈ correct, j ∈ B ∧ ((j = i ∧ ∃ k, .own k ∈ calls) ∨
          ∃ (k : ZMod L) (ps : PartialSig (ZMod L)) (d' : DSS (ZMod L) EdPt) (theirs : List (DssCall (ZMod L))),
            Accepted (k • basePt) ∧ partialSig E.suite k (dssRun E.suite (ds j) theirs) = .ok (ps, d') ∧
            .recv ps ∈ calls)) →
        ∀ ord, ∃ sig, signature E.suite ord (dssRun E.suite (ds i) calls) = .ok sig ∧
          sig = ptEnc (r • basePt) ++ leBytes 32 ((r.val + a.val *
            leNat (sha (ptEnc (r • basePt) ++ ptEnc (a • basePt) ++ msg))) % L) ∧
          Rfc8032.Verifies sha 1 (ptEnc (a • basePt)) msg sig ∧
          (eddsaVerify sha (ptEnc (a • basePt)) msg sig = .ok () ↔
            Accepted (r • basePt) ∧ Accepted (a • basePt)) := by
  have hS : E.suite.Lawful := hE ▸ edSuite_lawful sha hash
  have hb : E.suite.base = basePt := by rw [hE]; rfl
  obtain ⟨ds, h1, h2⟩ := C144_signature L E hS hP hO
    (fun s h => by
      rw [hb] at h
      exact base_inj (a := s) (b := 0) (h.trans (lin_of_order L_smul_base).zero.symm))
    f0 h0 f B κ h R hR ρ hρ n x (by rw [hb]; exact pubs_nodup hinj)
    (fun i hi => by rw [hb, hE]; exact (usable_iff sha hash _).2 (hx i hi)) hn hBn msg
  rw [hb] at h1
  subst ha hr
  refine ⟨ds, fun i hi => ⟨?_, h1 i hi⟩, fun i hi calls correct hc hcorr ord => ?_⟩
  · rw [← hb]
    exact ((C143_epochs L E hS hP hO f0 h0 f B κ h).2.2 i hi).2
  · have h3 := h2 i hi calls correct hc (fun j hj => by
      obtain ⟨hjn, hj⟩ := hcorr j hj
      refine ⟨hjn, hj.imp_right ?_⟩
      rintro ⟨k, ps, d', cs, hk, hps, hin⟩
      exact ⟨k, ps, d', cs, by rw [hb, hE]; exact (usable_iff sha hash _).2 hk, hps, hin⟩) ord
    rw [hb] at h3
    have h4 := h3.trans (congrArg Res.ok ((congrArg (fun T : Suite (ZMod L) EdPt => T.encG _ ++ T.encS (_ +
      dssChallenge T _ _ msg * _)) hE).trans (sig_bytes sha hash _ _ msg)))
    refine ⟨_, h4, rfl, ?_, ?_⟩
    · exact rfc_verifies sha _ _ msg
    · rw [eddsaVerify_iff]
      exact sigOk_iff sha _ _ msg

/-- The hypotheses are met: the key that two participants generate and reshare among themselves (`two_epochs`), nonce 1;
participant 1 signs, its partial signature and junk reach participant 0, which signs as well. -/
example (sha hash : Bytes → Bytes) (hh : ∀ b, (hash b).length < 2 ^ 64) (junk : PartialSig (ZMod L)) (msg : Bytes) :
    ∃ (E : DkgP.DkgEnv (ZMod L) EdPt) (d e : DSS (ZMod L) EdPt) (ps : PartialSig (ZMod L)) (a : ZMod L) (sig : Bytes)
      (f0 f : List (ZMod L)) (κ : Nat → DkgP.DistKeyShare (ZMod L) EdPt),
      E.suite = edSuite sha hash ∧ Epochs L E f0 f {0, 1} κ ∧ f0.getD 0 0 = a ∧ d.long = ⟨(κ 0).share, (κ 0).commits⟩ ∧
      e.long = ⟨(κ 1).share, (κ 1).commits⟩ ∧ (∃ d', partialSig E.suite 1 e = .ok (ps, d')) ∧
      signature E.suite MapOrder.rev (dssRun E.suite d [.recv junk, .recv ps, .recv junk, .own 1]) = .ok sig ∧
      Rfc8032.Verifies sha 1 (ptEnc (a • basePt)) msg sig := by
  obtain ⟨rep, E, N, κ0, κ, f, -, h2, -, h4, h5, -, h7, -, -, ⟨N', -, hf, -⟩, h10⟩ :=
    EpochsExample.two_epochs sha hash hh
  have hne : sumPoly N N.t ≠ [] := by
    intro he
    have := congrArg List.length he
    rw [show (sumPoly N N.t).length = N.t by simp [sumPoly]] at this
    exact h7 this
  have hl : f.length = 2 := by rw [hf, newPolyOn_length]
  obtain ⟨ds, k1, k2⟩ := C144_edwards25519 sha hash E h2 h4 h5 _ hne f {0, 1} κ h10 [1, 1] hl.symm
    (fun i => ⟨[1, 1].map (fun a => a • E.suite.base), ⟨i, polyVal [1, 1] ((i + 1 : Nat) : ZMod L)⟩, []⟩)
    (fun _ _ => ⟨rfl, rfl⟩) 2 RunsExample.key RunsExample.key_inj (fun i _ => RunsExample.accepted_key i)
    (by decide +kernel) (by decide) msg _ _ rfl rfl
  obtain ⟨p0, e0⟩ := k1 0 (by decide)
  obtain ⟨p1, e1⟩ := k1 1 (by decide)
  obtain ⟨-, -, -, -, g5, -⟩ := newDss_fields _ _ _ _ _ _ _ _ e0
  obtain ⟨-, -, -, -, g5', g6', -⟩ := newDss_fields _ _ _ _ _ _ _ _ e1
  have hok : ∃ r, partialSig E.suite 1 (ds 1) = .ok r := by
    have hc : ∃ P, (κ 1).commits.head? = some P := by
      unfold DkgP.DistKeyShare.publicKey at p1
      cases hc : (κ 1).commits with
      | nil => rw [hc] at p1; cases p1
      | cons P l => exact ⟨P, rfl⟩
    obtain ⟨P, hP⟩ := hc
    unfold partialSig hashSig
    rw [g5', g6']
    simp only [hP, List.map_cons, List.head?_cons, Res.unwrap_some, Res.bind_ok]
    split <;> exact ⟨_, rfl⟩
  obtain ⟨⟨ps, d'⟩, hps⟩ := hok
  obtain ⟨sig, s1, -, s3, -⟩ := k2 0 (by decide) [.recv junk, .recv ps, .recv junk, .own 1] {0, 1} (by rw [hl]; decide)
    (by
      intro j hj
      obtain rfl | rfl : j = 0 ∨ j = 1 := by simpa using hj
      · exact ⟨by decide, Or.inl ⟨rfl, 1, by simp⟩⟩
      · exact ⟨by decide, Or.inr ⟨1, ps, d', [], RunsExample.accepted_one, hps, by simp⟩⟩) MapOrder.rev
  exact ⟨E, ds 0, ds 1, ps, _, sig, _, f, κ, h2, h10, rfl, g5, g5', ⟨d', hps⟩, s1, s3⟩

end Kyber.Ed
