/-
C157 on edwards25519.
-/
import Verif.Props.EdRuns
import Verif.Props.RabinKeyChange

namespace Kyber.Ed

open Kyber Kyber.ModInt Kyber.Schnorr Kyber.Poly Kyber.Spec Kyber.Props

/-- C157 on edwards25519: all participants of a Rabin DKG were honest and participant `i` has its key. Whatever scalar
`τ` dealer `j` picks, it can sign commitments that participant `i` accepts, after which the public key of participant
`i` is `τ` times the base point, of which `τ` is the private key, and its share is the old one. -/
theorem C157_edwards25519 (sha hash : Bytes → Bytes) (E : VssR.Env (ZMod L) EdPt)
    (hE : E.suite = edSuite sha hash) (hP : E.prims.Lawful) (hH : ∀ b, Picked (E.pickFrom b))
    (hO : DkgR.PrimsOkR E) (N : RNet (ZMod L) EdPt) (h : RDkgOk E N)
    (hC : ∀ j < N.n, ∀ dl ∈ (N.D j).dealer.deals, E.codec.dec (E.codec.enc dl) = some dl)
    (hn : N.n < L) (z : ZMod L) (ord : MapOrder) (i : Nat) (hi : i < N.n) (s : List RMsg)
    (hs : RSchedule N.n i s) (hc : RComplete N.n i s) (j : Nat) (hj : j < N.n) (nonce : ZMod L)
    (hun : Accepted (nonce • basePt)) (τ : ZMod L) (ord' ord'' : MapOrder) (k1 : ZMod L) :
    ∃ k sc cm, (qRun E (N.D i) (s.map (RMsg.call E N z ord i))).distKeyShare ord' = .ok k ∧ sc.index = j ∧
      sc.signature = Schnorr.sign (edSuite sha hash) nonce (N.x j) (sc.hash (edSuite sha hash)) ∧
      ((qRun E (N.D i) (s.map (RMsg.call E N z ord i))).processSecretCommits E ord' sc k1).2 = .ok none ∧
      (qRun E (N.D i) (s.map (RMsg.call E N z ord i) ++ [.commits ord' sc k1])).distKeyShare ord'' =
        .ok ⟨(τ • basePt) :: cm, k.share⟩ := by
  have hS : E.suite.Lawful := hE ▸ edSuite_lawful sha hash
  have hb : E.suite.base = basePt := by rw [hE]; rfl
  have hi0 : ((i + 1 : Nat) : ZMod L) ≠ 0 := by
    rw [Ne, ZMod.natCast_eq_zero_iff]
    intro hd
    have := Nat.le_of_dvd (Nat.succ_pos i) hd
    omega
  have := C157_after_honest_run E hS hP (fun b => (hH b).lin) hO N (h.honest hE) hC z ord i hi s hs hc hi0 j hj nonce
    (by rw [hE]; exact (usable_iff sha hash _).2 hun) τ ord' ord'' k1
  rw [hb, hE] at this
  exact this

/-- The hypotheses of `C157_edwards25519` hold: of two participants, dealer 0 makes 9 the private key to the public key
of participant 1, who has finished. -/
example (sha hash : Bytes → Bytes) : ∃ (E : VssR.Env (ZMod L) EdPt) (d : DkgR.Dkg (ZMod L) EdPt)
    (sc : DkgR.SecretCommits EdPt) (k : DkgR.DistKeyShare (ZMod L) EdPt) (cm : List EdPt),
    d.distKeyShare MapOrder.id = .ok k ∧ (d.processSecretCommits E MapOrder.id sc 1).2 = .ok none ∧
    (d.processSecretCommits E MapOrder.id sc 1).1.distKeyShare MapOrder.id =
      .ok ⟨((9 : ZMod L) • basePt) :: cm, k.share⟩ := by
  obtain ⟨E, N, hE, hP, hH, hC, hO, h, -, hn, -, hs, hc⟩ := RunsExample.rnet_example sha hash
  obtain ⟨k, sc, cm, h1, -, -, h4, h5⟩ := C157_edwards25519 sha hash E hE hP hH hO N h (fun _ _ dl _ => hC dl)
    (by rw [hn]; decide +kernel) 1 MapOrder.id 1 (by omega) _ hs hc 0 (by omega) 1 (RunsExample.accepted_one) 9
    MapOrder.id MapOrder.id 1
  rw [RabinKeyChange.run_append] at h5
  exact ⟨E, _, sc, k, cm, h1, h4, h5⟩

end Kyber.Ed
