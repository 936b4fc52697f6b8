/-
C154 on edwards25519.
-/
import Verif.Props.Kinds
import Verif.Props.EdRuns
import Verif.Spec.Ed.Codec

namespace Kyber.Ed

open Kyber Kyber.ModInt Kyber.Poly Kyber.Spec Kyber.Props Kyber.VssP

/-- C154 on edwards25519, with messages in their binary form and a hash of 32 bytes: a signature accepted for messages
of two kinds, neither the key of a deal, is a collision of the hash or of the challenges of the signature scheme. -/
theorem C154_edwards25519_partial (sha hash : Bytes → Bytes) (hh : ∀ b, (hash b).length = 32) (D : Dh.Prims)
    (pf : Bytes → EdPt) (rep : EdPt → Pt) (x : ZMod L) (hx : x ≠ 0) (a b : SignedMsg (ZMod L) EdPt) (ha : a.Sized)
    (hb : b.Sized) (ha' : a.kind ≠ .dealKey) (hb' : b.kind ≠ .dealKey) (hk : a.kind ≠ b.kind) (sig : Bytes)
    (h1 : Schnorr.verify (edSuite sha hash) (x • basePt) (a.msg (edSuite sha hash) D pf binZ (binEd rep)) sig = .ok ())
    (h2 : Schnorr.verify (edSuite sha hash) (x • basePt) (b.msg (edSuite sha hash) D pf binZ (binEd rep)) sig = .ok ()) :
    (∃ u v, a.input (edSuite sha hash) binZ (binEd rep) = some u ∧ b.input (edSuite sha hash) binZ (binEd rep) = some v ∧
      u ≠ v ∧ hash u = hash v) ∨
    (a.msg (edSuite sha hash) D pf binZ (binEd rep) ≠ b.msg (edSuite sha hash) D pf binZ (binEd rep) ∧
      ∃ R, edDec (sig.take 32) = some R ∧
        leNat (sha (ptEnc R ++ ptEnc (x • basePt) ++ a.msg (edSuite sha hash) D pf binZ (binEd rep))) % L =
          leNat (sha (ptEnc R ++ ptEnc (x • basePt) ++ b.msg (edSuite sha hash) D pf binZ (binEd rep))) % L) := by
  have hB : ∀ v : ZMod L, 0 < (binZ.ser v).length := by
    intro v
    show 0 < (leBytes 32 v.val).length
    rw [length_leBytes]
    norm_num
  have hB0 : ∀ s : ZMod L, s • (edSuite sha hash).base = 0 → s = 0 := by
    intro s h
    refine base_inj (h.trans ?_)
    rw [act_def, ZMod.val_zero, zero_smul]
  rcases C154_signature_partial (edSuite sha hash) (edSuite_lawful sha hash) hB0 D pf binZ (binEd rep) hh rfl hB
    x hx a b ha hb ha' hb' hk sig h1 h2 with h | ⟨hm, R, hR, he⟩
  · exact .inl h
  · exact .inr ⟨hm, R, hR, (ZMod.natCast_eq_natCast_iff' _ _ _).1 he⟩

theorem usable_one_smul (sha hash : Bytes → Bytes) : Usable (edSuite sha hash) ((1 : ZMod L) • basePt) := by
  rw [usable_iff, act_def, show (1 : ZMod L).val = 1 by decide +kernel, one_smul]
  exact RunsExample.accepted_base

/-- A hash that collides, and the signature by the key 1 with the nonce 1 of an approval is one of secret commitments. -/
example (sha : Bytes → Bytes) (D : Dh.Prims) (pf : Bytes → EdPt) (rep : EdPt → Pt) :=
  have u := usable_one_smul sha (fun _ => List.replicate 32 5)
  have h := C11_sign_verify _ (edSuite_lawful sha (fun _ => List.replicate 32 5)) 1 1 (List.replicate 32 5) u.1 u.2 u.1 u.2
  C154_edwards25519_partial sha (fun _ => List.replicate 32 5) (fun _ => rfl) D pf rep 1 one_ne_zero
    (.response ⟨List.replicate 32 8, 1, true, []⟩) (.secretCommits ⟨2, [basePt], [], []⟩) rfl trivial
    (fun h => nomatch h) (fun h => nomatch h) (fun h => nomatch h) _ h h

end Kyber.Ed
