/-
edwards25519 as the generic protocol code sees it: an instance of `Suite` built from the functions of
`Model/Ed`. The protocol models (`Model/Schnorr.lean`, `Model/Poly.lean`, `Model/VssPedersen.lean`, ...)
only ask for a type of points with addition and an action of the scalars. For the curve this action is
*not* that of a vector space, since the curve has points of order 2, 4 and 8: a scalar acts through its
representative in `[0, L)`, which is what `Point::mul` does with a reduced `Scalar`
(`Lemmas/Ed/Suite.lean`, `mul_model`).
-/
import Verif.Model.Ed.Sig
import Verif.Lemmas.Ed.Sig
import Verif.Lemmas.Ed.Order

namespace Kyber.Ed

open Kyber Kyber.ModInt

/-- `Point::mul` on reduced scalars, point.rs:207-226. -/
instance edAct : SMul (ZMod L) EdPt := ⟨fun a p => a.val • p⟩

noncomputable instance : DecidableEq EdPt := Classical.decEq _

/-- The point held by an `ExtendedGroupElement`, if it is one of the curve. -/
noncomputable def extPt (u : Ext) : Option EdPt :=
  letI := Classical.propDecidable (∃ p, u.Rep p)
  if h : ∃ p, u.Rep p then some h.choose else none

/-- `unmarshal_binary` into a fresh point. -/
noncomputable def edDec (b : Bytes) : Option EdPt :=
  match decodePt b with
  | .ok u => extPt u
  | _ => none

/-- `SuiteEd25519`, suite.rs, with SHA-512 and the suite's hash as parameters. -/
noncomputable def edSuite (sha hash : Bytes → Bytes) : Suite (ZMod L) EdPt where
  base := basePt
  encG := ptEnc
  decG := edDec
  encS s := leBytes 32 s.val
  decS b := if b.length = 32 then some ((leNat b : Nat) : ZMod L) else none
  canonG := ptIsCanonical
  canonS := scIsCanonical
  small p := letI := Classical.propDecidable (8 • p = 0); decide (8 • p = 0)
  pointLen := 32
  scalarLen := 32
  sha512 := sha
  setBytes d := ((leNat d : Nat) : ZMod L)
  hash := hash

end Kyber.Ed
