/-
The binary form of the scalars and points that the protocol models work with on edwards25519: integers
modulo `L` and points of the curve. Written are the 32 bytes of the reduced scalar and the coordinates
of the point, any that represent it: which ones the code holds depends on how the point was computed
(`C103`), and here one choice `rep` stands for all of them. Simplified: coordinates that are not those of
a point of the curve are refused, where the code accepts them (`C98`).
-/
import Verif.Spec.Ed.Suite
import Verif.Model.Ed.Bincode

namespace Kyber.Ed

open Kyber Kyber.ModInt

/-- `Scalar`, scalar.rs:23-26. -/
noncomputable def binZ : Bin (ZMod L) where
  ser s := binScalar.ser (leBytes 32 s.val)
  de b := (binScalar.de b).map (fun x => (((leNat x.1 : Nat) : ZMod L), x.2))

/-- `Point`, point.rs:22-27. -/
noncomputable def binEd (rep : EdPt → Pt) : Bin EdPt where
  ser p := binPoint.ser (rep p)
  de b := do
    let (q, r) ← binPoint.de b
    let p ← extPt q.ge
    some (p, r)

end Kyber.Ed
