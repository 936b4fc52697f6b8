/-
Specification vocabulary for secret sharing, independent of the code's algorithms.
-/
import Verif.Model.Poly
import Mathlib.Algebra.BigOperators.Group.Finset.Basic
import Mathlib.Algebra.Module.Defs

namespace Kyber.Spec

open Kyber.Poly

variable {F G α : Type} [Field F]

/-- The value at `x` of the polynomial with coefficients `cs` (constant term first):
`cs[0] + cs[1] x + cs[2] x^2 + ...`. -/
def polyVal (cs : List F) (x : F) : F := ∑ k ∈ Finset.range cs.length, cs.getD k 0 * x ^ k

/-- The same polynomial "in the exponent": `Cs[0] + x (Cs[1] + x (Cs[2] + ...))`, which in a vector space
is `Cs[0] + x Cs[1] + x^2 Cs[2] + ...` (`Poly.pointVal_eq_sum`). The definition makes sense for any action
of the scalars. -/
def pointVal [AddCommGroup G] [SMul F G] : List G → F → G
  | [], _ => 0
  | c :: Cs, x => c + x • pointVal Cs x

/-- All shares in the list are genuine: share `i` has the value of the polynomial at `i + 1`. -/
def Genuine (cs : List F) (shares : List (Option (Share F))) : Prop :=
  ∀ s, some s ∈ shares → s.v = polyVal cs ((s.i + 1 : Nat) : F)

/-- All public shares in the list are genuine: share `i` is `p(i + 1)` times the base point. -/
def GenuinePub [SMul F G] (cs : List F) (B : G)
    (shares : List (Option (Share G))) : Prop :=
  ∀ s, some s ∈ shares → s.v = polyVal cs ((s.i + 1 : Nat) : F) • B

/-- The set of indices occurring in a list of optional shares. -/
def indices (shares : List (Option (Share α))) : Finset Nat :=
  ((shares.filterMap _root_.id).map Share.i).toFinset

/-- No index occurs twice. -/
def DistinctIndices (shares : List (Option (Share α))) : Prop :=
  ((shares.filterMap _root_.id).map Share.i).Nodup

end Kyber.Spec
