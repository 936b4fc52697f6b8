/-
Specification vocabulary for resharing: which deals are used, and with which weights.
-/
import Verif.Spec.DkgPedersen
import Mathlib.Data.Finset.Card

namespace Kyber.Spec

open Kyber.Poly Kyber.VssP Kyber.DkgP

/-- The `t` smallest elements of a set. -/
def firstT (Q : Finset Nat) (t : Nat) : Finset Nat := Q.filter (fun i => (Q.filter (· < i)).card < t)

/-- The weight of share `i` in the interpolation at zero from the shares in `S`: the product of
`x_j / (x_j - x_i)` over the other indices, where share `i` belongs to `x_i = i + 1`. -/
def weight (F : Type) [Field F] (S : Finset Nat) (i : Nat) : F :=
  ∏ j ∈ S.erase i, (((j + 1 : Nat) : F) / (((j + 1 : Nat) : F) - ((i + 1 : Nat) : F)))

/-- The linear combination of commitments, coefficient by coefficient. -/
def combine {F G : Type} [Field F] [AddCommGroup G] [SMul F G] (S : Finset Nat) (C : Nat → List G)
    (len : Nat) : List G :=
  (List.range len).map (fun k => ∑ i ∈ S, weight F S i • (C i).getD k 0)

end Kyber.Spec
