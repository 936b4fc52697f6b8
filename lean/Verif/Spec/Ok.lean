/-
A result known to be `ok`, for the examples.
-/
import Verif.Model.Basic

namespace Kyber.Res

theorem exists_ok {ε α : Type} {r : Res ε α} (h : (match r with | .ok _ => true | _ => false) = true) :
    ∃ a, r = .ok a := by
  cases r with
  | ok a => exact ⟨a, rfl⟩
  | err e => exact absurd h Bool.false_ne_true
  | panic => exact absurd h Bool.false_ne_true

end Kyber.Res
