/-
What theorems ask of a hash function: that it tells apart the inputs they name. A hash with digests of a fixed length is
not injective, so that injectivity, asked of all inputs, would be met by no suite in use.
-/
import Verif.Model.Suite

namespace Kyber.Spec

/-- The hash tells the inputs `x` and `y` apart: they are not a collision. -/
def Apart {F G : Type} (S : Suite F G) (x y : Bytes) : Prop := S.hash x = S.hash y → x = y

/-- Met by a hash that is not injective, on inputs with different digests. -/
example : Apart (F := Nat) (G := Nat) ⟨0, fun _ => [], fun _ => none, fun _ => [], fun _ => none, fun _ => true,
    fun _ => true, fun _ => true, 1, 1, id, fun _ => 0, fun b => b.take 1⟩ [1, 2] [3] := by
  unfold Apart; decide

end Kyber.Spec
