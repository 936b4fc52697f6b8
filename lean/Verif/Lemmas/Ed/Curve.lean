/-
The twisted Edwards curve `-x² + y² = 1 + d x² y²` over the field of `2^255 - 19` elements: the
addition law has no exceptions and makes the points a commutative group.
-/
import Verif.Lemmas.Ed.Fe
import Mathlib.Tactic.FieldSimp
import Mathlib.Tactic.LinearCombination

namespace Kyber.Ed

section Generic

variable {K : Type} [Field K] {d : K}

/-- The point `(x, y)` lies on the curve. -/
def On (d x y : K) : Prop := y ^ 2 - x ^ 2 = 1 + d * x ^ 2 * y ^ 2

/-- The denominators of the addition law never vanish, if `-1` is a square and `d` is not. -/
theorem den_ne {i : K} (hi : i ^ 2 = -1) (h2 : (2 : K) ≠ 0) (hd : ¬ ∃ s, s ^ 2 = d) {x1 y1 x2 y2 e : K}
    (h1 : On d x1 y1) (h2' : On d x2 y2) (he : e ^ 2 = 1) : d * x1 * x2 * y1 * y2 ≠ e := by
  intro hc
  unfold On at h1 h2'
  have hne : x1 * y1 * (x2 * y2) ≠ 0 := by
    intro h0
    have : e = 0 := by rw [← hc]; linear_combination d * h0
    rw [this] at he
    norm_num at he
  have hx1 : x1 * y1 ≠ 0 := left_ne_zero_of_mul hne
  have hx2 : x2 * y2 ≠ 0 := right_ne_zero_of_mul hne
  have k1 : (i * x1 + e * y1) ^ 2 = d * (x1 * y1) ^ 2 * (i * x2 + y2) ^ 2 := by
    subst hc
    linear_combination (x1 ^ 2 - d * x1 ^ 2 * y1 ^ 2 * x2 ^ 2) * hi + (y1 ^ 2 - 1) * he + h1 - d * x1 ^ 2 * y1 ^ 2 * h2'
  have k2 : (i * x1 - e * y1) ^ 2 = d * (x1 * y1) ^ 2 * (i * x2 - y2) ^ 2 := by
    subst hc
    linear_combination (x1 ^ 2 - d * x1 ^ 2 * y1 ^ 2 * x2 ^ 2) * hi + (y1 ^ 2 - 1) * he + h1 - d * x1 ^ 2 * y1 ^ 2 * h2'
  have sq : ∀ a b : K, a ^ 2 = d * (x1 * y1) ^ 2 * b ^ 2 → b = 0 := by
    intro a b hab
    by_contra hb
    apply hd
    refine ⟨a / (x1 * y1 * b), ?_⟩
    rw [div_pow, hab, mul_pow (x1 * y1) b]
    have : (x1 * y1) ^ 2 * b ^ 2 ≠ 0 := mul_ne_zero (pow_ne_zero _ hx1) (pow_ne_zero _ hb)
    rw [mul_assoc, mul_div_assoc, div_self this, mul_one]
  have z1 := sq _ _ k1
  have z2 := sq _ _ k2
  have zy : y2 = 0 := by
    have : 2 * y2 = 0 := by linear_combination z1 - z2
    exact (mul_eq_zero.1 this).resolve_left h2
  exact hx2 (by rw [zy, mul_zero])

variable {x1 y1 x2 y2 x3 y3 : K}

/-- The sum of two points is on the curve. -/
theorem add_on (h1 : On d x1 y1) (h2 : On d x2 y2) (ha : 1 + d * x1 * x2 * y1 * y2 ≠ 0)
    (hb : 1 - d * x1 * x2 * y1 * y2 ≠ 0) :
    On d ((x1 * y2 + x2 * y1) / (1 + d * x1 * x2 * y1 * y2)) ((y1 * y2 + x1 * x2) / (1 - d * x1 * x2 * y1 * y2)) := by
  unfold On at *
  have key : (y1 * y2 + x1 * x2) ^ 2 * (1 + d * x1 * x2 * y1 * y2) ^ 2 -
      (x1 * y2 + x2 * y1) ^ 2 * (1 - d * x1 * x2 * y1 * y2) ^ 2 =
      (1 + d * x1 * x2 * y1 * y2) ^ 2 * (1 - d * x1 * x2 * y1 * y2) ^ 2 +
      d * (x1 * y2 + x2 * y1) ^ 2 * (y1 * y2 + x1 * x2) ^ 2 := by
    linear_combination
       (-(-1*y2^4 + 4*x2^2*y2^2 - 2*x2^2*y2^4 - 1*x2^4 + 2*x2^4*y2^2 + 2*d*x2^2*y2^2 + 2*d*x2^4*y2^4 +
        1*d*y1^2*x2^2*y2^4 - 1*d*y1^2*x2^4*y2^2 - 1*d*x1^2*x2^2*y2^4 + 1*d*x1^2*x2^4*y2^2 +
        1*d^2*x2^4*y2^4 - 1*d^2*y1^2*x2^4*y2^4 + 1*d^2*x1^2*x2^4*y2^4 - 1*d^3*x1^2*y1^2*x2^4*y2^4)) * h1
      + (-(-1 - 1*y2^2 + 1*x2^2 - 2*x2^2*y2^2 + 1*y1^2*y2^2 - 1*y1^2*x2^2 + 2*y1^2*x2^2*y2^2 - 1*x1^2*y2^2
        + 1*x1^2*x2^2 - 2*x1^2*x2^2*y2^2 - 1*d*x2^2*y2^2 + 2*d*y1^2*x2^2*y2^2 - 1*d*y1^4*x2^2*y2^2 -
        2*d*x1^2*x2^2*y2^2 - 1*d*x1^4*x2^2*y2^2)) * h2
  generalize x1 * y2 + x2 * y1 = X at *
  generalize y1 * y2 + x1 * x2 = Y at *
  generalize 1 + d * x1 * x2 * y1 * y2 = a at *
  generalize 1 - d * x1 * x2 * y1 * y2 = b at *
  field_simp
  linear_combination key

set_option maxHeartbeats 2000000 in
/-- The cross-multiplied associative law, `x` coordinate. -/
theorem assoc_x (h1 : On d x1 y1) (h2 : On d x2 y2) (h3 : On d x3 y3) :
    ((x1 * y2 + x2 * y1) * y3 * (1 - d * x1 * x2 * y1 * y2) + (y1 * y2 + x1 * x2) * x3 * (1 + d * x1 * x2 * y1 * y2)) *
      ((1 + d * x2 * x3 * y2 * y3) * (1 - d * x2 * x3 * y2 * y3) + d * x1 * y1 * (x2 * y3 + x3 * y2) * (y2 * y3 + x2 * x3)) =
    (x1 * (y2 * y3 + x2 * x3) * (1 + d * x2 * x3 * y2 * y3) + y1 * (x2 * y3 + x3 * y2) * (1 - d * x2 * x3 * y2 * y3)) *
      ((1 + d * x1 * x2 * y1 * y2) * (1 - d * x1 * x2 * y1 * y2) + d * (x1 * y2 + x2 * y1) * (y1 * y2 + x1 * x2) * x3 * y3) := by
  unfold On at *
  linear_combination
     (-(1*d*y1*x2*y2^4*x3^2*y3 + 1*d*y1*x2^2*y2^3*x3 + 1*d*y1*x2^2*y2^3*x3^3 + 1*d*y1*x2^3*y2^2*y3 -
      1*d*y1*x2^3*y2^2*y3^3 - 1*d*y1*x2^4*y2*x3*y3^2 - 1*d*x1*x2*y2^4*x3*y3^2 + 1*d*x1*x2^2*y2^3*y3 -
      1*d*x1*x2^2*y2^3*y3^3 + 1*d*x1*x2^3*y2^2*x3 + 1*d*x1*x2^3*y2^2*x3^3 + 1*d*x1*x2^4*y2*x3^2*y3 -
      1*d^2*y1*x2^3*y2^4*x3^2*y3 - 1*d^2*y1*x2^4*y2^3*x3*y3^2 + 1*d^2*x1*x2^3*y2^4*x3*y3^2 +
      1*d^2*x1*x2^4*y2^3*x3^2*y3)) * h1
    + (-(-1*y1*y2*x3 + 1*y1*y2*x3*y3^2 - 1*y1*y2*x3^3 - 1*y1*x2*y3 + 1*y1*x2*y3^3 - 1*y1*x2*x3^2*y3 +
      1*y1^3*y2*x3 - 1*y1^3*y2*x3*y3^2 + 1*y1^3*y2*x3^3 + 1*y1^3*x2*y3 - 1*y1^3*x2*y3^3 +
      1*y1^3*x2*x3^2*y3 - 1*x1*y2*y3 + 1*x1*y2*y3^3 - 1*x1*y2*x3^2*y3 - 1*x1*x2*x3 + 1*x1*x2*x3*y3^2 -
      1*x1*x2*x3^3 + 1*x1*y1^2*y2*y3 - 1*x1*y1^2*y2*y3^3 + 1*x1*y1^2*y2*x3^2*y3 + 1*x1*y1^2*x2*x3 -
      1*x1*y1^2*x2*x3*y3^2 + 1*x1*y1^2*x2*x3^3 - 1*x1^2*y1*y2*x3 + 1*x1^2*y1*y2*x3*y3^2 -
      1*x1^2*y1*y2*x3^3 - 1*x1^2*y1*x2*y3 + 1*x1^2*y1*x2*y3^3 - 1*x1^2*y1*x2*x3^2*y3 - 1*x1^3*y2*y3 +
      1*x1^3*y2*y3^3 - 1*x1^3*y2*x3^2*y3 - 1*x1^3*x2*x3 + 1*x1^3*x2*x3*y3^2 - 1*x1^3*x2*x3^3 -
      1*d*y1*y2*x3^3*y3^2 - 1*d*y1*x2*x3^2*y3^3 + 1*d*y1*x2*y2^2*x3^2*y3 + 1*d*y1*x2^2*y2*x3*y3^2 +
      1*d*y1^3*y2*x3^3*y3^2 + 1*d*y1^3*x2*x3^2*y3^3 - 1*d*y1^3*x2*y2^2*x3^2*y3 -
      1*d*y1^3*x2^2*y2*x3*y3^2 - 1*d*x1*y2*x3^2*y3^3 - 1*d*x1*x2*x3^3*y3^2 - 1*d*x1*x2*y2^2*x3*y3^2 -
      1*d*x1*x2^2*y2*x3^2*y3 + 1*d*x1*y1^2*y2*x3^2*y3^3 + 1*d*x1*y1^2*x2*x3^3*y3^2 +
      1*d*x1*y1^2*x2*y2^2*x3*y3^2 + 1*d*x1*y1^2*x2^2*y2*x3^2*y3 - 1*d*x1^2*y1*y2*x3^3*y3^2 -
      1*d*x1^2*y1*x2*x3^2*y3^3 + 1*d*x1^2*y1*x2*y2^2*x3^2*y3 + 1*d*x1^2*y1*x2^2*y2*x3*y3^2 -
      1*d*x1^3*y2*x3^2*y3^3 - 1*d*x1^3*x2*x3^3*y3^2 - 1*d*x1^3*x2*y2^2*x3*y3^2 -
      1*d*x1^3*x2^2*y2*x3^2*y3 - 1*d^2*x1*y1^2*x2*y2^2*x3^3*y3^2 + 1*d^2*x1*y1^2*x2^2*y2*x3^2*y3^3 +
      1*d^2*x1^2*y1*x2*y2^2*x3^2*y3^3 - 1*d^2*x1^2*y1*x2^2*y2*x3^3*y3^2)) * h2
    + (-(1*y1*y2*x3 - 1*y1*y2^3*x3 + 1*y1*x2*y3 - 1*y1*x2*y2^2*y3 + 1*y1*x2^2*y2*x3 + 1*y1*x2^3*y3 -
      1*y1^3*y2*x3 + 1*y1^3*y2^3*x3 - 1*y1^3*x2*y3 + 1*y1^3*x2*y2^2*y3 - 1*y1^3*x2^2*y2*x3 -
      1*y1^3*x2^3*y3 + 1*x1*y2*y3 - 1*x1*y2^3*y3 + 1*x1*x2*x3 - 1*x1*x2*y2^2*x3 + 1*x1*x2^2*y2*y3 +
      1*x1*x2^3*x3 - 1*x1*y1^2*y2*y3 + 1*x1*y1^2*y2^3*y3 - 1*x1*y1^2*x2*x3 + 1*x1*y1^2*x2*y2^2*x3 -
      1*x1*y1^2*x2^2*y2*y3 - 1*x1*y1^2*x2^3*x3 + 1*x1^2*y1*y2*x3 - 1*x1^2*y1*y2^3*x3 + 1*x1^2*y1*x2*y3
      - 1*x1^2*y1*x2*y2^2*y3 + 1*x1^2*y1*x2^2*y2*x3 + 1*x1^2*y1*x2^3*y3 + 1*x1^3*y2*y3 -
      1*x1^3*y2^3*y3 + 1*x1^3*x2*x3 - 1*x1^3*x2*y2^2*x3 + 1*x1^3*x2^2*y2*y3 + 1*x1^3*x2^3*x3 +
      1*d*x1*y1^2*x2*y2^2*x3 - 1*d*x1*y1^2*x2^2*y2*y3 - 1*d*x1^2*y1*x2*y2^2*y3 +
      1*d*x1^2*y1*x2^2*y2*x3)) * h3

set_option maxHeartbeats 2000000 in
/-- The cross-multiplied associative law, `y` coordinate. -/
theorem assoc_y (h1 : On d x1 y1) (h2 : On d x2 y2) (h3 : On d x3 y3) :
    ((y1 * y2 + x1 * x2) * y3 * (1 + d * x1 * x2 * y1 * y2) + (x1 * y2 + x2 * y1) * x3 * (1 - d * x1 * x2 * y1 * y2)) *
      ((1 + d * x2 * x3 * y2 * y3) * (1 - d * x2 * x3 * y2 * y3) - d * x1 * y1 * (x2 * y3 + x3 * y2) * (y2 * y3 + x2 * x3)) =
    (y1 * (y2 * y3 + x2 * x3) * (1 + d * x2 * x3 * y2 * y3) + x1 * (x2 * y3 + x3 * y2) * (1 - d * x2 * x3 * y2 * y3)) *
      ((1 + d * x1 * x2 * y1 * y2) * (1 - d * x1 * x2 * y1 * y2) - d * (x1 * y2 + x2 * y1) * (y1 * y2 + x1 * x2) * x3 * y3) := by
  unfold On at *
  linear_combination
     (-(-1*d*y1*x2*y2^4*x3*y3^2 + 1*d*y1*x2^2*y2^3*y3 - 1*d*y1*x2^2*y2^3*y3^3 + 1*d*y1*x2^3*y2^2*x3 +
      1*d*y1*x2^3*y2^2*x3^3 + 1*d*y1*x2^4*y2*x3^2*y3 + 1*d*x1*x2*y2^4*x3^2*y3 + 1*d*x1*x2^2*y2^3*x3 +
      1*d*x1*x2^2*y2^3*x3^3 + 1*d*x1*x2^3*y2^2*y3 - 1*d*x1*x2^3*y2^2*y3^3 - 1*d*x1*x2^4*y2*x3*y3^2 +
      1*d^2*y1*x2^3*y2^4*x3*y3^2 + 1*d^2*y1*x2^4*y2^3*x3^2*y3 - 1*d^2*x1*x2^3*y2^4*x3^2*y3 -
      1*d^2*x1*x2^4*y2^3*x3*y3^2)) * h1
    + (-(-1*y1*y2*y3 + 1*y1*y2*y3^3 - 1*y1*y2*x3^2*y3 - 1*y1*x2*x3 + 1*y1*x2*x3*y3^2 - 1*y1*x2*x3^3 +
      1*y1^3*y2*y3 - 1*y1^3*y2*y3^3 + 1*y1^3*y2*x3^2*y3 + 1*y1^3*x2*x3 - 1*y1^3*x2*x3*y3^2 +
      1*y1^3*x2*x3^3 - 1*x1*y2*x3 + 1*x1*y2*x3*y3^2 - 1*x1*y2*x3^3 - 1*x1*x2*y3 + 1*x1*x2*y3^3 -
      1*x1*x2*x3^2*y3 + 1*x1*y1^2*y2*x3 - 1*x1*y1^2*y2*x3*y3^2 + 1*x1*y1^2*y2*x3^3 + 1*x1*y1^2*x2*y3 -
      1*x1*y1^2*x2*y3^3 + 1*x1*y1^2*x2*x3^2*y3 - 1*x1^2*y1*y2*y3 + 1*x1^2*y1*y2*y3^3 -
      1*x1^2*y1*y2*x3^2*y3 - 1*x1^2*y1*x2*x3 + 1*x1^2*y1*x2*x3*y3^2 - 1*x1^2*y1*x2*x3^3 - 1*x1^3*y2*x3
      + 1*x1^3*y2*x3*y3^2 - 1*x1^3*y2*x3^3 - 1*x1^3*x2*y3 + 1*x1^3*x2*y3^3 - 1*x1^3*x2*x3^2*y3 -
      1*d*y1*y2*x3^2*y3^3 - 1*d*y1*x2*x3^3*y3^2 - 1*d*y1*x2*y2^2*x3*y3^2 - 1*d*y1*x2^2*y2*x3^2*y3 +
      1*d*y1^3*y2*x3^2*y3^3 + 1*d*y1^3*x2*x3^3*y3^2 + 1*d*y1^3*x2*y2^2*x3*y3^2 +
      1*d*y1^3*x2^2*y2*x3^2*y3 - 1*d*x1*y2*x3^3*y3^2 - 1*d*x1*x2*x3^2*y3^3 + 1*d*x1*x2*y2^2*x3^2*y3 +
      1*d*x1*x2^2*y2*x3*y3^2 + 1*d*x1*y1^2*y2*x3^3*y3^2 + 1*d*x1*y1^2*x2*x3^2*y3^3 -
      1*d*x1*y1^2*x2*y2^2*x3^2*y3 - 1*d*x1*y1^2*x2^2*y2*x3*y3^2 - 1*d*x1^2*y1*y2*x3^2*y3^3 -
      1*d*x1^2*y1*x2*x3^3*y3^2 - 1*d*x1^2*y1*x2*y2^2*x3*y3^2 - 1*d*x1^2*y1*x2^2*y2*x3^2*y3 -
      1*d*x1^3*y2*x3^3*y3^2 - 1*d*x1^3*x2*x3^2*y3^3 + 1*d*x1^3*x2*y2^2*x3^2*y3 +
      1*d*x1^3*x2^2*y2*x3*y3^2 - 1*d^2*x1*y1^2*x2*y2^2*x3^2*y3^3 + 1*d^2*x1*y1^2*x2^2*y2*x3^3*y3^2 +
      1*d^2*x1^2*y1*x2*y2^2*x3^3*y3^2 - 1*d^2*x1^2*y1*x2^2*y2*x3^2*y3^3)) * h2
    + (-(1*y1*y2*y3 - 1*y1*y2^3*y3 + 1*y1*x2*x3 - 1*y1*x2*y2^2*x3 + 1*y1*x2^2*y2*y3 + 1*y1*x2^3*x3 -
      1*y1^3*y2*y3 + 1*y1^3*y2^3*y3 - 1*y1^3*x2*x3 + 1*y1^3*x2*y2^2*x3 - 1*y1^3*x2^2*y2*y3 -
      1*y1^3*x2^3*x3 + 1*x1*y2*x3 - 1*x1*y2^3*x3 + 1*x1*x2*y3 - 1*x1*x2*y2^2*y3 + 1*x1*x2^2*y2*x3 +
      1*x1*x2^3*y3 - 1*x1*y1^2*y2*x3 + 1*x1*y1^2*y2^3*x3 - 1*x1*y1^2*x2*y3 + 1*x1*y1^2*x2*y2^2*y3 -
      1*x1*y1^2*x2^2*y2*x3 - 1*x1*y1^2*x2^3*y3 + 1*x1^2*y1*y2*y3 - 1*x1^2*y1*y2^3*y3 + 1*x1^2*y1*x2*x3
      - 1*x1^2*y1*x2*y2^2*x3 + 1*x1^2*y1*x2^2*y2*y3 + 1*x1^2*y1*x2^3*x3 + 1*x1^3*y2*x3 -
      1*x1^3*y2^3*x3 + 1*x1^3*x2*y3 - 1*x1^3*x2*y2^2*y3 + 1*x1^3*x2^2*y2*x3 + 1*x1^3*x2^3*y3 +
      1*d*x1*y1^2*x2*y2^2*y3 - 1*d*x1*y1^2*x2^2*y2*x3 - 1*d*x1^2*y1*x2*y2^2*x3 +
      1*d*x1^2*y1*x2^2*y2*y3)) * h3

end Generic

end Kyber.Ed
