/-
The group of points of edwards25519.
-/
import Verif.Lemmas.Ed.Curve
import Verif.Lemmas.Ed.FeBytes
import Mathlib.Algebra.Group.Defs

namespace Kyber.Ed

/-- `d = -121665/121666`, see `dC_eq`. -/
def dN : Nat := 37095705934669439343138083508754565189542113879843219016388785533085940283555

/-- A square root of -1. -/
def iN : Nat := 19681161376707505956807079304988542015446066515923890162744021073123829784752

def dC : Fp := (dN : Fp)
def iC : Fp := (iN : Fp)

theorem cast_eq_zero_of {n : Nat} (h : n % P = 0) : (n : Fp) = 0 := by
  rw [ZMod.natCast_eq_zero_iff]
  exact Nat.dvd_of_mod_eq_zero h

theorem dC_eq : 121666 * dC = -121665 := by
  have h : ((121666 * dN + 121665 : Nat) : Fp) = 0 := cast_eq_zero_of (by decide +kernel)
  push_cast at h
  unfold dC
  linear_combination h

theorem iC_sq : iC ^ 2 = -1 := by
  have h : ((iN ^ 2 + 1 : Nat) : Fp) = 0 := cast_eq_zero_of (by decide +kernel)
  push_cast at h
  unfold iC
  linear_combination h

theorem two_ne : (2 : Fp) ≠ 0 := by
  intro h
  have : ((2 : Nat) : Fp) = 0 := by exact_mod_cast h
  rw [ZMod.natCast_eq_zero_iff] at this
  revert this
  decide +kernel

theorem dC_pow : dC ^ ((P - 1) / 2) ≠ 1 := by
  intro h
  have h1 : ((dN ^ ((P - 1) / 2) : Nat) : Fp) = ((1 : Nat) : Fp) := by
    push_cast
    exact h
  rw [ZMod.natCast_eq_natCast_iff'] at h1
  rw [← powMod_eq P 256 dN _ (by decide +kernel)] at h1
  revert h1
  decide +kernel

theorem dC_nonsq : ¬ ∃ s, s ^ 2 = dC := by
  rintro ⟨s, hs⟩
  apply dC_pow
  have h0 : s ≠ 0 := by
    rintro rfl
    apply two_ne
    have hd0 : dC = 0 := by rw [← hs]; ring
    have := dC_eq
    rw [hd0, mul_zero] at this
    have h5 : ((121665 : Nat) : Fp) = 0 := by push_cast; linear_combination this
    rw [ZMod.natCast_eq_zero_iff] at h5
    exact absurd h5 (by decide +kernel)
  rw [← hs, ← pow_mul, show 2 * ((P - 1) / 2) = P - 1 by decide +kernel]
  exact ZMod.pow_card_sub_one_eq_one h0

/-- A point of the curve, in affine coordinates. -/
@[ext] structure EdPt where
  x : Fp
  y : Fp
  on : On dC x y

theorem den_plus {x1 y1 x2 y2 : Fp} (h1 : On dC x1 y1) (h2 : On dC x2 y2) : 1 + dC * x1 * x2 * y1 * y2 ≠ 0 := by
  intro h
  exact den_ne iC_sq two_ne dC_nonsq h1 h2 (e := -1) (by ring) (by linear_combination h)

theorem den_minus {x1 y1 x2 y2 : Fp} (h1 : On dC x1 y1) (h2 : On dC x2 y2) : 1 - dC * x1 * x2 * y1 * y2 ≠ 0 := by
  intro h
  exact den_ne iC_sq two_ne dC_nonsq h1 h2 (e := 1) (by ring) (by linear_combination -h)

instance : Zero EdPt := ⟨⟨0, 1, by unfold On; ring⟩⟩

instance : Neg EdPt := ⟨fun p => ⟨-p.x, p.y, by have := p.on; unfold On at *; linear_combination this⟩⟩

instance : Add EdPt := ⟨fun p q =>
  ⟨(p.x * q.y + q.x * p.y) / (1 + dC * p.x * q.x * p.y * q.y), (p.y * q.y + p.x * q.x) / (1 - dC * p.x * q.x * p.y * q.y),
    add_on p.on q.on (den_plus p.on q.on) (den_minus p.on q.on)⟩⟩

theorem zero_x : (0 : EdPt).x = 0 := rfl
theorem zero_y : (0 : EdPt).y = 1 := rfl
theorem neg_x (p : EdPt) : (-p).x = -p.x := rfl
theorem neg_y (p : EdPt) : (-p).y = p.y := rfl
theorem add_x (p q : EdPt) : (p + q).x = (p.x * q.y + q.x * p.y) / (1 + dC * p.x * q.x * p.y * q.y) := rfl
theorem add_y (p q : EdPt) : (p + q).y = (p.y * q.y + p.x * q.x) / (1 - dC * p.x * q.x * p.y * q.y) := rfl

theorem ed_add_comm (p q : EdPt) : p + q = q + p := by
  ext
  · rw [add_x, add_x]
    congr 1 <;> ring
  · rw [add_y, add_y]
    congr 1 <;> ring

theorem ed_add_zero (p : EdPt) : p + 0 = p := by
  ext
  · rw [add_x, zero_x, zero_y]; ring_nf
  · rw [add_y, zero_x, zero_y]; ring_nf

theorem ed_neg_add (p : EdPt) : -p + p = 0 := by
  have hp := p.on
  have h1 := den_minus (-p).on p.on
  rw [neg_x, neg_y] at h1
  unfold On at hp
  ext
  · rw [add_x, neg_x, neg_y, zero_x, div_eq_zero_iff]
    left; ring
  · rw [add_y, neg_x, neg_y, zero_y, div_eq_one_iff_eq h1]
    linear_combination hp

theorem frac_x {a b X Y x y : Fp} (ha : a ≠ 0) (hb : b ≠ 0) :
    (X / a * y + x * (Y / b)) / (1 + dC * (X / a) * x * (Y / b) * y) =
      (X * y * b + Y * x * a) / (a * b + dC * X * Y * x * y) := by
  have e1 : X / a * y + x * (Y / b) = (X * y * b + Y * x * a) / (a * b) := by field_simp
  have e2 : 1 + dC * (X / a) * x * (Y / b) * y = (a * b + dC * X * Y * x * y) / (a * b) := by field_simp
  rw [e1, e2, div_div_div_cancel_right₀ (mul_ne_zero ha hb)]

theorem frac_y {a b X Y x y : Fp} (ha : a ≠ 0) (hb : b ≠ 0) :
    (Y / b * y + X / a * x) / (1 - dC * (X / a) * x * (Y / b) * y) =
      (Y * y * a + X * x * b) / (a * b - dC * X * Y * x * y) := by
  have e1 : Y / b * y + X / a * x = (Y * y * a + X * x * b) / (a * b) := by field_simp
  have e2 : 1 - dC * (X / a) * x * (Y / b) * y = (a * b - dC * X * Y * x * y) / (a * b) := by field_simp
  rw [e1, e2, div_div_div_cancel_right₀ (mul_ne_zero ha hb)]

theorem frac_den {a b X Y x y s : Fp} (ha : a ≠ 0) (hb : b ≠ 0) (h : 1 + s * (dC * (X / a) * x * (Y / b) * y) ≠ 0) :
    a * b + s * (dC * X * Y * x * y) ≠ 0 := by
  have e2 : 1 + s * (dC * (X / a) * x * (Y / b) * y) = (a * b + s * (dC * X * Y * x * y)) / (a * b) := by field_simp
  rw [e2] at h
  exact fun h0 => h (by rw [h0, zero_div])

theorem ed_add_assoc (p q r : EdPt) : p + q + r = p + (q + r) := by
  have a1 := den_plus p.on q.on
  have b1 := den_minus p.on q.on
  have a2 := den_plus q.on r.on
  have b2 := den_minus q.on r.on
  have a3 := den_plus (p + q).on r.on
  have b3 := den_minus (p + q).on r.on
  have a4 := den_plus (q + r).on p.on
  have b4 := den_minus (q + r).on p.on
  rw [ed_add_comm p (q + r)]
  rw [add_x, add_y] at a3 b3 a4 b4
  have c3 := frac_den (s := 1) a1 b1 (by rw [one_mul]; exact a3)
  have c3' := frac_den (s := -1) a1 b1 (by rw [neg_one_mul, ← sub_eq_add_neg]; exact b3)
  have c4 := frac_den (s := 1) a2 b2 (by rw [one_mul]; exact a4)
  have c4' := frac_den (s := -1) a2 b2 (by rw [neg_one_mul, ← sub_eq_add_neg]; exact b4)
  ext
  · rw [add_x (p + q), add_x (q + r), add_x, add_y, add_x, add_y, frac_x a1 b1, frac_x a2 b2,
      div_eq_div_iff (by intro h; apply c3; linear_combination h) (by intro h; apply c4; linear_combination h)]
    linear_combination assoc_x p.on q.on r.on
  · rw [add_y (p + q), add_y (q + r), add_x, add_y, add_x, add_y, frac_y a1 b1, frac_y a2 b2,
      div_eq_div_iff (by intro h; apply c3'; linear_combination h) (by intro h; apply c4'; linear_combination h)]
    linear_combination assoc_y p.on q.on r.on

instance : AddCommGroup EdPt where
  add_assoc := ed_add_assoc
  zero_add := fun p => by rw [ed_add_comm, ed_add_zero]
  add_zero := ed_add_zero
  nsmul := nsmulRec
  zsmul := zsmulRec
  neg_add_cancel := ed_neg_add
  add_comm := ed_add_comm

end Kyber.Ed
