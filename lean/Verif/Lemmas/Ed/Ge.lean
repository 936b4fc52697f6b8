/-
The point formulas compute in the group of the curve.
-/
import Verif.Model.Ed.Ge
import Verif.Lemmas.Ed.Group

namespace Kyber.Ed

open Kyber Kyber.ModInt

theorem sumT {f g : Fe} (hf : Tight f) (hg : Tight g) :
    Mid (feAdd f g) ∧ feVal (feAdd f g) = feVal f + feVal g :=
  feAdd_gen hf hg (by decide) (by decide)

theorem diffT {f g : Fe} (hf : Tight f) (hg : Tight g) :
    Mid (feSub f g) ∧ feVal (feSub f g) = feVal f - feVal g :=
  feSub_gen hf hg (by decide) (by decide)

theorem sumML {f g : Fe} (hf : Mid f) (hg : Tight g) :
    Loose (feAdd f g) ∧ feVal (feAdd f g) = feVal f + feVal g :=
  feAdd_gen hf hg (by decide) (by decide)

theorem diffML {f g : Fe} (hf : Mid f) (hg : Tight g) :
    Loose (feSub f g) ∧ feVal (feSub f g) = feVal f - feVal g :=
  feSub_gen hf hg (by decide) (by decide)

theorem diffTM {f g : Fe} (hf : Tight f) (hg : Mid g) :
    Loose (feSub f g) ∧ feVal (feSub f g) = feVal f - feVal g :=
  feSub_gen hf hg (by decide) (by decide)

theorem sumTM {f g : Fe} (hf : Tight f) (hg : Mid g) :
    Loose (feAdd f g) ∧ feVal (feAdd f g) = feVal f + feVal g :=
  feAdd_gen hf hg (by decide) (by decide)

theorem negT {f : Fe} (hf : Tight f) : Tight (feNeg f) ∧ feVal (feNeg f) = -feVal f :=
  feNeg_gen hf (by decide) (by decide)

/-- Bounds of literal limbs. -/
theorem bdd_of_check {A : List Int} {f : Fe} (h : (f.length == 10 && (List.range 10).all
    (fun i => decide (|limb f i| ≤ A.getD i 0))) = true) (hA : ∀ i, 0 ≤ A.getD i 0) : Bdd A f := by
  simp only [Bool.and_eq_true, beq_iff_eq, List.all_eq_true, List.mem_range, decide_eq_true_eq] at h
  refine ⟨h.1, fun i => ?_⟩
  by_cases hi : i < 10
  · exact h.2 i hi
  · rw [limb_of_le (by omega)]
    simpa using hA i

theorem tightA_nonneg (i : Nat) : 0 ≤ tightA.getD i 0 := by
  by_cases hi : i < 10
  · revert i; decide
  · rw [getD_of_le _ _ (by simp [tightA]; omega)]

theorem tight_of_check {f : Fe} (h : (f.length == 10 && (List.range 10).all
    (fun i => decide (|limb f i| ≤ tightA.getD i 0))) = true) : Tight f :=
  bdd_of_check h tightA_nonneg

/-- The value of literal limbs. -/
theorem feVal_of_check {f : Fe} {n : Int} (h : (feInt f - n) % (P : Int) = 0) : feVal f = (n : Fp) := by
  rw [feVal_eq, ← sub_eq_zero, ← Int.cast_sub]
  exact (ZMod.intCast_zmod_eq_zero_iff_dvd _ _).2 (Int.dvd_of_emod_eq_zero h)

theorem feZero_spec : Tight feZero ∧ feVal feZero = 0 :=
  ⟨tight_of_check (by decide), by simp [feVal, feW, dot, feZero]⟩

theorem feOne_spec : Tight feOne ∧ feVal feOne = 1 :=
  ⟨tight_of_check (by decide), by simp [feVal, feW, dot, feOne]⟩

theorem feD_spec : Tight feD ∧ feVal feD = dC := by
  refine ⟨tight_of_check (by decide), ?_⟩
  rw [feVal_of_check (n := (dN : Int)) (by decide +kernel), Int.cast_natCast]; rfl

theorem feD2_spec : Tight feD2 ∧ feVal feD2 = 2 * dC := by
  refine ⟨tight_of_check (by decide), ?_⟩
  rw [feVal_of_check (n := ((2 * dN : Nat) : Int)) (by decide +kernel), Int.cast_natCast]
  push_cast
  rfl

theorem feSqrtM1_spec : Tight feSqrtM1 ∧ feVal feSqrtM1 = iC := by
  refine ⟨tight_of_check (by decide), ?_⟩
  rw [feVal_of_check (n := (iN : Int)) (by decide +kernel), Int.cast_natCast]; rfl

/-! ## Representations -/

/-- `s` stands for the point `p`: `x = X/Z`, `y = Y/Z`, `xy = T/Z`, with limbs within bounds. -/
structure Ext.Rep (s : Ext) (p : EdPt) : Prop where
  bx : Tight s.x
  by_ : Tight s.y
  bz : Tight s.z
  bt : Tight s.t
  z : feVal s.z ≠ 0
  hx : feVal s.x = p.x * feVal s.z
  hy : feVal s.y = p.y * feVal s.z
  ht : feVal s.t = p.x * p.y * feVal s.z

/-- `x = X/Z`, `y = Y/Z`. -/
structure Proj.Rep (s : Proj) (p : EdPt) : Prop where
  bx : Tight s.x
  by_ : Tight s.y
  bz : Tight s.z
  z : feVal s.z ≠ 0
  hx : feVal s.x = p.x * feVal s.z
  hy : feVal s.y = p.y * feVal s.z

/-- `x = X/Z`, `y = Y/T`. -/
structure Comp.Rep (s : Comp) (p : EdPt) : Prop where
  bx : Loose s.x
  by_ : Loose s.y
  bz : Loose s.z
  bt : Loose s.t
  z : feVal s.z ≠ 0
  t : feVal s.t ≠ 0
  hx : feVal s.x = p.x * feVal s.z
  hy : feVal s.y = p.y * feVal s.t

/-- `(y + x) Z`, `(y - x) Z`, `2 d x y Z`. -/
structure Cached.Rep (s : Cached) (p : EdPt) : Prop where
  bp : Mid s.yPlusX
  bm : Mid s.yMinusX
  bz : Tight s.z
  bt : Tight s.t2d
  z : feVal s.z ≠ 0
  hp : feVal s.yPlusX = (p.y + p.x) * feVal s.z
  hm : feVal s.yMinusX = (p.y - p.x) * feVal s.z
  ht : feVal s.t2d = 2 * dC * p.x * p.y * feVal s.z

/-- `y + x`, `y - x`, `2 d x y`. -/
structure Pre.Rep (s : Pre) (p : EdPt) : Prop where
  bp : Tight s.yPlusX
  bm : Tight s.yMinusX
  bt : Tight s.xy2d
  hp : feVal s.yPlusX = p.y + p.x
  hm : feVal s.yMinusX = p.y - p.x
  ht : feVal s.xy2d = 2 * dC * p.x * p.y

theorem add_x_mul (p q : EdPt) : (p + q).x * (1 + dC * p.x * q.x * p.y * q.y) = p.x * q.y + q.x * p.y := by
  rw [add_x, div_mul_cancel₀ _ (den_plus p.on q.on)]

theorem add_y_mul (p q : EdPt) : (p + q).y * (1 - dC * p.x * q.x * p.y * q.y) = p.y * q.y + p.x * q.x := by
  rw [add_y, div_mul_cancel₀ _ (den_minus p.on q.on)]

theorem extZero_rep : extZero.Rep 0 where
  bx := feZero_spec.1
  by_ := feOne_spec.1
  bz := feOne_spec.1
  bt := feZero_spec.1
  z := by simp only [extZero]; rw [feOne_spec.2]; exact one_ne_zero
  hx := by simp only [extZero]; rw [feZero_spec.2, zero_x, zero_mul]
  hy := by simp only [extZero]; rw [feOne_spec.2, zero_y, one_mul]
  ht := by simp only [extZero]; rw [feZero_spec.2, zero_x, zero_mul, zero_mul]

theorem preZero_rep : preZero.Rep 0 where
  bp := feOne_spec.1
  bm := feOne_spec.1
  bt := feZero_spec.1
  hp := by simp only [preZero]; rw [feOne_spec.2, zero_x, zero_y, add_zero]
  hm := by simp only [preZero]; rw [feOne_spec.2, zero_x, zero_y, sub_zero]
  ht := by simp only [preZero]; rw [feZero_spec.2, zero_x]; ring

theorem cachedZero_rep : cachedZero.Rep 0 where
  bp := feOne_spec.1.mid
  bm := feOne_spec.1.mid
  bz := feOne_spec.1
  bt := feZero_spec.1
  z := by simp only [cachedZero]; rw [feOne_spec.2]; exact one_ne_zero
  hp := by simp only [cachedZero]; rw [feOne_spec.2, zero_x, zero_y]; ring
  hm := by simp only [cachedZero]; rw [feOne_spec.2, zero_x, zero_y]; ring
  ht := by simp only [cachedZero]; rw [feZero_spec.2, zero_x]; ring

theorem Comp.Rep.toProj {c : Comp} {p : EdPt} (h : c.Rep p) : c.toProj.Rep p := by
  have m1 := feMul_spec h.bx h.bt
  have m2 := feMul_spec h.by_ h.bz
  have m3 := feMul_spec h.bz h.bt
  refine ⟨m1.1, m2.1, m3.1, ?_, ?_, ?_⟩ <;> simp only [Comp.toProj]
  · rw [m3.2]; exact mul_ne_zero h.z h.t
  · rw [m1.2, m3.2, h.hx]; ring
  · rw [m2.2, m3.2, h.hy]; ring

theorem Comp.Rep.toExt {c : Comp} {p : EdPt} (h : c.Rep p) : c.toExt.Rep p := by
  have m1 := feMul_spec h.bx h.bt
  have m2 := feMul_spec h.by_ h.bz
  have m3 := feMul_spec h.bz h.bt
  have m4 := feMul_spec h.bx h.by_
  refine ⟨m1.1, m2.1, m3.1, m4.1, ?_, ?_, ?_, ?_⟩ <;> simp only [Comp.toExt]
  · rw [m3.2]; exact mul_ne_zero h.z h.t
  · rw [m1.2, m3.2, h.hx]; ring
  · rw [m2.2, m3.2, h.hy]; ring
  · rw [m4.2, m3.2, h.hx, h.hy]; ring

theorem Ext.Rep.toProj {s : Ext} {p : EdPt} (h : s.Rep p) : s.toProj.Rep p := by
  refine ⟨?_, ?_, ?_, ?_, ?_, ?_⟩ <;> simp only [Ext.toProj]
  · rw [h.bx.copy]; exact h.bx
  · rw [h.by_.copy]; exact h.by_
  · rw [h.bz.copy]; exact h.bz
  · rw [h.bz.copy]; exact h.z
  · rw [h.bx.copy, h.bz.copy]; exact h.hx
  · rw [h.by_.copy, h.bz.copy]; exact h.hy

theorem Ext.Rep.neg {s : Ext} {p : EdPt} (h : s.Rep p) : s.neg.Rep (-p) := by
  have n1 := negT h.bx
  have n2 := negT h.bt
  refine ⟨?_, ?_, ?_, ?_, ?_, ?_, ?_, ?_⟩ <;> simp only [Ext.neg]
  · exact n1.1
  · rw [h.by_.copy]; exact h.by_
  · rw [h.bz.copy]; exact h.bz
  · exact n2.1
  · rw [h.bz.copy]; exact h.z
  · rw [h.bz.copy, n1.2, h.hx, neg_x]; ring
  · rw [h.bz.copy, h.by_.copy, h.hy, neg_y]
  · rw [h.bz.copy, n2.2, h.ht, neg_x, neg_y]; ring

theorem Ext.Rep.toCached {s : Ext} {p : EdPt} (h : s.Rep p) : s.toCached.Rep p := by
  have a := sumT h.by_ h.bx
  have b := diffT h.by_ h.bx
  have m := feMul_spec h.bt.loose feD2_spec.1.loose
  refine ⟨?_, ?_, ?_, ?_, ?_, ?_, ?_, ?_⟩ <;> simp only [Ext.toCached]
  · exact a.1
  · exact b.1
  · rw [h.bz.copy]; exact h.bz
  · exact m.1
  · rw [h.bz.copy]; exact h.z
  · rw [a.2, h.bz.copy, h.hx, h.hy]; ring
  · rw [b.2, h.bz.copy, h.hx, h.hy]; ring
  · rw [m.2, h.bz.copy, h.ht, feD2_spec.2]; ring

theorem Proj.Rep.double {s : Proj} {p : EdPt} (h : s.Rep p) : s.double.Rep (p + p) := by
  have x := feSquare_spec h.bx.loose
  have z := feSquare_spec h.by_.loose
  have t := feSquare2_spec h.bz.loose
  have y := sumT h.bx h.by_
  have t0 := feSquare_spec y.1.loose
  have y' := sumT z.1 x.1
  have z' := diffT z.1 x.1
  have x' := diffTM t0.1 y'.1
  have t' := diffTM t.1 z'.1
  have on := p.on
  have dp := den_plus p.on p.on
  have dm := den_minus p.on p.on
  have ax := add_x_mul p p
  have ay := add_y_mul p p
  have hz := h.z
  unfold On at on
  have vz : feVal s.double.z = (1 + dC * p.x * p.x * p.y * p.y) * feVal s.z ^ 2 := by
    simp only [Proj.double]
    rw [z'.2, z.2, x.2, h.hx, h.hy]
    linear_combination feVal s.z ^ 2 * on
  have vt : feVal s.double.t = (1 - dC * p.x * p.x * p.y * p.y) * feVal s.z ^ 2 := by
    simp only [Proj.double]
    rw [t'.2, t.2, z'.2, z.2, x.2, h.hx, h.hy]
    linear_combination -feVal s.z ^ 2 * on
  refine ⟨x'.1, y'.1.loose, z'.1.loose, t'.1, ?_, ?_, ?_, ?_⟩
  · rw [vz]; exact mul_ne_zero dp (pow_ne_zero _ hz)
  · rw [vt]; exact mul_ne_zero dm (pow_ne_zero _ hz)
  · rw [vz, ← mul_assoc, ax]
    simp only [Proj.double]
    rw [x'.2, t0.2, y.2, y'.2, z.2, x.2, h.hx, h.hy]
    ring
  · rw [vt, ← mul_assoc, ay]
    simp only [Proj.double]
    rw [y'.2, z.2, x.2, h.hx, h.hy]
    ring

theorem Ext.Rep.double {s : Ext} {p : EdPt} (h : s.Rep p) : s.double.Rep (p + p) := h.toProj.double

theorem compAdd_rep {s : Ext} {c : Cached} {p q : EdPt} (h : s.Rep p) (g : c.Rep q) :
    (compAdd s c).Rep (p + q) := by
  have x1 := sumT h.by_ h.bx
  have y1 := diffT h.by_ h.bx
  have z := feMul_spec x1.1.loose g.bp.loose
  have y := feMul_spec y1.1.loose g.bm.loose
  have t := feMul_spec g.bt.loose h.bt.loose
  have x2 := feMul_spec h.bz.loose g.bz.loose
  have t0 := sumT x2.1 x2.1
  have x' := diffT z.1 y.1
  have y' := sumT z.1 y.1
  have z' := sumML t0.1 t.1
  have t' := diffML t0.1 t.1
  have dp := den_plus p.on q.on
  have dm := den_minus p.on q.on
  have ax := add_x_mul p q
  have ay := add_y_mul p q
  have hz := mul_ne_zero two_ne (mul_ne_zero h.z g.z)
  have vz : feVal (compAdd s c).z = (1 + dC * p.x * q.x * p.y * q.y) * (2 * (feVal s.z * feVal c.z)) := by
    simp only [compAdd]
    rw [z'.2, t0.2, x2.2, t.2, h.ht, g.ht]
    ring
  have vt : feVal (compAdd s c).t = (1 - dC * p.x * q.x * p.y * q.y) * (2 * (feVal s.z * feVal c.z)) := by
    simp only [compAdd]
    rw [t'.2, t0.2, x2.2, t.2, h.ht, g.ht]
    ring
  refine ⟨x'.1.loose, y'.1.loose, z'.1, t'.1, ?_, ?_, ?_, ?_⟩
  · rw [vz]; exact mul_ne_zero dp hz
  · rw [vt]; exact mul_ne_zero dm hz
  · rw [vz, ← mul_assoc, ax]
    simp only [compAdd]
    rw [x'.2, z.2, y.2, x1.2, y1.2, g.hp, g.hm, h.hx, h.hy]
    ring
  · rw [vt, ← mul_assoc, ay]
    simp only [compAdd]
    rw [y'.2, z.2, y.2, x1.2, y1.2, g.hp, g.hm, h.hx, h.hy]
    ring

/-- A cached element stands for the negative when the first two entries are exchanged and the last
one is negated. -/
theorem Cached.Rep.neg {c : Cached} {p : EdPt} (h : c.Rep p) : c.neg.Rep (-p) := by
  have n := negT h.bt
  refine ⟨?_, ?_, ?_, ?_, ?_, ?_, ?_, ?_⟩ <;> simp only [Cached.neg]
  · rw [h.bm.copy]; exact h.bm
  · rw [h.bp.copy]; exact h.bp
  · rw [h.bz.copy]; exact h.bz
  · exact n.1
  · rw [h.bz.copy]; exact h.z
  · rw [h.bz.copy, h.bm.copy, h.hm, neg_x, neg_y]; ring
  · rw [h.bz.copy, h.bp.copy, h.hp, neg_x, neg_y]; ring
  · rw [h.bz.copy, n.2, h.ht, neg_x, neg_y]; ring

theorem Pre.Rep.neg {c : Pre} {p : EdPt} (h : c.Rep p) : c.neg.Rep (-p) := by
  have n := negT h.bt
  refine ⟨?_, ?_, ?_, ?_, ?_, ?_⟩ <;> simp only [Pre.neg]
  · rw [h.bm.copy]; exact h.bm
  · rw [h.bp.copy]; exact h.bp
  · exact n.1
  · rw [h.bm.copy, h.hm, neg_x, neg_y]; ring
  · rw [h.bp.copy, h.hp, neg_x, neg_y]; ring
  · rw [n.2, h.ht, neg_x, neg_y]; ring

theorem compSub_rep {s : Ext} {c : Cached} {p q : EdPt} (h : s.Rep p) (g : c.Rep q) :
    (compSub s c).Rep (p - q) := by
  have x1 := sumT h.by_ h.bx
  have y1 := diffT h.by_ h.bx
  have z := feMul_spec x1.1.loose g.bm.loose
  have y := feMul_spec y1.1.loose g.bp.loose
  have t := feMul_spec g.bt.loose h.bt.loose
  have x2 := feMul_spec h.bz.loose g.bz.loose
  have t0 := sumT x2.1 x2.1
  have x' := diffT z.1 y.1
  have y' := sumT z.1 y.1
  have z' := diffML t0.1 t.1
  have t' := sumML t0.1 t.1
  have dp := den_plus p.on (-q).on
  have dm := den_minus p.on (-q).on
  have ax := add_x_mul p (-q)
  have ay := add_y_mul p (-q)
  rw [neg_x, neg_y] at dp dm ax ay
  rw [sub_eq_add_neg]
  have hz := mul_ne_zero two_ne (mul_ne_zero h.z g.z)
  have vz : feVal (compSub s c).z = (1 + dC * p.x * -q.x * p.y * q.y) * (2 * (feVal s.z * feVal c.z)) := by
    simp only [compSub]
    rw [z'.2, t0.2, x2.2, t.2, h.ht, g.ht]
    ring
  have vt : feVal (compSub s c).t = (1 - dC * p.x * -q.x * p.y * q.y) * (2 * (feVal s.z * feVal c.z)) := by
    simp only [compSub]
    rw [t'.2, t0.2, x2.2, t.2, h.ht, g.ht]
    ring
  refine ⟨x'.1.loose, y'.1.loose, z'.1, t'.1, ?_, ?_, ?_, ?_⟩
  · rw [vz]; exact mul_ne_zero dp hz
  · rw [vt]; exact mul_ne_zero dm hz
  · rw [vz, ← mul_assoc, ax]
    simp only [compSub]
    rw [x'.2, z.2, y.2, x1.2, y1.2, g.hp, g.hm, h.hx, h.hy]
    ring
  · rw [vt, ← mul_assoc, ay]
    simp only [compSub]
    rw [y'.2, z.2, y.2, x1.2, y1.2, g.hp, g.hm, h.hx, h.hy]
    ring

theorem mixedAdd_rep {s : Ext} {c : Pre} {p q : EdPt} (h : s.Rep p) (g : c.Rep q) :
    (mixedAdd s c).Rep (p + q) := by
  have x1 := sumT h.by_ h.bx
  have y1 := diffT h.by_ h.bx
  have z := feMul_spec x1.1.loose g.bp.loose
  have y := feMul_spec y1.1.loose g.bm.loose
  have t := feMul_spec g.bt.loose h.bt.loose
  have t0 := sumT h.bz h.bz
  have x' := diffT z.1 y.1
  have y' := sumT z.1 y.1
  have z' := sumML t0.1 t.1
  have t' := diffML t0.1 t.1
  have dp := den_plus p.on q.on
  have dm := den_minus p.on q.on
  have ax := add_x_mul p q
  have ay := add_y_mul p q
  have hz := mul_ne_zero two_ne h.z
  have vz : feVal (mixedAdd s c).z = (1 + dC * p.x * q.x * p.y * q.y) * (2 * feVal s.z) := by
    simp only [mixedAdd]
    rw [z'.2, t0.2, t.2, h.ht, g.ht]
    ring
  have vt : feVal (mixedAdd s c).t = (1 - dC * p.x * q.x * p.y * q.y) * (2 * feVal s.z) := by
    simp only [mixedAdd]
    rw [t'.2, t0.2, t.2, h.ht, g.ht]
    ring
  refine ⟨x'.1.loose, y'.1.loose, z'.1, t'.1, ?_, ?_, ?_, ?_⟩
  · rw [vz]; exact mul_ne_zero dp hz
  · rw [vt]; exact mul_ne_zero dm hz
  · rw [vz, ← mul_assoc, ax]
    simp only [mixedAdd]
    rw [x'.2, z.2, y.2, x1.2, y1.2, g.hp, g.hm, h.hx, h.hy]
    ring
  · rw [vt, ← mul_assoc, ay]
    simp only [mixedAdd]
    rw [y'.2, z.2, y.2, x1.2, y1.2, g.hp, g.hm, h.hx, h.hy]
    ring

theorem mixedSub_rep {s : Ext} {c : Pre} {p q : EdPt} (h : s.Rep p) (g : c.Rep q) :
    (mixedSub s c).Rep (p - q) := by
  have x1 := sumT h.by_ h.bx
  have y1 := diffT h.by_ h.bx
  have z := feMul_spec x1.1.loose g.bm.loose
  have y := feMul_spec y1.1.loose g.bp.loose
  have t := feMul_spec g.bt.loose h.bt.loose
  have t0 := sumT h.bz h.bz
  have x' := diffT z.1 y.1
  have y' := sumT z.1 y.1
  have z' := diffML t0.1 t.1
  have t' := sumML t0.1 t.1
  have dp := den_plus p.on (-q).on
  have dm := den_minus p.on (-q).on
  have ax := add_x_mul p (-q)
  have ay := add_y_mul p (-q)
  rw [neg_x, neg_y] at dp dm ax ay
  rw [sub_eq_add_neg]
  have hz := mul_ne_zero two_ne h.z
  have vz : feVal (mixedSub s c).z = (1 + dC * p.x * -q.x * p.y * q.y) * (2 * feVal s.z) := by
    simp only [mixedSub]
    rw [z'.2, t0.2, t.2, h.ht, g.ht]
    ring
  have vt : feVal (mixedSub s c).t = (1 - dC * p.x * -q.x * p.y * q.y) * (2 * feVal s.z) := by
    simp only [mixedSub]
    rw [t'.2, t0.2, t.2, h.ht, g.ht]
    ring
  refine ⟨x'.1.loose, y'.1.loose, z'.1, t'.1, ?_, ?_, ?_, ?_⟩
  · rw [vz]; exact mul_ne_zero dp hz
  · rw [vt]; exact mul_ne_zero dm hz
  · rw [vz, ← mul_assoc, ax]
    simp only [mixedSub]
    rw [x'.2, z.2, y.2, x1.2, y1.2, g.hp, g.hm, h.hx, h.hy]
    ring
  · rw [vt, ← mul_assoc, ay]
    simp only [mixedSub]
    rw [y'.2, z.2, y.2, x1.2, y1.2, g.hp, g.hm, h.hx, h.hy]
    ring

theorem ptAdd_rep {s u : Ext} {p q : EdPt} (h : s.Rep p) (g : u.Rep q) : (ptAdd s u).Rep (p + q) :=
  (compAdd_rep h g.toCached).toExt

theorem ptSub_rep {s u : Ext} {p q : EdPt} (h : s.Rep p) (g : u.Rep q) : (ptSub s u).Rep (p - q) :=
  (compSub_rep h g.toCached).toExt

/-- A representation determines the point. -/
theorem Ext.Rep.unique {s : Ext} {p q : EdPt} (h : s.Rep p) (g : s.Rep q) : p = q := by
  ext
  · exact mul_right_cancel₀ h.z (h.hx.symm.trans g.hx)
  · exact mul_right_cancel₀ h.z (h.hy.symm.trans g.hy)

/-! ## Selection from tables -/

theorem geNegative_neg (n : Nat) (h : n < 128) : geNegative (-(n + 1 : Nat)) = 1 ∧ geAbs (-(n + 1 : Nat)) = n + 1 := by
  revert n; decide +kernel

theorem geNegative_nonneg (n : Nat) (h : n < 128) : geNegative n = 0 ∧ geAbs n = n := by
  revert n; decide +kernel

theorem geEqual_eq (n : Nat) (h : n < 129) (i : Nat) (hi : i < 8) :
    geEqual n ((i : Int) + 1) = if n = i + 1 then 1 else 0 := by
  revert i; revert n; decide +kernel

theorem Cached.cmove_zero {c u : Cached} {p q : EdPt} (h : c.Rep p) (g : u.Rep q) : c.cmove u 0 = c := by
  simp only [Cached.cmove, (feCMove_eq h.bp.loose g.bp.loose).1, (feCMove_eq h.bm.loose g.bm.loose).1,
    (feCMove_eq h.bz.loose g.bz.loose).1, (feCMove_eq h.bt.loose g.bt.loose).1]

theorem Cached.cmove_one {c u : Cached} {p q : EdPt} (h : c.Rep p) (g : u.Rep q) : c.cmove u 1 = u := by
  simp only [Cached.cmove, (feCMove_eq h.bp.loose g.bp.loose).2, (feCMove_eq h.bm.loose g.bm.loose).2,
    (feCMove_eq h.bz.loose g.bz.loose).2, (feCMove_eq h.bt.loose g.bt.loose).2]

theorem Pre.cmove_zero {c u : Pre} {p q : EdPt} (h : c.Rep p) (g : u.Rep q) : c.cmove u 0 = c := by
  simp only [Pre.cmove, (feCMove_eq h.bp.loose g.bp.loose).1, (feCMove_eq h.bm.loose g.bm.loose).1,
    (feCMove_eq h.bt.loose g.bt.loose).1]

theorem Pre.cmove_one {c u : Pre} {p q : EdPt} (h : c.Rep p) (g : u.Rep q) : c.cmove u 1 = u := by
  simp only [Pre.cmove, (feCMove_eq h.bp.loose g.bp.loose).2, (feCMove_eq h.bm.loose g.bm.loose).2,
    (feCMove_eq h.bt.loose g.bt.loose).2]

/-- The scan through the table finds the entry for a digit from 0 to 8. -/
theorem scanCached {ai : List Cached} {p : EdPt} (hai : ∀ i < 8, (ai.getD i cachedZero).Rep ((i + 1) • p))
    (n : Nat) (hn : n < 129) (k : Nat) (hk : k ≤ 8) :
    ((List.range k).foldl (fun c i => c.cmove (ai.getD i cachedZero) (geEqual n ((i : Int) + 1))) cachedZero).Rep
      ((if n ≤ k then n else 0) • p) := by
  induction k with
  | zero =>
    have : (if n ≤ 0 then n else 0) = 0 := by split <;> omega
    rw [this, zero_smul]
    exact cachedZero_rep
  | succ k ih =>
    have ih := ih (by omega)
    rw [List.range_succ, List.foldl_append, List.foldl_cons, List.foldl_nil, geEqual_eq n hn k (by omega)]
    by_cases h : n = k + 1
    · rw [if_pos h, Cached.cmove_one ih (hai k (by omega)), if_pos (by omega), h]
      exact hai k (by omega)
    · rw [if_neg h, Cached.cmove_zero ih (hai k (by omega))]
      have : (if n ≤ k + 1 then n else 0) = (if n ≤ k then n else 0) := by
        split <;> split <;> omega
      rw [this]
      exact ih

theorem selectCached_gen {ai : List Cached} {p : EdPt} (hai : ∀ i < 8, (ai.getD i cachedZero).Rep ((i + 1) • p))
    (b : Int) (h1 : -8 ≤ b) (h2 : b ≤ 127) : (selectCached ai b).Rep ((if b ≤ 8 then b else 0) • p) := by
  unfold selectCached
  rcases Int.eq_nat_or_neg b with ⟨n, rfl | rfl⟩
  · obtain ⟨e1, e2⟩ := geNegative_nonneg n (by omega)
    have h := scanCached hai n (by omega) 8 (le_refl _)
    simp only [e1, e2]
    rw [Cached.cmove_zero h h.neg]
    by_cases h8 : n ≤ 8
    · rw [if_pos h8] at h
      rw [if_pos (by omega), natCast_zsmul]
      exact h
    · rw [if_neg h8] at h
      rw [if_neg (by omega), zero_smul]
      rwa [zero_smul] at h
  · cases n with
    | zero =>
      obtain ⟨e1, e2⟩ := geNegative_nonneg 0 (by omega)
      have h := scanCached hai 0 (by omega) 8 (le_refl _)
      simp only [Nat.cast_zero, neg_zero] at *
      rw [if_pos (by omega)]
      simp only [e1, e2]
      rw [Cached.cmove_zero h h.neg, zero_smul]
      rwa [if_pos (by omega), zero_smul] at h
    | succ n =>
      obtain ⟨e1, e2⟩ := geNegative_neg n (by omega)
      have h := scanCached hai (n + 1) (by omega) 8 (le_refl _)
      simp only [e1, e2]
      simp only [Nat.cast_add, Nat.cast_one] at h
      rw [Cached.cmove_one h h.neg]
      rw [if_pos (by omega)] at h
      rw [if_pos (by omega), neg_smul, natCast_zsmul]
      exact h.neg

theorem selectCached_rep {ai : List Cached} {p : EdPt} (hai : ∀ i < 8, (ai.getD i cachedZero).Rep ((i + 1) • p))
    (b : Int) (h1 : -8 ≤ b) (h2 : b ≤ 8) : (selectCached ai b).Rep (b • p) := by
  have := selectCached_gen hai b h1 (by omega)
  rwa [if_pos h2] at this

theorem scanPre {tbl : List Pre} {p : EdPt} (hai : ∀ i < 8, (tbl.getD i preZero).Rep ((i + 1) • p))
    (n : Nat) (hn : n < 129) (k : Nat) (hk : k ≤ 8) :
    ((List.range k).foldl (fun c i => c.cmove (tbl.getD i preZero) (geEqual n ((i : Int) + 1))) preZero).Rep
      ((if n ≤ k then n else 0) • p) := by
  induction k with
  | zero =>
    have : (if n ≤ 0 then n else 0) = 0 := by split <;> omega
    rw [this, zero_smul]
    exact preZero_rep
  | succ k ih =>
    have ih := ih (by omega)
    rw [List.range_succ, List.foldl_append, List.foldl_cons, List.foldl_nil, geEqual_eq n hn k (by omega)]
    by_cases h : n = k + 1
    · rw [if_pos h, Pre.cmove_one ih (hai k (by omega)), if_pos (by omega), h]
      exact hai k (by omega)
    · rw [if_neg h, Pre.cmove_zero ih (hai k (by omega))]
      have : (if n ≤ k + 1 then n else 0) = (if n ≤ k then n else 0) := by
        split <;> split <;> omega
      rw [this]
      exact ih

theorem selectPre_gen {tbl : List Pre} {p : EdPt} (hai : ∀ i < 8, (tbl.getD i preZero).Rep ((i + 1) • p))
    (b : Int) (h1 : -8 ≤ b) (h2 : b ≤ 127) : (selectPre tbl b).Rep ((if b ≤ 8 then b else 0) • p) := by
  unfold selectPre
  rcases Int.eq_nat_or_neg b with ⟨n, rfl | rfl⟩
  · obtain ⟨e1, e2⟩ := geNegative_nonneg n (by omega)
    have h := scanPre hai n (by omega) 8 (le_refl _)
    simp only [e1, e2]
    rw [Pre.cmove_zero h h.neg]
    by_cases h8 : n ≤ 8
    · rw [if_pos h8] at h
      rw [if_pos (by omega), natCast_zsmul]
      exact h
    · rw [if_neg h8] at h
      rw [if_neg (by omega), zero_smul]
      rwa [zero_smul] at h
  · cases n with
    | zero =>
      obtain ⟨e1, e2⟩ := geNegative_nonneg 0 (by omega)
      have h := scanPre hai 0 (by omega) 8 (le_refl _)
      simp only [Nat.cast_zero, neg_zero] at *
      rw [if_pos (by omega)]
      simp only [e1, e2]
      rw [Pre.cmove_zero h h.neg, zero_smul]
      rwa [if_pos (by omega), zero_smul] at h
    | succ n =>
      obtain ⟨e1, e2⟩ := geNegative_neg n (by omega)
      have h := scanPre hai (n + 1) (by omega) 8 (le_refl _)
      simp only [e1, e2]
      simp only [Nat.cast_add, Nat.cast_one] at h
      rw [Pre.cmove_one h h.neg]
      rw [if_pos (by omega)] at h
      rw [if_pos (by omega), neg_smul, natCast_zsmul]
      exact h.neg

theorem selectPre_rep {tbl : List Pre} {p : EdPt} (hai : ∀ i < 8, (tbl.getD i preZero).Rep ((i + 1) • p))
    (b : Int) (h1 : -8 ≤ b) (h2 : b ≤ 8) : (selectPre tbl b).Rep (b • p) := by
  have := selectPre_gen hai b h1 (by omega)
  rwa [if_pos h2] at this

end Kyber.Ed
