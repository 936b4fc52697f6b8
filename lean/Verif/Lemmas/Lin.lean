/-
Points on whose multiples the scalars act linearly.
-/
import Verif.Model.Suite
import Mathlib.Algebra.Module.Basic
import Mathlib.Algebra.Field.Defs

namespace Kyber

variable {F G : Type} [Field F] [AddCommGroup G] [SMul F G] {B : G}

theorem Lin.of_module {F G : Type} [Field F] [AddCommGroup G] [Module F G] (B : G) : Lin F B :=
  ⟨fun a b => add_smul a b B, fun a b => mul_smul a b B⟩

theorem Lin.zero (h : Lin F B) : (0 : F) • B = 0 := by
  have := h.add 0 0
  rw [add_zero] at this
  exact left_eq_add.1 this

theorem Lin.sub (h : Lin F B) (a b : F) : (a - b) • B = a • B - b • B := by
  rw [eq_sub_iff_add_eq, ← h.add, sub_add_cancel]

theorem Lin.neg (h : Lin F B) (a : F) : (-a) • B = -(a • B) := by
  rw [eq_neg_iff_add_eq_zero, ← h.add, neg_add_cancel, h.zero]

theorem Lin.comm (h : Lin F B) (a b : F) : a • (b • B) = b • (a • B) := by
  rw [← h.mul, mul_comm, h.mul]

theorem Lin.smul (h : Lin F B) (c : F) : Lin F (c • B) :=
  ⟨fun a b => by rw [← h.mul, add_mul, h.add, h.mul, h.mul], fun a b => by rw [← h.mul, mul_assoc, h.mul, h.mul]⟩

end Kyber
