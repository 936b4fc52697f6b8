/-
Helper lemmas for signatures.
-/
import Verif.Model.Schnorr
import Verif.Model.Eddsa
import Verif.Lemmas.Lin

set_option linter.unusedSectionVars false

namespace Kyber.Schnorr

variable {F G : Type} [Field F] [AddCommGroup G] [DecidableEq G]

section

variable [SMul F G] {B : G}

/-- A scalar is determined by its multiple of a base point of full order. -/
theorem smul_base_inj (hl : Lin F B) (hB : ∀ s : F, s • B = 0 → s = 0) {a b : F}
    (h : a • B = b • B) : a = b :=
  sub_eq_zero.1 (hB _ (by rw [hl.sub, h, sub_self]))

theorem sign_eq (hl : Lin F B) (k x h : F) : (k + x * h) • B = k • B + h • (x • B) := by
  rw [hl.add, mul_comm, hl.mul]

end

section

variable [SMul F G]

theorem ite_err_iff {ε α : Type} {c : Prop} [Decidable c] {e : ε} {r : Res ε α} {a : α} :
    (if c then Res.err e else r) = .ok a ↔ ¬ c ∧ r = .ok a := by
  split <;> simp_all

theorem ofOption_bind_iff {ε α β : Type} {e : ε} {o : Option α} {f : α → Res ε β} {b : β} :
    (Res.ofOption e o >>= f) = .ok b ↔ ∃ a, o = some a ∧ f a = .ok b := by
  cases o <;> simp

theorem ite_err_panic {ε α : Type} {c : Prop} [Decidable c] {e : ε} {r : Res ε α}
    (h : r ≠ .panic) : (if c then Res.err e else r) ≠ .panic := by
  split <;> simp_all

theorem ofOption_bind_panic {ε α β : Type} {e : ε} {o : Option α} {f : α → Res ε β}
    (h : ∀ a, f a ≠ .panic) : (Res.ofOption e o >>= f) ≠ .panic := by
  cases o <;> simp [h]

end

end Kyber.Schnorr
