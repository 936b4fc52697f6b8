/-
The order of the group of points, its subgroup of prime order, and its points of small order.
-/
import Verif.Lemmas.Ed.Encode
import Verif.Lemmas.Ed.Scalar
import Mathlib.GroupTheory.OrderOfElement
import Mathlib.GroupTheory.Index
import Mathlib.Algebra.Module.ZMod

namespace Kyber.Ed

open Kyber Kyber.ModInt

theorem L_smul_base : L • basePt = 0 := by
  rw [(nMul_rep bN_rep 256 L (by decide +kernel)).eq_zero_iff]
  decide +kernel

theorem base_ne : basePt ≠ 0 := by
  intro h
  have := congrArg EdPt.x h
  rw [zero_x] at this
  have h2 : ((bN.x : Nat) : Fp) = 0 := this
  rw [ZMod.natCast_eq_zero_iff] at h2
  revert h2
  decide +kernel

instance factL : Fact L.Prime := ⟨prime_L⟩

theorem addOrderOf_base : addOrderOf basePt = L := addOrderOf_eq_prime L_smul_base base_ne

/-- A point of order 8. -/
def tN : NPt :=
  ⟨14399317868200118260347934320527232580618823971194345261214217575416788799818,
   2707385501144840649318225287225658788936804267575313519463743609750303402022, 1⟩

theorem tPt_on : On dC (tN.x : Fp) (tN.y : Fp) := by
  have h : ((tN.y ^ 2 : Nat) : Fp) = ((1 + dN * tN.x ^ 2 * tN.y ^ 2 + tN.x ^ 2 : Nat) : Fp) := by
    rw [ZMod.natCast_eq_natCast_iff']
    decide +kernel
  simp only [Nat.cast_add, Nat.cast_mul, Nat.cast_pow, Nat.cast_one, show (dN : Fp) = dC from rfl] at h
  unfold On
  linear_combination h

def tPt : EdPt := ⟨tN.x, tN.y, tPt_on⟩

theorem tN_rep : tN.Rep tPt := by
  refine ⟨?_, ?_, ?_⟩ <;> simp [tN, tPt]

theorem addOrderOf_tPt : addOrderOf tPt = 8 := by
  refine addOrderOf_eq_prime_pow (p := 2) (n := 2) ?_ ?_
  · rw [(nMul_rep tN_rep 4 (2 ^ 2) (by decide)).eq_zero_iff]
    decide +kernel
  · rw [(nMul_rep tN_rep 4 (2 ^ 3) (by decide)).eq_zero_iff]
    decide +kernel

/-- A point is determined by `y` and the parity of `x`. -/
def yPar (p : EdPt) : Fp × Fin 2 := (p.y, ⟨p.x.val % 2, Nat.mod_lt _ (by decide)⟩)

theorem yPar_injective : Function.Injective yPar := by
  intro p q h
  apply ptEnc_inj
  have h1 : p.y = q.y := congrArg Prod.fst h
  have h2 : p.x.val % 2 = q.x.val % 2 := congrArg Fin.val (congrArg Prod.snd h)
  unfold ptEnc
  rw [h1, h2]

instance neZeroP : NeZero P := ⟨by decide⟩

instance : Finite EdPt := Finite.of_injective yPar yPar_injective

theorem card_le : Nat.card EdPt ≤ 2 * P := by
  have := Nat.card_le_card_of_injective yPar yPar_injective
  rwa [Nat.card_prod, Nat.card_zmod, Nat.card_fin, mul_comm] at this

/-- The curve has `8 L` points. -/
theorem card_EdPt : Nat.card EdPt = 8 * L := by
  have h1 : 8 ∣ Nat.card EdPt := addOrderOf_tPt ▸ addOrderOf_dvd_natCard tPt
  have h2 : L ∣ Nat.card EdPt := addOrderOf_base ▸ addOrderOf_dvd_natCard basePt
  have h3 : 8 * L ∣ Nat.card EdPt := Nat.Coprime.mul_dvd_of_dvd_of_dvd (by decide +kernel) h1 h2
  obtain ⟨k, hk⟩ := h3
  have hpos : 0 < Nat.card EdPt := Nat.card_pos
  have hle := card_le
  have hP : 2 * P < 8 * L * 2 := by decide +kernel
  rw [hk] at hle hpos ⊢
  have hk2 : k < 2 := by
    by_contra hc
    have : 8 * L * 2 ≤ 8 * L * k := Nat.mul_le_mul_left _ (by omega)
    omega
  have : k ≠ 0 := by
    rintro rfl
    simp at hpos
  rw [show k = 1 by omega, mul_one]

theorem order_smul (p : EdPt) : (8 * L) • p = 0 := by
  rw [← card_EdPt]
  exact card_nsmul_eq_zero'

/-- The subgroup generated by the base point. -/
def Sub : AddSubgroup EdPt := AddSubgroup.zmultiples basePt

theorem card_Sub : Nat.card Sub = L := by
  unfold Sub
  rw [Nat.card_zmultiples, addOrderOf_base]

theorem L_pos : 0 < L := by decide +kernel

theorem eight_smul_mem (p : EdPt) : 8 • p ∈ Sub := by
  have h := Sub.card_mul_index
  rw [card_Sub, card_EdPt, mul_comm 8 L] at h
  have := Nat.eq_of_mul_eq_mul_left L_pos h
  rw [← this]
  exact Sub.nsmul_index_mem p

theorem bezout : ∃ a b : Int, 8 * a + L * b = 1 := by
  have h : IsCoprime (8 : Int) (L : Int) := by
    have : Nat.Coprime 8 L := by decide +kernel
    exact_mod_cast Nat.isCoprime_iff_coprime.2 this
  obtain ⟨a, b, h⟩ := h
  exact ⟨a, b, by linear_combination h⟩

/-- The points of order dividing `L` are the multiples of the base point. -/
theorem mem_Sub_iff (p : EdPt) : p ∈ Sub ↔ L • p = 0 := by
  constructor
  · intro h
    obtain ⟨k, rfl⟩ := AddSubgroup.mem_zmultiples_iff.1 h
    rw [smul_comm, L_smul_base, smul_zero]
  · intro h
    obtain ⟨a, b, hab⟩ := bezout
    have e : p = a • (8 • p) + b • (L • p) := by
      rw [← natCast_zsmul p L, ← natCast_zsmul p 8, ← mul_smul, ← mul_smul, ← add_smul]
      have : a * ((8 : Nat) : Int) + b * (L : Int) = 1 := by push_cast; linear_combination hab
      rw [this, one_smul]
    rw [e, h, smul_zero, add_zero]
    exact Sub.zsmul_mem (eight_smul_mem p) a

/-- The points of order dividing 8 are the multiples of one of them. -/
theorem eight_torsion (p : EdPt) : 8 • p = 0 ↔ ∃ k < 8, p = k • tPt := by
  constructor
  · intro h
    have hc : Nat.card (AddSubgroup.zmultiples tPt) = 8 := by rw [Nat.card_zmultiples, addOrderOf_tPt]
    have hi := (AddSubgroup.zmultiples tPt).card_mul_index
    rw [hc, card_EdPt] at hi
    have hL := Nat.eq_of_mul_eq_mul_left (by decide) hi
    have hm : L • p ∈ AddSubgroup.zmultiples tPt := by
      rw [← hL]
      exact (AddSubgroup.zmultiples tPt).nsmul_index_mem p
    obtain ⟨a, b, hab⟩ := bezout
    have e : p = a • (8 • p) + b • (L • p) := by
      rw [← natCast_zsmul p L, ← natCast_zsmul p 8, ← mul_smul, ← mul_smul, ← add_smul]
      have : a * ((8 : Nat) : Int) + b * (L : Int) = 1 := by push_cast; linear_combination hab
      rw [this, one_smul]
    rw [h, smul_zero, zero_add] at e
    obtain ⟨k, hk⟩ := AddSubgroup.mem_zmultiples_iff.1 hm
    rw [← hk, ← mul_smul] at e
    refine ⟨((b * k) % 8).toNat, by omega, ?_⟩
    rw [e, ← natCast_zsmul, Int.toNat_of_nonneg (by omega)]
    have h8 : (8 : Int) • tPt = 0 := by
      have := addOrderOf_nsmul_eq_zero tPt
      rw [addOrderOf_tPt] at this
      exact_mod_cast this
    conv_lhs => rw [← Int.emod_add_mul_ediv (b * k) 8]
    rw [add_smul, mul_comm 8 (b * k / 8), mul_smul, h8, smul_zero, add_zero]
  · rintro ⟨k, _, rfl⟩
    have := addOrderOf_nsmul_eq_zero tPt
    rw [addOrderOf_tPt] at this
    rw [smul_comm, this, smul_zero]

/-- The subgroup of prime order is a vector space over the scalars. -/
instance : Module (ZMod L) Sub := AddCommGroup.zmodModule (n := L) (by
  intro x
  apply Subtype.ext
  rw [AddSubgroup.coe_nsmul]
  exact (mem_Sub_iff x.1).1 x.2)

end Kyber.Ed
