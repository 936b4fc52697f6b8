/-
The number by which `Point::mul` multiplies, for any 32 bytes: a closed form of the top signed digit.
-/
import Verif.Lemmas.Ed.Mult
import Verif.Lemmas.Ed.Suite

namespace Kyber.Ed

open Kyber Kyber.ModInt

/-- `11...1` in base 16, with 63 digits. -/
def ones63 : Nat := (16 ^ 63 - 1) / 15

theorem ones63_eq : 15 * ones63 + 1 = 16 ^ 63 := by decide +kernel

theorem val16_bound (l : List Int) (h : ∀ x ∈ l, -8 ≤ x ∧ x ≤ 7) :
    -8 * ((16 : Int) ^ l.length - 1) ≤ 15 * val16 l ∧ 15 * val16 l ≤ 7 * ((16 : Int) ^ l.length - 1) := by
  induction l with
  | nil => simp [val16]
  | cons x xs ih =>
    have ih := ih (fun y hy => h y (List.mem_cons_of_mem _ hy))
    have hx := h x List.mem_cons_self
    rw [val16, List.length_cons, pow_succ]
    constructor <;> linarith [ih.1, ih.2, hx.1, hx.2]

/-- The value of the bytes, split into the top signed digit and the rest. -/
theorem digits_split {a : Bytes} (ha : a.length = 32) :
    ∃ low : Int, (leNat a : Int) = low + 16 ^ 63 * (digits a).getD 63 0 ∧
      -8 * (ones63 : Int) ≤ low ∧ low ≤ 7 * (ones63 : Int) := by
  have hlen : (digits a).length = 64 := by rw [length_digits, ha]
  have e : digits a = (digits a).take 63 ++ [(digits a).getD 63 0] := by
    conv_lhs => rw [← List.take_append_drop 63 (digits a)]
    congr 1
    rw [List.drop_eq_getElem_cons (by omega), List.drop_eq_nil_of_le (by omega), List.getD_eq_getElem?_getD,
      List.getElem?_eq_getElem (by omega), Option.getD_some]
  have hl : ((digits a).take 63).length = 63 := by rw [List.length_take]; omega
  have hb := val16_bound ((digits a).take 63) (by
    intro x hx
    obtain ⟨i, hi, rfl⟩ := List.mem_iff_getElem.1 hx
    rw [List.getElem_take]
    have := digits_low ha i (by omega)
    rwa [List.getD_eq_getElem?_getD, List.getElem?_eq_getElem (by omega), Option.getD_some] at this)
  rw [hl] at hb
  refine ⟨val16 ((digits a).take 63), ?_, ?_⟩
  · rw [← val16_digits ha]
    conv_lhs => rw [e, val16_append, hl]
    simp [val16]
  · have h1 : (15 : Int) * ones63 + 1 = 16 ^ 63 := by exact_mod_cast ones63_eq
    rw [← h1] at hb
    constructor <;> linarith [hb.1, hb.2]

/-- The top signed digit is the quotient of the value, rounded by the constant `88...8`. -/
def topDigit (a : Bytes) : Nat := (leNat a + 8 * ones63) / 16 ^ 63

theorem digits_top_eq {a : Bytes} (ha : a.length = 32) : (digits a).getD 63 0 = topDigit a := by
  obtain ⟨low, h, h1, h2⟩ := digits_split ha
  obtain ⟨h3, -⟩ := digits_top_range ha
  obtain ⟨d, hd⟩ := Int.eq_ofNat_of_zero_le h3
  rw [hd] at h ⊢
  have h4 : (15 : Int) * ones63 + 1 = 16 ^ 63 := by exact_mod_cast ones63_eq
  unfold topDigit
  congr 1
  refine (Nat.div_eq_of_lt_le ?_ ?_).symm
  · have : (d : Int) * 16 ^ 63 ≤ leNat a + 8 * ones63 := by rw [h]; linarith
    exact_mod_cast this
  · have : (leNat a : Int) + 8 * ones63 < (d + 1) * 16 ^ 63 := by rw [h]; linarith
    exact_mod_cast this

/-- The number by which `Point::mul` multiplies a point. -/
def mulVal (a : Bytes) : Int := (leNat a : Int) - if topDigit a ≤ 8 then 0 else 16 ^ 63 * (topDigit a : Int)

/-- The least value for which a digit is lost. -/
def lossFrom : Nat := 9 * 16 ^ 63 - 8 * ones63

theorem topDigit_le {a : Bytes} : topDigit a ≤ 8 ↔ leNat a < lossFrom := by
  have h : 8 * ones63 < 9 * 16 ^ 63 := by decide +kernel
  unfold topDigit lossFrom
  rw [← Nat.lt_succ_iff, Nat.div_lt_iff_lt_mul (by positivity)]
  omega

theorem mulVal_small {a : Bytes} (h : leNat a < lossFrom) : mulVal a = leNat a := by
  unfold mulVal
  rw [if_pos (topDigit_le.2 h), sub_zero]

theorem scalarMult_mulVal {s : Ext} {p : EdPt} (h : s.Rep p) {a : Bytes} (ha : a.length = 32) :
    (ptMul a (some s)).Rep (mulVal a • p) := by
  have := scalarMult_gen h ha
  rw [digits_top_eq ha] at this
  refine this.congr ?_
  unfold mulVal
  congr 2
  simp only [Nat.cast_le_ofNat]

theorem scalarMultBase_mulVal {a : Bytes} (ha : a.length = 32) : (ptMul a none).Rep (mulVal a • basePt) := by
  have := scalarMultBase_gen ha
  rw [digits_top_eq ha] at this
  refine this.congr ?_
  unfold mulVal
  congr 2
  simp only [Nat.cast_le_ofNat]

theorem topDigit_le_16 {a : Bytes} (ha : a.length = 32) : topDigit a ≤ 16 := by
  have := (digits_top_range ha).2
  rw [digits_top_eq ha] at this
  exact_mod_cast this

theorem act_int (m : Int) : ((m : Int) : ZMod L) • basePt = m • basePt := by
  have hL : (0 : Int) < L := by exact_mod_cast prime_L.pos
  obtain ⟨n, hn⟩ := Int.eq_ofNat_of_zero_le (Int.emod_nonneg m hL.ne')
  have h1 : ((m : Int) : ZMod L) = ((n : Nat) : ZMod L) := by
    have : ((n : Int) : ZMod L) = ((m % L : Int) : ZMod L) := by rw [hn]
    rw [← Int.cast_natCast n, this, ZMod.intCast_mod]
  have h2 : m • basePt = (n : Int) • basePt := by
    conv_lhs => rw [← Int.emod_add_mul_ediv m L, hn]
    rw [add_smul, mul_comm, mul_smul, Nat.cast_smul_eq_nsmul ℤ L, L_smul_base, smul_zero, add_zero]
  rw [h1, h2, act_base, Nat.cast_smul_eq_nsmul]

/-- What is lost is never a multiple of the order. -/
theorem loss_ne {e : Nat} (h1 : 8 < e) (h2 : e ≤ 16) : ((16 ^ 63 * (e : Int) : Int) : ZMod L) ≠ 0 := by
  intro h
  have h' : ((16 ^ 63 * e : Nat) : ZMod L) = 0 := by
    push_cast at h ⊢
    exact h
  rw [ZMod.natCast_eq_zero_iff] at h'
  rcases (prime_L.dvd_mul).1 h' with h | h
  · revert h; decide +kernel
  · have : L ≤ e := Nat.le_of_dvd (by omega) h
    have hL : 16 < L := by decide +kernel
    omega

/-- The multiplier and the value agree modulo the order exactly if no digit is lost. -/
theorem mulVal_cast_iff {a : Bytes} (ha : a.length = 32) :
    ((mulVal a : Int) : ZMod L) = ((leNat a : Nat) : ZMod L) ↔ leNat a < lossFrom := by
  rw [← topDigit_le]
  unfold mulVal
  by_cases h : topDigit a ≤ 8
  · simp [h]
  · rw [if_neg h]
    refine iff_of_false ?_ h
    rw [Int.cast_sub, Int.cast_natCast, sub_eq_self]
    exact loss_ne (by omega) (topDigit_le_16 ha)

end Kyber.Ed
