/-
C96: multiplication in variable time. `Point` carries a flag that selects `ge_scalar_mult_vartime`;
a value read with serde may have it set.
-/
import Verif.Lemmas.Ed.Vartime
import Verif.Props.EdPoint

namespace Kyber.Ed

open Kyber Kyber.ModInt

/-- The digits that `slide` makes of a scalar below `2^255` are zero or odd, lie between -15 and 15,
and have the scalar as their value. -/
theorem C96_slide (a : Bytes) (ha : a.length = 32) (hlt : leNat a < 2 ^ 255) :
    (slide a).length = 256 ∧ (∀ d ∈ slide a, d = 0 ∨ (-15 ≤ d ∧ d ≤ 15 ∧ d % 2 = 1)) ∧
      ((List.range 256).map (fun i => (slide a).getD i 0 * 2 ^ i)).sum = leNat a := by
  obtain ⟨h1, h2, h3⟩ := slide_spec ha hlt
  refine ⟨h2, h3, ?_⟩
  rw [← h1, ← h2]
  generalize slide a = l
  clear h1 h2 h3
  induction l with
  | nil => rfl
  | cons x l ih =>
    rw [List.length_cons, List.range_succ_eq_map, List.map_cons, List.sum_cons, List.map_map, val2, ← ih,
      ← List.sum_map_mul_left]
    simp only [List.getD_cons_zero, pow_zero, mul_one]
    congr 2
    apply List.map_congr_left
    intro i _
    simp only [Function.comp_apply, List.getD_cons_succ, pow_succ]
    ring


example := C96_slide (leBytes 32 (2 ^ 254 + 12345)) (length_leBytes _ _) (by decide +kernel)

/-- The routine never indexes its table out of range, whatever the 32 bytes of the scalar are. -/
theorem C96_no_panic (a : Bytes) (ha : a.length = 32) (s : Ext) (hs : s.Valid) :
    ∃ r, scalarMultVar a s = .ok r ∧ r.Valid := by
  obtain ⟨r, h1, h2⟩ := scalarMultVar_gen hs.rep ha
  exact ⟨r, h1, h2.valid⟩


example := C96_no_panic (leBytes 32 (2 ^ 256 - 1)) (length_leBytes _ _) baseExt baseExt_rep.valid

/-- The full property: the flag of the receiver does not change the product. -/
def C96_statement : Prop :=
  ∀ (self other : Pt) (a : Bytes) (q : Pt), a.length = 32 → q.ge.Valid →
    ∃ r r', self.mul a (some q) = .ok r ∧ other.mul a (some q) = .ok r' ∧ r.eq r' = true

/-- It holds for scalars below `2^255`: the product is `a` times the point. Larger scalars are
missing. -/
theorem C96_agree_partial (self other : Pt) (a : Bytes) (q : Pt) (ha : a.length = 32) (hlt : leNat a < 2 ^ 255)
    (hq : q.ge.Valid) :
    ∃ r r', self.mul a (some q) = .ok r ∧ other.mul a (some q) = .ok r' ∧ r.eq r' = true ∧
      r.ge.Rep (leNat a • hq.pt) ∧ r.varTime = self.varTime := by
  have key : ∀ x : Pt, ∃ r, x.mul a (some q) = .ok r ∧ r.ge.Rep (leNat a • hq.pt) ∧ r.varTime = x.varTime := by
    intro x
    unfold Pt.mul
    simp only
    split
    · obtain ⟨g, g1, g2⟩ := scalarMultVar_rep hq.rep ha hlt
      exact ⟨{ x with ge := g }, by rw [g1]; rfl, g2, rfl⟩
    · exact ⟨_, rfl, scalarMult_rep hq.rep ha hlt, rfl⟩
  obtain ⟨r, r1, r2, r3⟩ := key self
  obtain ⟨r', q1, q2, _⟩ := key other
  exact ⟨r, r', r1, q1, (ptEq_iff r2 q2).2 rfl, r2, r3⟩

/-- The scalar `2^255 + 2^254`. -/
def wideScalar : Bytes := List.replicate 31 0 ++ [0xc0]

theorem slide_wideScalar : slide wideScalar = List.replicate 254 0 ++ [3, 0] := by decide +kernel

theorem val2_wideScalar : val2 (slide wideScalar) = 3 * 2 ^ 254 := by
  rw [slide_wideScalar, val2_append, val2_zeros, List.length_replicate]
  norm_num [val2]

/-- For a scalar of 256 bits the two routines disagree: one returns the neutral element. -/
theorem C96_violated_big : ∃ r, scalarMultVar wideScalar baseExt = .ok r ∧ r.Rep ((3 * 2 ^ 254) • basePt) ∧
    (scalarMult wideScalar baseExt).Rep 0 ∧ ptEq r (scalarMult wideScalar baseExt) = false := by
  obtain ⟨r, h1, h2⟩ := scalarMultVar_gen (a := wideScalar) baseExt_rep rfl
  have h3 := scalarMult_gen (a := wideScalar) baseExt_rep rfl
  rw [val2_wideScalar] at h2
  have e : (((leNat wideScalar : Nat) : Int) -
      (if (digits wideScalar).getD 63 0 ≤ 8 then 0 else 16 ^ 63 * (digits wideScalar).getD 63 0)) = 0 := by decide +kernel
  rw [e, zero_smul] at h3
  have h4 : r.Rep ((3 * 2 ^ 254 : Nat) • basePt) := by
    rw [← natCast_zsmul]
    exact h2
  refine ⟨r, h1, h4, h3, ?_⟩
  rw [← Bool.not_eq_true, ptEq_iff h4 h3]
  intro h0
  have := addOrderOf_dvd_of_nsmul_eq_zero h0
  rw [addOrderOf_base] at this
  revert this
  decide +kernel

theorem C96_violated : ¬ C96_statement := by
  intro h
  obtain ⟨r, r', h1, h2, h3⟩ := h ⟨extZero, true⟩ ⟨extZero, false⟩ wideScalar ⟨baseExt, false⟩ rfl base_valid
  obtain ⟨g, g1, _, _, g4⟩ := C96_violated_big
  unfold Pt.mul at h1 h2
  simp only [if_true] at h1
  rw [g1] at h1
  cases h1
  simp only [Bool.false_eq_true, if_false] at h2
  cases h2
  unfold Pt.eq at h3
  rw [g4] at h3
  cases h3

/-- Meeting the hypotheses: a scalar whose digits are not its bits. -/
example : (slide (31 :: List.replicate 31 0)).take 7 = [-1, 0, 0, 0, 0, 1, 0] ∧
    leNat (31 :: List.replicate 31 0) < 2 ^ 255 := by decide +kernel

example : ∃ r r', (⟨extZero, true⟩ : Pt).mul (31 :: List.replicate 31 0) (some ⟨baseExt, false⟩) = .ok r ∧
    Pt.new.mul (31 :: List.replicate 31 0) (some ⟨baseExt, false⟩) = .ok r' ∧ r.eq r' = true := by
  obtain ⟨r, r', h1, h2, h3, _⟩ := C96_agree_partial ⟨extZero, true⟩ Pt.new (31 :: List.replicate 31 0)
    ⟨baseExt, false⟩ rfl (by decide +kernel) base_valid
  exact ⟨r, r', h1, h2, h3⟩

end Kyber.Ed
