/-
The encoding of field elements: `fe_to_bytes` writes the canonical representative.
-/
import Verif.Lemmas.Ed.Fe

namespace Kyber.Ed

open Kyber Kyber.ModInt

theorem wrap32_of {x : Int} (h1 : -2147483648 ≤ x) (h2 : x < 2147483648) : wrap 32 x = x :=
  wrap_eq (by norm_num) (by norm_num; omega) (by norm_num; omega)

theorem Bdd.bounds {A : List Int} {f : Fe} (h : Bdd A f) (i : Nat) :
    -A.getD i 0 ≤ limb f i ∧ limb f i ≤ A.getD i 0 := abs_le.1 (h.2 i)

/-- The quotient computed by `fe_to_bytes` is the quotient by the prime. -/
theorem toBytesQ_spec {f : Fe} (hf : Loose f) :
    0 ≤ feInt f - (2 ^ 255 - 19) * toBytesQ f ∧ feInt f - (2 ^ 255 - 19) * toBytesQ f < 2 ^ 255 - 19 ∧
      -4 ≤ toBytesQ f ∧ toBytesQ f ≤ 4 := by
  have b0 := hf.bounds 0
  have b1 := hf.bounds 1
  have b2 := hf.bounds 2
  have b3 := hf.bounds 3
  have b4 := hf.bounds 4
  have b5 := hf.bounds 5
  have b6 := hf.bounds 6
  have b7 := hf.bounds 7
  have b8 := hf.bounds 8
  have b9 := hf.bounds 9
  obtain ⟨x0, x1, x2, x3, x4, x5, x6, x7, x8, x9, rfl⟩ := list10 hf.1
  simp only [limb, looseA, List.getD_cons_zero, List.getD_cons_succ] at b0 b1 b2 b3 b4 b5 b6 b7 b8 b9
  clear hf
  simp only [toBytesQ, sar, limb, limbBits, List.range, List.range.loop, List.foldl, List.getD_cons_zero,
    List.getD_cons_succ, feInt, feW, dot, Int.cast_id]
  rw [wrap32_of (x := 19 * x9) (by omega) (by omega),
    wrap32_of (x := 19 * x9 + 2 ^ 24) (by omega) (by omega)]
  obtain ⟨q0, hq0⟩ : ∃ q0, q0 = (19 * x9 + 2 ^ 24) / 2 ^ 25 := ⟨_, rfl⟩
  rw [← hq0]
  have c0 : -64 ≤ q0 ∧ q0 ≤ 64 := by omega
  have d0 : 2 ^ 25 * q0 ≤ 19 * x9 + 2 ^ 24 ∧ 19 * x9 + 2 ^ 24 ≤ 2 ^ 25 * q0 + (2 ^ 25 - 1) := by omega
  clear hq0
  rw [wrap32_of (x := x0 + q0) (by omega) (by omega)]
  obtain ⟨q1, hq1⟩ : ∃ q, q = (x0 + q0) / 2 ^ 26 := ⟨_, rfl⟩
  rw [← hq1]
  have c1 : -4 ≤ q1 ∧ q1 ≤ 4 := by omega
  have d1 : 2 ^ 26 * q1 ≤ x0 + q0 ∧ x0 + q0 ≤ 2 ^ 26 * q1 + (2 ^ 26 - 1) := by omega
  clear hq1
  rw [wrap32_of (x := x1 + q1) (by omega) (by omega)]
  obtain ⟨q2, hq2⟩ : ∃ q, q = (x1 + q1) / 2 ^ 25 := ⟨_, rfl⟩
  rw [← hq2]
  have c2 : -4 ≤ q2 ∧ q2 ≤ 4 := by omega
  have d2 : 2 ^ 25 * q2 ≤ x1 + q1 ∧ x1 + q1 ≤ 2 ^ 25 * q2 + (2 ^ 25 - 1) := by omega
  clear hq2
  rw [wrap32_of (x := x2 + q2) (by omega) (by omega)]
  obtain ⟨q3, hq3⟩ : ∃ q, q = (x2 + q2) / 2 ^ 26 := ⟨_, rfl⟩
  rw [← hq3]
  have c3 : -4 ≤ q3 ∧ q3 ≤ 4 := by omega
  have d3 : 2 ^ 26 * q3 ≤ x2 + q2 ∧ x2 + q2 ≤ 2 ^ 26 * q3 + (2 ^ 26 - 1) := by omega
  clear hq3
  rw [wrap32_of (x := x3 + q3) (by omega) (by omega)]
  obtain ⟨q4, hq4⟩ : ∃ q, q = (x3 + q3) / 2 ^ 25 := ⟨_, rfl⟩
  rw [← hq4]
  have c4 : -4 ≤ q4 ∧ q4 ≤ 4 := by omega
  have d4 : 2 ^ 25 * q4 ≤ x3 + q3 ∧ x3 + q3 ≤ 2 ^ 25 * q4 + (2 ^ 25 - 1) := by omega
  clear hq4
  rw [wrap32_of (x := x4 + q4) (by omega) (by omega)]
  obtain ⟨q5, hq5⟩ : ∃ q, q = (x4 + q4) / 2 ^ 26 := ⟨_, rfl⟩
  rw [← hq5]
  have c5 : -4 ≤ q5 ∧ q5 ≤ 4 := by omega
  have d5 : 2 ^ 26 * q5 ≤ x4 + q4 ∧ x4 + q4 ≤ 2 ^ 26 * q5 + (2 ^ 26 - 1) := by omega
  clear hq5
  rw [wrap32_of (x := x5 + q5) (by omega) (by omega)]
  obtain ⟨q6, hq6⟩ : ∃ q, q = (x5 + q5) / 2 ^ 25 := ⟨_, rfl⟩
  rw [← hq6]
  have c6 : -4 ≤ q6 ∧ q6 ≤ 4 := by omega
  have d6 : 2 ^ 25 * q6 ≤ x5 + q5 ∧ x5 + q5 ≤ 2 ^ 25 * q6 + (2 ^ 25 - 1) := by omega
  clear hq6
  rw [wrap32_of (x := x6 + q6) (by omega) (by omega)]
  obtain ⟨q7, hq7⟩ : ∃ q, q = (x6 + q6) / 2 ^ 26 := ⟨_, rfl⟩
  rw [← hq7]
  have c7 : -4 ≤ q7 ∧ q7 ≤ 4 := by omega
  have d7 : 2 ^ 26 * q7 ≤ x6 + q6 ∧ x6 + q6 ≤ 2 ^ 26 * q7 + (2 ^ 26 - 1) := by omega
  clear hq7
  rw [wrap32_of (x := x7 + q7) (by omega) (by omega)]
  obtain ⟨q8, hq8⟩ : ∃ q, q = (x7 + q7) / 2 ^ 25 := ⟨_, rfl⟩
  rw [← hq8]
  have c8 : -4 ≤ q8 ∧ q8 ≤ 4 := by omega
  have d8 : 2 ^ 25 * q8 ≤ x7 + q7 ∧ x7 + q7 ≤ 2 ^ 25 * q8 + (2 ^ 25 - 1) := by omega
  clear hq8
  rw [wrap32_of (x := x8 + q8) (by omega) (by omega)]
  obtain ⟨q9, hq9⟩ : ∃ q, q = (x8 + q8) / 2 ^ 26 := ⟨_, rfl⟩
  rw [← hq9]
  have c9 : -4 ≤ q9 ∧ q9 ≤ 4 := by omega
  have d9 : 2 ^ 26 * q9 ≤ x8 + q8 ∧ x8 + q8 ≤ 2 ^ 26 * q9 + (2 ^ 26 - 1) := by omega
  clear hq9
  rw [wrap32_of (x := x9 + q9) (by omega) (by omega)]
  obtain ⟨q10, hq10⟩ : ∃ q, q = (x9 + q9) / 2 ^ 25 := ⟨_, rfl⟩
  rw [← hq10]
  have c10 : -4 ≤ q10 ∧ q10 ≤ 4 := by omega
  have d10 : 2 ^ 25 * q10 ≤ x9 + q9 ∧ x9 + q9 ≤ 2 ^ 25 * q10 + (2 ^ 25 - 1) := by omega
  clear hq10
  have hH : x0 + (2 ^ 26 * x1 + (2 ^ 51 * x2 + (2 ^ 77 * x3 + (2 ^ 102 * x4 + (2 ^ 128 * x5 + (2 ^ 153 * x6 +
      (2 ^ 179 * x7 + (2 ^ 204 * x8 + 2 ^ 230 * x9)))))))) + q0 - 2 ^ 255 * q10 ≥ 0 ∧
    x0 + (2 ^ 26 * x1 + (2 ^ 51 * x2 + (2 ^ 77 * x3 + (2 ^ 102 * x4 + (2 ^ 128 * x5 + (2 ^ 153 * x6 +
      (2 ^ 179 * x7 + (2 ^ 204 * x8 + 2 ^ 230 * x9)))))))) + q0 - 2 ^ 255 * q10 ≤ 2 ^ 255 - 1 := by
    constructor <;> linarith
  refine ⟨?_, ?_, by omega, by omega⟩
  · by_contra hneg
    push Not at hneg
    linarith
  · by_contra hge
    push Not at hge
    linarith

/-- The weights with the dropped limb. -/
def feW11 : List Int :=
  [1, 2 ^ 26, 2 ^ 51, 2 ^ 77, 2 ^ 102, 2 ^ 128, 2 ^ 153, 2 ^ 179, 2 ^ 204, 2 ^ 230, 2 ^ 255]

/-- Bounds before the last carries of `fe_to_bytes`. -/
def toB : List (Int × Int) :=
  [(-110729701, 110729701), (-55364812, 55364812), (-110729625, 110729625), (-55364812, 55364812),
   (-110729625, 110729625), (-55364812, 55364812), (-110729625, 110729625), (-55364812, 55364812),
   (-110729625, 110729625), (-55364812, 55364812), (0, 0)]

theorem toBytesCarries_keeps : ∀ o ∈ toBytesCarries, o.keeps feW11 := by
  intro o ho
  simp only [toBytesCarries, List.mem_cons, List.not_mem_nil, or_false] at ho
  rcases ho with rfl | rfl | rfl | rfl | rfl | rfl | rfl | rfl | rfl | rfl <;>
    simp only [LOp.keeps, feW11, List.getD_cons_zero, List.getD_cons_succ] <;> norm_num

/-- Bounds after the last carries. -/
def outB : List (Int × Int) :=
  [(0, 67108863), (0, 33554431), (0, 67108863), (0, 33554431), (0, 67108863), (0, 33554431), (0, 67108863),
   (0, 33554431), (0, 67108863), (0, 33554431), (-8, 8)]

theorem list11 {f : List Int} (h : f.length = 11) : ∃ x0 x1 x2 x3 x4 x5 x6 x7 x8 x9 x10 : Int, f = [x0, x1, x2, x3, x4, x5, x6, x7, x8, x9, x10] := by
  match f, h with
  | [x0, x1, x2, x3, x4, x5, x6, x7, x8, x9, x10], _ => exact ⟨x0, x1, x2, x3, x4, x5, x6, x7, x8, x9, x10, rfl⟩

/-- The limbs after the last carries: ten non-negative limbs that stand for the representative. -/
theorem toBytes_limbs {f : Fe} (hf : Loose f) : ∃ n0 n1 n2 n3 n4 n5 n6 n7 n8 n9 : Nat, ∃ z : Int,
    runOps 32 toBytesCarries ((f.set 0 (wrap 32 (limb f 0 + wrap 32 (19 * toBytesQ f)))) ++ [0]) =
      [(n0 : Int), (n1 : Int), (n2 : Int), (n3 : Int), (n4 : Int), (n5 : Int), (n6 : Int), (n7 : Int), (n8 : Int), (n9 : Int), z] ∧ n0 < 2 ^ 26 ∧ n1 < 2 ^ 25 ∧ n2 < 2 ^ 26 ∧ n3 < 2 ^ 25 ∧ n4 < 2 ^ 26 ∧ n5 < 2 ^ 25 ∧ n6 < 2 ^ 26 ∧ n7 < 2 ^ 25 ∧ n8 < 2 ^ 26 ∧ n9 < 2 ^ 25 ∧
    ((n0 + 2 ^ 26 * n1 + 2 ^ 51 * n2 + 2 ^ 77 * n3 + 2 ^ 102 * n4 + 2 ^ 128 * n5 + 2 ^ 153 * n6 + 2 ^ 179 * n7 + 2 ^ 204 * n8 + 2 ^ 230 * n9 : Nat) : Int) = feInt f - (2 ^ 255 - 19) * toBytesQ f := by
  obtain ⟨r0, r1, qlo, qhi⟩ := toBytesQ_spec hf
  generalize toBytesQ f = q at *
  have b0 := hf.bounds 0
  have b1 := hf.bounds 1
  have b2 := hf.bounds 2
  have b3 := hf.bounds 3
  have b4 := hf.bounds 4
  have b5 := hf.bounds 5
  have b6 := hf.bounds 6
  have b7 := hf.bounds 7
  have b8 := hf.bounds 8
  have b9 := hf.bounds 9
  obtain ⟨x0, x1, x2, x3, x4, x5, x6, x7, x8, x9, rfl⟩ := list10 hf.1
  simp only [limb, looseA, List.getD_cons_zero, List.getD_cons_succ] at b0 b1 b2 b3 b4 b5 b6 b7 b8 b9
  simp only [feInt, feW, dot, Int.cast_id] at r0 r1
  simp only [limb, List.getD_cons_zero, List.set_cons_zero, List.cons_append, List.nil_append, feInt, feW, dot,
    Int.cast_id]
  rw [wrap32_of (x := 19 * q) (by omega) (by omega), wrap32_of (x := x0 + 19 * q) (by omega) (by omega)]
  have hB : InB [x0 + 19 * q, x1, x2, x3, x4, x5, x6, x7, x8, x9, 0] toB := by
    refine ⟨rfl, fun i hi => ?_⟩
    have hi : i < 11 := hi
    interval_cases i <;>
      simp only [toB, limb, List.getD_cons_zero, List.getD_cons_succ] <;> constructor <;> omega
  have hb : ∃ B', bndOps 32 toBytesCarries toB = some B' ∧ B'.length = 11 ∧
      ∀ i < 11, (outB.getD i (0, 0)).1 ≤ (B'.getD i (0, 0)).1 ∧
        (B'.getD i (0, 0)).2 ≤ (outB.getD i (0, 0)).2 := by
    refine ⟨((bndOps 32 toBytesCarries toB).getD []), ?_, ?_, ?_⟩ <;> decide +kernel
  obtain ⟨B', hb1, hb2, hb3⟩ := hb
  obtain ⟨s1, s2⟩ := runOps_sound 32 (by norm_num) toBytesCarries _ toB B' hB hb1
  have hv := runOps_value feW11 32 (by norm_num) toBytesCarries _ toB B' hB hb1 (by simp [feW11])
    toBytesCarries_keeps
  rw [← s1] at s2
  have s3 : InB _ outB := s2.mono (B' := outB) hb2 (by rw [hb2]; exact hb3)
  generalize runOps 32 toBytesCarries [x0 + 19 * q, x1, x2, x3, x4, x5, x6, x7, x8, x9, 0] = h at *
  have hl : h.length = 11 := s3.1
  obtain ⟨y0, y1, y2, y3, y4, y5, y6, y7, y8, y9, y10, rfl⟩ := list11 hl
  have k0 := s3.2 0 (by decide)
  have k1 := s3.2 1 (by decide)
  have k2 := s3.2 2 (by decide)
  have k3 := s3.2 3 (by decide)
  have k4 := s3.2 4 (by decide)
  have k5 := s3.2 5 (by decide)
  have k6 := s3.2 6 (by decide)
  have k7 := s3.2 7 (by decide)
  have k8 := s3.2 8 (by decide)
  have k9 := s3.2 9 (by decide)
  have k10 := s3.2 10 (by decide)
  simp only [limb, outB, List.getD_cons_zero, List.getD_cons_succ] at k0 k1 k2 k3 k4 k5 k6 k7 k8 k9 k10
  simp only [feW11, dot, Int.cast_id] at hv
  refine ⟨y0.toNat, y1.toNat, y2.toNat, y3.toNat, y4.toNat, y5.toNat, y6.toNat, y7.toNat, y8.toNat, y9.toNat, y10, ?_, ?_⟩
  · rw [Int.toNat_of_nonneg k0.1, Int.toNat_of_nonneg k1.1, Int.toNat_of_nonneg k2.1, Int.toNat_of_nonneg k3.1, Int.toNat_of_nonneg k4.1, Int.toNat_of_nonneg k5.1, Int.toNat_of_nonneg k6.1, Int.toNat_of_nonneg k7.1, Int.toNat_of_nonneg k8.1, Int.toNat_of_nonneg k9.1]
  · refine ⟨by omega, by omega, by omega, by omega, by omega, by omega, by omega, by omega, by omega, by omega, ?_⟩
    push_cast
    rw [Int.toNat_of_nonneg k0.1, Int.toNat_of_nonneg k1.1, Int.toNat_of_nonneg k2.1, Int.toNat_of_nonneg k3.1, Int.toNat_of_nonneg k4.1, Int.toNat_of_nonneg k5.1, Int.toNat_of_nonneg k6.1, Int.toNat_of_nonneg k7.1, Int.toNat_of_nonneg k8.1, Int.toNat_of_nonneg k9.1]
    have hq : y10 = q := by omega
    subst hq
    linarith

/-! ## Bytes -/

theorem u8_nat (n : Nat) : u8 (n : Int) = UInt8.ofNat n := by
  unfold u8
  rw [show ((n : Int) % 256) = ((n % 256 : Nat) : Int) by push_cast; rfl, Int.toNat_natCast]
  apply UInt8.toNat_inj.1
  simp

theorem u8_sar (n k : Nat) : u8 (sar (n : Int) k) = UInt8.ofNat (n / 2 ^ k) := by
  rw [← u8_nat]
  unfold sar
  push_cast
  rfl

theorem u8_shl (n k : Nat) : u8 ((n : Int) * 2 ^ k) = UInt8.ofNat (2 ^ k * n) := by
  rw [← u8_nat]
  push_cast
  rw [Int.mul_comm]

theorem ofNat_or (a b k : Nat) (hk : k ≤ 8) (h : a < 2 ^ k) :
    UInt8.ofNat a ||| UInt8.ofNat (2 ^ k * b) = UInt8.ofNat (a + 2 ^ k * b) := by
  rw [← UInt8.ofNat_or, Nat.or_comm, ← Nat.two_pow_add_eq_or_of_lt h, Nat.add_comm]

theorem ofNat_congr {a b : Nat} (h : a % 256 = b % 256) : UInt8.ofNat a = UInt8.ofNat b := by
  apply UInt8.toNat_inj.1
  simpa using h

theorem leBytes_eq_map (l n : Nat) : leBytes l n = (List.range l).map (fun k => UInt8.ofNat (n / 256 ^ k)) := by
  induction l generalizing n with
  | zero => rfl
  | succ l ih =>
    rw [leBytes, ih, List.range_succ_eq_map, List.map_cons, List.map_map]
    congr 1
    · apply ofNat_congr; simp
    · apply List.map_congr_left
      intro k _
      simp only [Function.comp_apply, Nat.succ_eq_add_one]
      rw [Nat.div_div_eq_div_mul, pow_succ, Nat.mul_comm]

set_option maxHeartbeats 4000000 in
theorem feBytes_eq (n0 n1 n2 n3 n4 n5 n6 n7 n8 n9 : Nat) (z : Int) (h0 : n0 < 2 ^ 26) (h1 : n1 < 2 ^ 25) (h2 : n2 < 2 ^ 26) (h3 : n3 < 2 ^ 25) (h4 : n4 < 2 ^ 26) (h5 : n5 < 2 ^ 25) (h6 : n6 < 2 ^ 26) (h7 : n7 < 2 ^ 25) (h8 : n8 < 2 ^ 26) (h9 : n9 < 2 ^ 25) :
    feBytes [(n0 : Int), (n1 : Int), (n2 : Int), (n3 : Int), (n4 : Int), (n5 : Int), (n6 : Int), (n7 : Int), (n8 : Int), (n9 : Int), z] = leBytes 32 (n0 + 2 ^ 26 * n1 + 2 ^ 51 * n2 + 2 ^ 77 * n3 + 2 ^ 102 * n4 + 2 ^ 128 * n5 + 2 ^ 153 * n6 + 2 ^ 179 * n7 + 2 ^ 204 * n8 + 2 ^ 230 * n9) := by
  rw [leBytes_eq_map]
  simp only [feBytes, limb, List.getD_cons_zero, List.getD_cons_succ, u8_sar, u8_shl, u8_nat, List.range,
    List.range.loop, List.map]
  rw [ofNat_or (n0 / 2 ^ 24) n1 2 (by norm_num) (by omega),
    ofNat_or (n1 / 2 ^ 22) n2 3 (by norm_num) (by omega),
    ofNat_or (n2 / 2 ^ 21) n3 5 (by norm_num) (by omega),
    ofNat_or (n3 / 2 ^ 19) n4 6 (by norm_num) (by omega),
    ofNat_or (n5 / 2 ^ 24) n6 1 (by norm_num) (by omega),
    ofNat_or (n6 / 2 ^ 23) n7 3 (by norm_num) (by omega),
    ofNat_or (n7 / 2 ^ 21) n8 4 (by norm_num) (by omega),
    ofNat_or (n8 / 2 ^ 20) n9 6 (by norm_num) (by omega)]
  obtain ⟨V, hV⟩ : ∃ V, V = n0 + 2 ^ 26 * n1 + 2 ^ 51 * n2 + 2 ^ 77 * n3 + 2 ^ 102 * n4 + 2 ^ 128 * n5 + 2 ^ 153 * n6 + 2 ^ 179 * n7 + 2 ^ 204 * n8 + 2 ^ 230 * n9 := ⟨_, rfl⟩
  rw [← hV]
  simp only [List.cons.injEq, and_true]
  refine ⟨?_, ?_, ?_, ?_, ?_, ?_, ?_, ?_, ?_, ?_, ?_, ?_, ?_, ?_, ?_, ?_, ?_, ?_, ?_, ?_, ?_, ?_, ?_, ?_, ?_, ?_, ?_, ?_, ?_, ?_, ?_, ?_⟩ <;>
    (apply ofNat_congr; norm_num only at *; omega)

theorem natCast_P : ((P : Nat) : Int) = 2 ^ 255 - 19 := by
  unfold P; norm_num

/-- A number between `0` and the prime that differs by a multiple of it is the representative. -/
theorem val_of_feInt {f : Fe} {V : Nat} {q : Int} (hV : (V : Int) = feInt f - (2 ^ 255 - 19) * q)
    (h : feInt f - (2 ^ 255 - 19) * q < 2 ^ 255 - 19) : (feVal f).val = V := by
  rw [← natCast_P] at hV h
  have hlt : V < P := by
    have : (V : Int) < P := by rw [hV]; exact h
    exact Int.ofNat_lt.1 this
  have : feVal f = ((V : Nat) : Fp) := by
    rw [feVal_eq]
    have h3 : feInt f = (V : Int) + (P : Int) * q := by rw [hV]; ring
    rw [h3]
    push_cast
    rw [ZMod.natCast_self]
    ring
  rw [this, ZMod.val_natCast_of_lt hlt]

/-- `fe_to_bytes` writes the little-endian canonical representative. -/
theorem feToBytes_spec {f : Fe} (hf : Loose f) : feToBytes f = leBytes 32 (feVal f).val := by
  obtain ⟨-, r1, -, -⟩ := toBytesQ_spec hf
  obtain ⟨n0, n1, n2, n3, n4, n5, n6, n7, n8, n9, z, h1, k0, k1, k2, k3, k4, k5, k6, k7, k8, k9, h2⟩ := toBytes_limbs hf
  unfold feToBytes
  rw [h1, feBytes_eq n0 n1 n2 n3 n4 n5 n6 n7 n8 n9 z k0 k1 k2 k3 k4 k5 k6 k7 k8 k9, val_of_feInt h2 r1]

theorem val_lt_pow (x : Fp) : x.val < 2 ^ 255 := by
  have h := ZMod.val_lt x
  have hP : P < 2 ^ 255 := by decide +kernel
  omega

theorem feIsNegative_spec {f : Fe} (hf : Loose f) : feIsNegative f = UInt8.ofNat ((feVal f).val % 2) := by
  unfold feIsNegative
  rw [feToBytes_spec hf]
  generalize (feVal f).val = n
  have h0 : (leBytes 32 n).getD 0 0 = UInt8.ofNat (n % 256) := rfl
  rw [h0]
  apply UInt8.toNat_inj.1
  simp only [UInt8.toNat_and, UInt8.toNat_ofNat', UInt8.reduceToNat, Nat.and_one_is_mod]
  omega

theorem foldl_or_zero (l : Bytes) (x : UInt8) : l.foldl (fun x b => x ||| b) x = 0 ↔ x = 0 ∧ ∀ b ∈ l, b = 0 := by
  induction l generalizing x with
  | nil => simp
  | cons b l ih =>
    rw [List.foldl_cons, ih]
    have : x ||| b = 0 ↔ x = 0 ∧ b = 0 := by
      rw [← UInt8.toNat_inj, ← UInt8.toNat_inj, ← UInt8.toNat_inj, UInt8.toNat_or]
      exact Nat.or_eq_zero_iff
    rw [this]
    simp [and_assoc]

theorem smear (x : UInt8) :
    ((((x ||| x >>> 4) ||| (x ||| x >>> 4) >>> 2) ||| ((x ||| x >>> 4) ||| (x ||| x >>> 4) >>> 2) >>> 1) &&& 1) =
      if x = 0 then 0 else 1 := by
  have h : ∀ n < 256, (fun x : UInt8 =>
      ((((x ||| x >>> 4) ||| (x ||| x >>> 4) >>> 2) ||| ((x ||| x >>> 4) ||| (x ||| x >>> 4) >>> 2) >>> 1) &&& 1) =
        if x = 0 then 0 else 1) (UInt8.ofNat n) := by decide +kernel
  have := h x.toNat x.toNat_lt
  rwa [UInt8.ofNat_toNat] at this

theorem leNat_eq_zero (b : Bytes) : leNat b = 0 ↔ ∀ x ∈ b, x = 0 := by
  induction b with
  | nil => simp [leNat]
  | cons x b ih =>
    rw [leNat, List.forall_mem_cons, ← ih, ← UInt8.toNat_inj]
    simp

theorem feIsNonZero_spec {f : Fe} (hf : Loose f) : feIsNonZero f = if feVal f = 0 then 0 else 1 := by
  unfold feIsNonZero
  simp only
  rw [smear]
  have hz : (feToBytes f).foldl (fun x b => x ||| b) (0 : UInt8) = 0 ↔ feVal f = 0 := by
    rw [foldl_or_zero, feToBytes_spec hf, ← leNat_eq_zero, leNat_leBytes]
    have := val_lt_pow (feVal f)
    rw [Nat.mod_eq_of_lt (by norm_num; omega), ZMod.val_eq_zero]
    simp
  by_cases h : feVal f = 0
  · rw [if_pos (hz.2 h), if_pos h]; rfl
  · rw [if_neg (fun h' => h (hz.1 h')), if_neg h]; rfl

end Kyber.Ed
