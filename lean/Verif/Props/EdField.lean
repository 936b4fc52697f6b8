/-
Field arithmetic modulo `2^255 - 19` (C46, C47, C48).

The value of a limb vector is `t[0] + 2^26 t[1] + 2^51 t[2] + ... + 2^230 t[9]`, as the documentation
of `FieldElement` says (fe.rs:4-7); `feInt` is that integer and `feVal` its class modulo `2^255 - 19`.
`Loose` and `Tight` are the documented bounds of inputs and outputs.
-/
import Verif.Lemmas.Ed.FeBytes

namespace Kyber.Ed

open Kyber Kyber.ModInt

/-- What the value of ten limbs is. -/
theorem C46_value (x0 x1 x2 x3 x4 x5 x6 x7 x8 x9 : Int) :
    feVal [x0, x1, x2, x3, x4, x5, x6, x7, x8, x9] =
      ((x0 + 2 ^ 26 * x1 + 2 ^ 51 * x2 + 2 ^ 77 * x3 + 2 ^ 102 * x4 + 2 ^ 128 * x5 + 2 ^ 153 * x6 +
        2 ^ 179 * x7 + 2 ^ 204 * x8 + 2 ^ 230 * x9 : Int) : ZMod (2 ^ 255 - 19)) := by
  show feVal _ = ((_ : Int) : ZMod P)
  rw [feVal_eq]
  simp only [feInt, feW, dot, Int.cast_id]
  congr 1
  ring

/-- `2^255 - 19` is a prime, so the limbs compute in a field. -/
theorem C46_prime : Nat.Prime (2 ^ 255 - 19) := prime_p

/-! Limb vectors at the bounds, with both signs; the theorems below are applied to them. -/

/-- at the bounds of products -/
def exTight : Fe := [36909875, -18454937, 36909875, 18454937, -36909875, 18454937, 1, 2, 3, -18454937]
/-- at the bounds of sums of two -/
def exMid : Fe := [73819750, -36909874, 73819750, 36909874, -73819750, 36909874, 1, 2, 3, -36909874]
/-- at the bounds of sums of three -/
def exLoose : Fe := [110729625, -55364812, 110729625, 55364812, -110729625, 55364812, 1, 2, 3, -55364812]

theorem exTight_tight : Tight exTight := by
  refine ⟨rfl, fun i => ?_⟩
  by_cases hi : i < 10
  · interval_cases i <;> decide
  · rw [limb_of_le (by simp [exTight]; omega), getD_of_le _ _ (by simp [tightA]; omega)]; simp

theorem exMid_mid : Mid exMid := by
  refine ⟨rfl, fun i => ?_⟩
  by_cases hi : i < 10
  · interval_cases i <;> decide
  · rw [limb_of_le (by simp [exMid]; omega), getD_of_le _ _ (by simp [midA]; omega)]; simp

theorem exLoose_loose : Loose exLoose := by
  refine ⟨rfl, fun i => ?_⟩
  by_cases hi : i < 10
  · interval_cases i <;> decide
  · rw [limb_of_le (by simp [exLoose]; omega), getD_of_le _ _ (by simp [looseA]; omega)]; simp

/-- Addition: inputs within the bounds of products, outputs within the bounds of factors. -/
theorem C46_add {f g : Fe} (hf : Tight f) (hg : Tight g) :
    Mid (feAdd f g) ∧ feVal (feAdd f g) = feVal f + feVal g :=
  feAdd_gen hf hg (by decide) (by decide)

example : feVal (feAdd exTight exTight) = feVal exTight + feVal exTight := (C46_add exTight_tight exTight_tight).2

theorem C46_sub {f g : Fe} (hf : Tight f) (hg : Tight g) :
    Mid (feSub f g) ∧ feVal (feSub f g) = feVal f - feVal g :=
  feSub_gen hf hg (by decide) (by decide)

example : feVal (feSub exTight (feNeg exTight)) = feVal exTight - feVal (feNeg exTight) :=
  (C46_sub exTight_tight (feNeg_gen exTight_tight (by decide) (by decide)).1).2

/-- A third summand still leaves a valid factor. -/
theorem C46_add_add {f g : Fe} (hf : Mid f) (hg : Tight g) :
    Loose (feAdd f g) ∧ feVal (feAdd f g) = feVal f + feVal g :=
  feAdd_gen hf hg (by decide) (by decide)

example : Loose (feAdd exMid exTight) := (C46_add_add exMid_mid exTight_tight).1

theorem C46_sub_sub {f g : Fe} (hf : Mid f) (hg : Tight g) :
    Loose (feSub f g) ∧ feVal (feSub f g) = feVal f - feVal g :=
  feSub_gen hf hg (by decide) (by decide)

example : Loose (feSub exMid exTight) := (C46_sub_sub exMid_mid exTight_tight).1

theorem C46_neg {f : Fe} (hf : Tight f) : Tight (feNeg f) ∧ feVal (feNeg f) = -feVal f :=
  feNeg_gen hf (by decide) (by decide)

example : feVal (feNeg exTight) = -feVal exTight := (C46_neg exTight_tight).2

/-- Multiplication: exact modulo `p`, and the result is within the documented output bounds
`1.01 * 2^25`, `1.01 * 2^24`, whatever the inputs within `1.65 * 2^26`, `1.65 * 2^25`. -/
theorem C46_mul {f g : Fe} (hf : Loose f) (hg : Loose g) :
    Reduced (feMul f g) ∧ feVal (feMul f g) = feVal f * feVal g := feMul_reduced hf hg

example : Reduced (feMul exLoose exLoose) := (C46_mul exLoose_loose exLoose_loose).1

theorem C46_square {f : Fe} (hf : Loose f) :
    Reduced (feSquare f) ∧ feVal (feSquare f) = feVal f ^ 2 := feSquare_reduced hf

example : feVal (feSquare exLoose) = feVal exLoose ^ 2 := (C46_square exLoose_loose).2

theorem C46_square2 {f : Fe} (hf : Loose f) :
    Reduced (feSquare2 f) ∧ feVal (feSquare2 f) = 2 * feVal f ^ 2 := feSquare2_reduced hf

example : feVal (feSquare2 exLoose) = 2 * feVal exLoose ^ 2 := (C46_square2 exLoose_loose).2

/-- The output bounds are input bounds, so operations compose without further reduction. -/
theorem C46_compose {f : Fe} (h : Reduced f) : Tight f ∧ Mid f ∧ Loose f :=
  ⟨h.tight, h.tight.mid, h.tight.loose⟩

example : Tight (feMul exLoose exMid) := (C46_compose (C46_mul exLoose_loose (by
  refine ⟨rfl, fun i => ?_⟩
  by_cases hi : i < 10
  · interval_cases i <;> decide
  · rw [limb_of_le (by simp [exMid]; omega), getD_of_le _ _ (by simp [looseA]; omega)]; simp)).1).1

/-- No product, sum of products or carry of a multiplication leaves its machine type: every factor
fits `i32`, the absolute values of the products of every sum add up to less than `2^63`, and the
carries run exactly as on unbounded integers. -/
theorem C46_mul_no_overflow {f g : Fe} (hf : Loose f) (hg : Loose g) :
    (∀ ts ∈ mulTerms, ∀ t ∈ ts, |t.cf * limb f t.i| < 2 ^ 31 ∧ |t.cg * limb g t.j| < 2 ^ 31) ∧
    (∀ ts ∈ mulTerms, (ts.map (fun t => |t.cf * limb f t.i * (t.cg * limb g t.j)|)).sum < 2 ^ 63) ∧
    runOps 64 mulCarries (mulTerms.map (sumTerms f g)) =
      runOpsX mulCarries (mulTerms.map (exactTerms f g)) := by
  have hok : ∀ ts ∈ mulTerms, okTerms looseA looseA ts = true := by decide +kernel
  refine ⟨?_, ?_, ?_⟩
  · intro ts hts t ht
    have h := hok ts hts
    unfold okTerms at h
    simp only [Bool.and_eq_true, List.all_eq_true, decide_eq_true_eq] at h
    obtain ⟨⟨⟨c1, c2⟩, c3⟩, c4⟩ := h.1 t ht
    exact ⟨(abs_mul_le c1 (hf.2 t.i)).trans_lt c3, (abs_mul_le c2 (hg.2 t.j)).trans_lt c4⟩
  · intro ts hts
    have h := hok ts hts
    unfold okTerms at h
    simp only [Bool.and_eq_true, List.all_eq_true, decide_eq_true_eq] at h
    refine lt_of_le_of_lt ?_ h.2
    unfold boundTerms
    apply List.sum_le_sum
    intro t ht
    obtain ⟨⟨⟨c1, c2⟩, -⟩, -⟩ := h.1 t ht
    rw [abs_mul]
    have b1 := abs_mul_le c1 (hf.2 t.i)
    exact mul_le_mul b1 (abs_mul_le c2 (hg.2 t.j)) (abs_nonneg _) ((abs_nonneg _).trans b1)
  · obtain ⟨h1, h2⟩ := InB_map_terms hf hg mulTerms (by decide +kernel)
    rw [h1]
    have hb : ∃ B', bndOps 64 mulCarries
        (mulTerms.map (fun ts => (-boundTerms looseA looseA ts, boundTerms looseA looseA ts))) = some B' :=
      Option.isSome_iff_exists.1 (by decide +kernel)
    obtain ⟨B', hb⟩ := hb
    exact (runOps_sound 64 (by norm_num) mulCarries _ _ B' h2 hb).1

example := C46_mul_no_overflow exLoose_loose exLoose_loose

/-- Conditional move takes the second operand exactly when the flag is one. -/
theorem C46_c_move {f g : Fe} (hf : Loose f) (hg : Loose g) :
    feCMove f g 0 = f ∧ feCMove f g 1 = g := feCMove_eq hf hg

example : feCMove exLoose (feMul exLoose exLoose) 1 = feMul exLoose exLoose :=
  (C46_c_move exLoose_loose (C46_compose (C46_mul exLoose_loose exLoose_loose).1).2.2).2

theorem C46_constants : feVal feZero = 0 ∧ feVal feOne = 1 ∧ Tight feZero ∧ Tight feOne := by
  refine ⟨by simp [feVal, feZero, dot, feW], by simp [feVal, feOne, dot, feW], ⟨rfl, fun i => ?_⟩, ⟨rfl, fun i => ?_⟩⟩
  all_goals
    by_cases hi : i < 10
    · interval_cases i <;> decide
    · rw [limb_of_le (by simp [feZero, feOne]; omega), getD_of_le _ _ (by simp [tightA]; omega)]; simp

/-- Limb vectors at the bounds, with both signs: the hypotheses are met and the operations do carry. -/
example : Loose [110729625, -55364812, 110729625, 55364812, -110729625, 55364812, 1, 2, 3, -55364812] := by
  refine ⟨rfl, fun i => ?_⟩
  by_cases hi : i < 10
  · interval_cases i <;> decide
  · rw [limb_of_le (by simp; omega), getD_of_le _ _ (by simp [looseA]; omega)]; simp

example : feMul [110729625, -55364812, 110729625, 55364812, -110729625, 55364812, 1, 2, 3, -55364812]
    [110729625, -55364812, 110729625, 55364812, -110729625, 55364812, 1, 2, 3, -55364812] ≠ feZero := by
  decide +kernel

/-! ## Inversion -/

/-- Inversion, with `0` for `0`. -/
theorem C47_invert {z : Fe} (hz : Loose z) :
    Tight (feInvert z) ∧ feVal (feInvert z) = (feVal z)⁻¹ := feInvert_spec hz

example : feVal (feInvert exLoose) = (feVal exLoose)⁻¹ := (C47_invert exLoose_loose).2

theorem C47_invert_mul {z : Fe} (hz : Loose z) (h0 : feVal z ≠ 0) :
    feVal (feMul (feInvert z) z) = 1 := by
  obtain ⟨h1, h2⟩ := feInvert_spec hz
  rw [(feMul_spec h1.loose hz).2, h2, inv_mul_cancel₀ h0]

/-- The exponent used for square roots is `(p - 5) / 8`. -/
theorem C47_pow22523 {z : Fe} (hz : Loose z) :
    Tight (fePow22523 z) ∧ feVal (fePow22523 z) = feVal z ^ ((2 ^ 255 - 19 - 5) / 8) := by
  obtain ⟨h1, h2⟩ := fePow22523_pow hz
  refine ⟨h1, h2.trans ?_⟩
  congr 1

example := C47_pow22523 exLoose_loose

/-! ## Encoding -/

/-- Encoding writes the least non-negative representative in 32 little-endian bytes. -/
theorem C48_to_bytes {f : Fe} (hf : Loose f) :
    (feToBytes f).length = 32 ∧ leNat (feToBytes f) < 2 ^ 255 - 19 ∧
      ((leNat (feToBytes f) : Nat) : ZMod (2 ^ 255 - 19)) = feVal f := by
  have hlt := val_lt_pow (feVal f)
  rw [feToBytes_spec hf, leNat_leBytes, Nat.mod_eq_of_lt (by norm_num; omega)]
  exact ⟨by simp, ZMod.val_lt (feVal f), ZMod.natCast_zmod_val (n := P) _⟩

example : leNat (feToBytes exLoose) < 2 ^ 255 - 19 := (C48_to_bytes exLoose_loose).2.1

/-- Two vectors are encoded alike exactly when they stand for the same field element. -/
theorem C48_to_bytes_inj {f g : Fe} (hf : Loose f) (hg : Loose g) :
    feToBytes f = feToBytes g ↔ feVal f = feVal g := by
  constructor
  · intro h
    have h1 := (C48_to_bytes hf).2.2
    have h2 := (C48_to_bytes hg).2.2
    rw [h] at h1
    exact h1.symm.trans h2
  · intro h
    rw [feToBytes_spec hf, feToBytes_spec hg, h]

example : feVal exLoose ≠ feVal exTight := fun h => absurd
  ((C48_to_bytes_inj exLoose_loose (g := exTight) (by
    refine ⟨rfl, fun i => ?_⟩
    by_cases hi : i < 10
    · interval_cases i <;> decide
    · rw [limb_of_le (by simp [exTight]; omega), getD_of_le _ _ (by simp [looseA]; omega)]; simp)).2 h)
  (by decide +kernel)

/-- Decoding takes the low 255 bits and gives limbs within bounds. -/
theorem C48_from_bytes (b : Bytes) :
    Tight (feFromBytes b) ∧
      feVal (feFromBytes b) = ((leNat b % 2 ^ 255 : Nat) : ZMod (2 ^ 255 - 19)) := feFromBytes_spec b

/-- Decoding and encoding a string reduces its low 255 bits. -/
theorem C48_round_trip (b : Bytes) :
    leNat (feToBytes (feFromBytes b)) = leNat b % 2 ^ 255 % (2 ^ 255 - 19) := by
  obtain ⟨h1, h2⟩ := feFromBytes_spec b
  have hlt := val_lt_pow (feVal (feFromBytes b))
  rw [feToBytes_spec h1.loose, leNat_leBytes, Nat.mod_eq_of_lt (by norm_num; omega), h2, ZMod.val_natCast]
  rfl

/-- A canonical string is reproduced. -/
theorem C48_canonical (b : Bytes) (hl : b.length = 32) (h : leNat b < 2 ^ 255 - 19) :
    feToBytes (feFromBytes b) = b := by
  have h1 := feFromBytes_spec b
  apply leNat_inj (by rw [feToBytes_spec h1.1.loose, length_leBytes, hl])
  rw [C48_round_trip, Nat.mod_eq_of_lt (a := leNat b) (by omega), Nat.mod_eq_of_lt h]

example : feToBytes (feFromBytes ([0xec] ++ List.replicate 30 0xff ++ [0x7f])) =
    [0xec] ++ List.replicate 30 0xff ++ [0x7f] := C48_canonical _ rfl (by decide +kernel)

/-- Encoding and decoding keeps the value. -/
theorem C48_decode_encode {f : Fe} (hf : Loose f) : feVal (feFromBytes (feToBytes f)) = feVal f := by
  obtain ⟨-, h2, h3⟩ := C48_to_bytes hf
  rw [(C48_from_bytes _).2, Nat.mod_eq_of_lt (by omega)]
  exact h3

example : feVal (feFromBytes (feToBytes exLoose)) = feVal exLoose := C48_decode_encode exLoose_loose

/-- The sign is the parity of the representative. -/
theorem C48_is_negative {f : Fe} (hf : Loose f) : (feIsNegative f).toNat = (feVal f).val % 2 := by
  rw [feIsNegative_spec hf, UInt8.toNat_ofNat']
  omega

example := C48_is_negative exLoose_loose

theorem C48_is_non_zero {f : Fe} (hf : Loose f) :
    (feIsNonZero f = 1 ∧ feVal f ≠ 0) ∨ (feIsNonZero f = 0 ∧ feVal f = 0) := by
  rw [feIsNonZero_spec hf]
  by_cases h : feVal f = 0
  · exact .inr ⟨if_pos h, h⟩
  · exact .inl ⟨if_neg h, h⟩

/-- A field element with a non-trivial inverse. -/
example : feVal (feMul (feInvert [2, -1, 0, 0, 0, 0, 0, 0, 0, 1]) [2, -1, 0, 0, 0, 0, 0, 0, 0, 1]) = 1 := by
  have hl : Loose [2, -1, 0, 0, 0, 0, 0, 0, 0, 1] := by
    refine ⟨rfl, fun i => ?_⟩
    by_cases hi : i < 10
    · interval_cases i <;> decide
    · rw [limb_of_le (by simp; omega), getD_of_le _ _ (by simp [looseA]; omega)]; simp
  apply C47_invert_mul hl
  rcases C48_is_non_zero hl with h | h
  · exact h.2
  · have : feIsNonZero [2, -1, 0, 0, 0, 0, 0, 0, 0, 1] = 1 := by decide +kernel
    rw [this] at h
    exact absurd h.1 (by decide)

/-- The encoding of a non-canonical string: `p + 1` is decoded to one; a limb vector with negative limbs. -/
example : feToBytes (feFromBytes ([0xee] ++ List.replicate 30 0xff ++ [0x7f])) =
    1 :: List.replicate 31 0 := by decide +kernel

example : feToBytes [-1, 0, 0, 0, 0, 0, 0, 0, 0, 0] = [0xec] ++ List.replicate 30 0xff ++ [0x7f] := by
  decide +kernel

end Kyber.Ed
