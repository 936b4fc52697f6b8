/-
Properties C41-C43, C66: modular integers (`integer.rs`).
-/
import Verif.Lemmas.Int
import Mathlib.RingTheory.Coprime.Lemmas
import Mathlib.Tactic.NormNum.LegendreSymbol

namespace Kyber.Props

open Kyber Kyber.ModInt

/-- A value in the documented range `0 .. m-1`, for a modulus of at least two. -/
def Reduced (a : MInt) : Prop := 2 ≤ a.m ∧ 0 ≤ a.v ∧ a.v < a.m

instance (a : MInt) : Decidable (Reduced a) := by unfold Reduced; infer_instance

/-! ## C41: ring arithmetic -/

/-- C41: `a + b`. -/
theorem C41_add (a b : MInt) (ha : Reduced a) (hb : Reduced b) :
    ∃ c, a.add b = .ok c ∧ c.v = (a.v + b.v) % a.m ∧ c.m = a.m ∧ Reduced c := by
  obtain ⟨h1, h2, h3⟩ := ha
  obtain ⟨h4, h5, h6⟩ := hb
  refine ⟨⟨(a.v + b.v).tmod a.m, a.m, a.bo⟩, ?_, ?_, rfl, ?_⟩
  · unfold MInt.add; rw [rem_eq (by omega)]; rfl
  · exact tmod_eq _ _ (by omega)
  · unfold Reduced
    simp only
    rw [tmod_eq _ _ (by omega)]
    exact ⟨h1, Int.emod_nonneg _ (by omega), Int.emod_lt_of_pos _ (by omega)⟩

example := C41_add ⟨997, 1009, .bigEndian⟩ ⟨500, 1009, .bigEndian⟩ (by decide) (by decide)

/-- C41: `a * b`. -/
theorem C41_mul (a b : MInt) (ha : Reduced a) (hb : Reduced b) :
    ∃ c, a.mul b = .ok c ∧ c.v = (a.v * b.v) % a.m ∧ c.m = a.m ∧ Reduced c := by
  obtain ⟨h1, h2, h3⟩ := ha
  obtain ⟨h4, h5, h6⟩ := hb
  have hnn : 0 ≤ a.v * b.v := mul_nonneg h2 h5
  refine ⟨⟨(a.v * b.v).tmod a.m, a.m, a.bo⟩, ?_, ?_, rfl, ?_⟩
  · unfold MInt.mul; rw [rem_eq (by omega)]; rfl
  · exact tmod_eq _ _ hnn
  · unfold Reduced
    simp only
    rw [tmod_eq _ _ hnn]
    exact ⟨h1, Int.emod_nonneg _ (by omega), Int.emod_lt_of_pos _ (by omega)⟩

example := C41_mul ⟨997, 1009, .bigEndian⟩ ⟨500, 1009, .littleEndian⟩ (by decide) (by decide)

/-- C41: `i.sub(a, b)`, whatever the receiver; the operands need not be in range. -/
theorem C41_sub (i a b : MInt) (hm : 2 ≤ a.m) :
    ∃ c, i.sub a b = .ok c ∧ c.v = (a.v - b.v) % a.m ∧ c.m = a.m ∧ Reduced c := by
  have hr : 0 ≤ (a.v - b.v).tmod a.m + a.m := by
    have := Int.lt_tmod_of_pos (a.v - b.v) (b := a.m) (by omega)
    omega
  have hval : ((a.v - b.v).tmod a.m + a.m).tmod a.m = (a.v - b.v) % a.m := by
    rw [tmod_eq _ _ hr, Int.add_emod_right]
    exact tmod_modEq _ _
  refine ⟨⟨((a.v - b.v).tmod a.m + a.m).tmod a.m, a.m, i.bo⟩, ?_, hval, rfl, ?_⟩
  · unfold MInt.sub
    rw [rem_eq (by omega), Res.bind_ok, rem_eq (by omega)]; rfl
  · unfold Reduced
    simp only
    rw [hval]
    exact ⟨hm, Int.emod_nonneg _ (by omega), Int.emod_lt_of_pos _ (by omega)⟩

example (i : MInt) := C41_sub i ⟨12, 1009, .bigEndian⟩ ⟨500, 1009, .bigEndian⟩ (by decide)

/-- C41: `i.neg(a)`. -/
theorem C41_neg (i a : MInt) (ha : Reduced a) :
    (i.neg a).v = (-a.v) % a.m ∧ (i.neg a).m = a.m ∧ Reduced (i.neg a) := by
  obtain ⟨h1, h2, h3⟩ := ha
  have hv : (i.neg a).v = (-a.v) % a.m := by
    unfold MInt.neg
    simp only
    split
    · rw [← Int.add_emod_right, show -a.v + a.m = a.m - a.v by ring]
      exact (Int.emod_eq_of_lt (by omega) (by omega)).symm
    · rw [show a.v = 0 by omega]; simp
  refine ⟨hv, rfl, h1, ?_, ?_⟩
  · rw [hv]; exact Int.emod_nonneg _ (by omega)
  · rw [hv]; exact Int.emod_lt_of_pos _ (by omega)

example (i : MInt) : (i.neg ⟨12, 1009, .bigEndian⟩).v = 997 := (C41_neg i ⟨12, 1009, .bigEndian⟩ (by decide)).1

/-- C41: `i.inv(a)` is the inverse of an `a` that has one. -/
theorem C41_inv (i a : MInt) (hm : 2 ≤ a.m) (hc : IsCoprime a.v a.m) :
    ∃ c, i.inv a = .ok c ∧ c.v * a.v % a.m = 1 ∧ c.m = a.m ∧ Reduced c := by
  have hg : Int.gcd a.v a.m = 1 := Int.isCoprime_iff_gcd_eq_one.1 hc
  refine ⟨⟨Int.gcdA a.v a.m % a.m, a.m, i.bo⟩, ?_, ?_, rfl, hm, ?_, ?_⟩
  · unfold MInt.inv modInverse
    rw [if_pos hg]; rfl
  · show Int.gcdA a.v a.m % a.m * a.v % a.m = 1
    have h := Int.gcd_eq_gcd_ab a.v a.m
    rw [hg] at h
    rw [Int.mul_emod, Int.emod_emod, ← Int.mul_emod]
    have : Int.gcdA a.v a.m * a.v = 1 + a.m * (- Int.gcdB a.v a.m) := by
      push_cast at h; linarith
    rw [this, Int.add_mul_emod_self_left]
    exact Int.emod_eq_of_lt (by omega) (by omega)
  · exact Int.emod_nonneg _ (by omega)
  · exact Int.emod_lt_of_pos _ (by omega)

/-- Also for a composite modulus. -/
example (i : MInt) := C41_inv i ⟨7, 1000, .bigEndian⟩ (by decide) ⟨143, -1, by norm_num⟩

/-- C41: `inv` panics exactly on the values without inverse. -/
theorem C41_inv_panics (i a : MInt) : i.inv a = .panic ↔ ¬ IsCoprime a.v a.m := by
  rw [Int.isCoprime_iff_gcd_eq_one]
  unfold MInt.inv modInverse
  split <;> simp_all

/-- C41: on values in range `equal` decides equality modulo `m`. -/
theorem C41_equal (a b : MInt) (ha : Reduced a) (hb : Reduced b) (hm : a.m = b.m) :
    a.equal b = true ↔ a.v ≡ b.v [ZMOD a.m] := by
  obtain ⟨h1, h2, h3⟩ := ha
  obtain ⟨h4, h5, h6⟩ := hb
  unfold MInt.equal
  rw [beq_iff_eq, Int.ModEq, Int.emod_eq_of_lt h2 h3, Int.emod_eq_of_lt h5 (by omega)]

example : (⟨12, 1009, .bigEndian⟩ : MInt).equal ⟨500, 1009, .littleEndian⟩ = true ↔ (12 : Int) ≡ 500 [ZMOD 1009] :=
  C41_equal _ _ (by decide) (by decide) rfl

/-- C41: on values in range `nonzero` decides whether the residue class is that of zero. -/
theorem C41_nonzero (a : MInt) (ha : Reduced a) : a.nonzero = true ↔ ¬ a.v ≡ 0 [ZMOD a.m] := by
  obtain ⟨h1, h2, h3⟩ := ha
  unfold MInt.nonzero
  rw [decide_eq_true_eq, Int.ModEq, Int.emod_eq_of_lt h2 h3, Int.zero_emod]

example : (⟨12, 1009, .bigEndian⟩ : MInt).nonzero = true ↔ ¬ (12 : Int) ≡ 0 [ZMOD 1009] := C41_nonzero _ (by decide)

/-- C41: `Int::default()` has no modulus: every arithmetic operation on it and every setter that
reduces panics, for all arguments, while it takes over the value and modulus of another integer. -/
theorem C41_default (a b : MInt) (v : Int) (u : Nat) (bs : Bytes) (e : Int) :
    MInt.default.add b = .panic ∧ MInt.default.mul b = .panic ∧ a.sub MInt.default b = .panic ∧
    MInt.default.setInt64 v = .panic ∧ MInt.default.setUint64 u = .panic ∧
    MInt.default.setBytes bs = .panic ∧ a.exp MInt.default e = .panic ∧
    MInt.default.nonzero = false ∧ (MInt.default.set a).v = a.v ∧ (MInt.default.set a).m = a.m := by
  have hr : ∀ x, rem x MInt.default.m = .panic := fun x => by simp [rem, MInt.default]
  refine ⟨?_, ?_, ?_, ?_, ?_, ?_, ?_, by decide +kernel, rfl, rfl⟩
  · unfold MInt.add; rw [hr]; rfl
  · unfold MInt.mul; rw [hr]; rfl
  · unfold MInt.sub; rw [hr]; rfl
  · unfold MInt.setInt64; rw [hr]; split <;> rfl
  · unfold MInt.setUint64; rw [hr]; rfl
  · unfold MInt.setBytes
    have hbo : MInt.default.bo = .littleEndian := rfl
    simp only [hbo, if_true]
    rw [reverse_eq _ _ (by simp)]
    simp only [Res.bind_ok, hr]
    rfl
  · have hm : MInt.default.m = 0 := rfl
    unfold MInt.exp; rw [if_pos (Or.inr hm)]

/-- C41: `set_int64` and `set_uint64`, `set_bytes` give the residue class of their argument. -/
theorem C41_setters (i : MInt) (hm : 2 ≤ i.m) :
    (∀ v : Int, ∃ c, i.setInt64 v = .ok c ∧ c.m = i.m ∧ c.v ≡ v [ZMOD i.m]) ∧
    (∀ v : Nat, ∃ c, i.setUint64 v = .ok c ∧ c.v = v % i.m) ∧
    (∀ b : Bytes, ∃ c, i.setBytes b = .ok c ∧ c.m = i.m ∧
      c.v = (if i.bo = .littleEndian then (leNat b : Int) else (leNat b.reverse : Int)) % i.m) := by
  refine ⟨fun v => ?_, fun v => ?_, fun b => ?_⟩
  · unfold MInt.setInt64
    rw [rem_eq (by omega), Res.bind_ok]
    split
    · refine ⟨_, rfl, rfl, ?_⟩
      show v.tmod i.m + i.m.natAbs ≡ v [ZMOD i.m]
      rw [Int.natAbs_of_nonneg (by omega)]
      calc v.tmod i.m + i.m ≡ v.tmod i.m [ZMOD i.m] := by
            unfold Int.ModEq; rw [Int.add_emod_right]
        _ ≡ v [ZMOD i.m] := tmod_modEq _ _
    · exact ⟨_, rfl, rfl, tmod_modEq _ _⟩
  · unfold MInt.setUint64
    rw [rem_eq (by omega)]
    exact ⟨_, rfl, tmod_eq _ _ (by omega)⟩
  · unfold MInt.setBytes
    split
    · rename_i h
      rw [reverse_eq _ _ (by simp), List.length_replicate, List.take_length]
      simp only [Res.bind_ok]
      rw [rem_eq (by omega), Res.bind_ok]
      refine ⟨_, rfl, rfl, ?_⟩
      show Int.tmod _ _ = _
      rw [tmod_eq _ _ (by omega), beNat, List.reverse_reverse]
    · simp only [Res.bind_ok]
      rw [rem_eq (by omega), Res.bind_ok]
      refine ⟨_, rfl, rfl, ?_⟩
      show Int.tmod _ _ = _
      rw [tmod_eq _ _ (by omega), beNat]

example := C41_setters ⟨12, 1009, .littleEndian⟩ (by decide)

/-- C41: `uint64` gives back what `set_uint64` stored, for values below the modulus. -/
theorem C41_uint64_round_trip (i : MInt) (v : Nat) (h64 : v < 2 ^ 64) (hm : (v : Int) < i.m) :
    ∃ c, i.setUint64 v = .ok c ∧ c.uint64 = v := by
  have hm0 : 0 < i.m := by omega
  unfold MInt.setUint64
  rw [rem_eq hm0, Res.bind_ok]
  refine ⟨_, rfl, ?_⟩
  have hval : (v : Int).tmod i.m = v := by
    rw [tmod_eq _ _ (by omega)]; exact Int.emod_eq_of_lt (by omega) hm
  unfold MInt.uint64
  simp only [hval]
  rw [if_neg (by omega), Int.natAbs_natCast]
  have hlen : byteLen v ≤ 8 := by
    have := byteLen_le (v := v) (m := 2 ^ 64) h64
    have h2 : bitLen (2 ^ 64) = 65 := by decide +kernel
    rw [h2] at this
    by_contra hc
    have h9 : (bitLen v + 7) / 8 ≥ 9 := by
      unfold byteLen at hc
      split at hc <;> omega
    have hv0 : v ≠ 0 := by
      rintro rfl
      simp [bitLen] at h9
    have h3 := two_pow_bitLen_le v hv0
    have h4 : 2 ^ 64 ≤ 2 ^ (bitLen v - 1) := Nat.pow_le_pow_right (by norm_num) (by omega)
    omega
  have hl : (toBytesLE v).length ≤ 8 := by
    have := length_toBytesBE v
    unfold toBytesBE at this
    rw [List.length_reverse] at this
    omega
  rw [List.take_append, List.take_of_length_le hl, leNat_append, List.take_replicate,
    leNat_replicate_zero, leNat_toBytesLE]
  simp

/-- C41: the residue ring read off the operations: a concrete chain of calls. -/
example : Reduced ⟨5, 7, .bigEndian⟩ ∧
    (⟨5, 7, .bigEndian⟩ : MInt).add ⟨4, 7, .bigEndian⟩ = .ok ⟨2, 7, .bigEndian⟩ ∧
    (⟨5, 7, .bigEndian⟩ : MInt).inv ⟨3, 7, .bigEndian⟩ = .ok ⟨5, 7, .bigEndian⟩ ∧
    (⟨5, 8, .bigEndian⟩ : MInt).inv ⟨2, 8, .bigEndian⟩ = .panic ∧
    (⟨5, 7, .littleEndian⟩ : MInt).setBytes [1, 1] = .ok ⟨5, 7, .littleEndian⟩ := by
  decide +kernel

/-! ## C42: division, exponentiation, square roots -/

/-- C42, the intended property of `div`: `a * b^-1`. -/
def C42_div_statement : Prop :=
  ∀ i a b : MInt, Reduced a → Reduced b → i.m = a.m → b.m = a.m → IsCoprime b.v b.m →
    ∃ c, i.div a b = .ok c ∧ c.v * b.v % a.m = a.v

/-- C42 does not hold: `div` multiplies. -/
theorem C42_violated_div : ¬ C42_div_statement := by
  intro h
  obtain ⟨c, hc, h2⟩ := h ⟨0, 7, .bigEndian⟩ ⟨1, 7, .bigEndian⟩ ⟨3, 7, .bigEndian⟩ (by decide)
    (by decide) rfl rfl (by rw [Int.isCoprime_iff_gcd_eq_one]; decide)
  have : c = ⟨3, 7, .bigEndian⟩ := by
    have h3 : (⟨0, 7, .bigEndian⟩ : MInt).div ⟨1, 7, .bigEndian⟩ ⟨3, 7, .bigEndian⟩ =
      .ok ⟨3, 7, .bigEndian⟩ := by decide
    rw [h3] at hc
    exact (Res.ok.inj hc).symm
  subst this
  revert h2
  decide

/-- What `div` does compute: the product. It is the quotient exactly when `a * b^2 = a`. -/
theorem C42_div_partial (i a b : MInt) (ha : Reduced a) (hb : Reduced b) (hi : i.m = a.m) :
    ∃ c, i.div a b = .ok c ∧ c.v = a.v * b.v % a.m ∧
      (c.v * b.v % a.m = a.v ↔ a.v * (b.v * b.v) ≡ a.v [ZMOD a.m]) := by
  obtain ⟨h1, h2, h3⟩ := ha
  obtain ⟨h4, h5, h6⟩ := hb
  unfold MInt.div
  rw [rem_eq (by omega), Res.bind_ok]
  have hv : (a.v * b.v).tmod i.m = a.v * b.v % a.m := by
    rw [tmod_eq _ _ (mul_nonneg h2 h5), hi]
  refine ⟨_, rfl, hv, ?_⟩
  show Int.tmod _ _ * b.v % a.m = a.v ↔ _
  rw [hv, Int.mul_emod, Int.emod_emod, ← Int.mul_emod, mul_assoc]
  unfold Int.ModEq
  rw [Int.emod_eq_of_lt h2 h3]

example := C42_div_partial ⟨0, 1009, .bigEndian⟩ ⟨12, 1009, .bigEndian⟩ ⟨500, 1009, .bigEndian⟩ (by decide) (by decide) rfl

/-- C42, the intended property of `exp`: `a^e mod m` for `e ≥ 0`. -/
def C42_exp_statement : Prop :=
  ∀ (i a : MInt) (e : Nat), Reduced a → i.m = a.m →
    ∃ c, i.exp a e = .ok c ∧ c.v = a.v ^ e % a.m

/-- C42 does not hold for `exp` either: the receiver is raised instead of the argument. -/
theorem C42_violated_exp : ¬ C42_exp_statement := by
  intro h
  obtain ⟨c, hc, h2⟩ := h ⟨0, 7, .bigEndian⟩ ⟨3, 7, .bigEndian⟩ 2 (by decide) rfl
  have h3 : (⟨0, 7, .bigEndian⟩ : MInt).exp ⟨3, 7, .bigEndian⟩ 2 = .ok ⟨0, 7, .bigEndian⟩ := by
    decide
  rw [show (((2 : Nat) : Int)) = 2 from rfl, h3] at hc
  obtain rfl := Res.ok.inj hc
  revert h2
  decide

/-- What holds: `exp` raises the receiver, so it is right when receiver and argument agree. -/
theorem C42_exp_partial (i a : MInt) (e : Nat) (hm : 2 ≤ a.m) :
    ∃ c, i.exp a e = .ok c ∧ c.v = i.v ^ e % a.m ∧
      (i.v ≡ a.v [ZMOD a.m] → c.v = a.v ^ e % a.m) := by
  unfold MInt.exp
  rw [if_neg (by omega)]
  refine ⟨_, rfl, ?_, fun h => ?_⟩
  · simp
  · show i.v ^ (e : Int).toNat % a.m = _
    rw [Int.toNat_natCast]
    exact h.pow e

example := C42_exp_partial ⟨12, 1009, .bigEndian⟩ ⟨12, 1009, .bigEndian⟩ 500 (by decide)

/-- C42, the intended property of `sqrt`: a square root modulo the odd prime `m`, if there is
one. -/
def C42_sqrt_statement : Prop :=
  ∀ (i a : MInt), Reduced a → (∃ x : Int, x * x ≡ a.v [ZMOD a.m]) →
    (i.sqrt a).2 = .ok () ∧ (i.sqrt a).1.v * (i.sqrt a).1.v ≡ a.v [ZMOD a.m]

/-- C42 does not hold for `sqrt`: it takes the integer square root. -/
theorem C42_violated_sqrt : ¬ C42_sqrt_statement := by
  intro h
  have h2 := (h ⟨0, 7, .bigEndian⟩ ⟨2, 7, .bigEndian⟩ (by decide) ⟨3, by decide⟩).2
  revert h2
  decide +kernel

/-- What holds: `sqrt` is right for perfect squares (below the modulus, with a root below it). -/
theorem C42_sqrt_partial (i a : MInt) (ha : Reduced a) (x : Nat) (hx : (x : Int) * x = a.v) :
    (i.sqrt a).2 = .ok () ∧ (i.sqrt a).1.v * (i.sqrt a).1.v = a.v := by
  obtain ⟨h1, h2, h3⟩ := ha
  unfold MInt.sqrt
  rw [if_neg (by omega), if_neg (by omega)]
  refine ⟨rfl, ?_⟩
  simp only
  have hn : a.v.natAbs = x * x := by
    have : ((x * x : Nat) : Int) = a.v := by push_cast; exact hx
    omega
  have hxlt : (x : Int) < a.m := by
    rcases Nat.lt_or_ge x 2 with hx2 | hx2
    · omega
    · nlinarith
  rw [hn, Nat.sqrt_eq, tmod_eq _ _ (by omega), Int.emod_eq_of_lt (by omega) hxlt, hx]

example (i : MInt) := C42_sqrt_partial i ⟨144, 1009, .bigEndian⟩ (by decide) 12 rfl

/-! ## C43: encodings -/

/-- C43, the intended property: decoding an encoding gives the value back, in both byte orders. -/
def C43_statement : Prop :=
  ∀ a i : MInt, Reduced a → i.m = a.m → i.bo = a.bo →
    ∃ b, a.marshal = .ok b ∧ i.unmarshal b = ({ i with v := a.v }, .ok ())

/-- C43 does not hold in little-endian order: leading zero bytes are dropped, and the shorter
encoding is refused. -/
theorem C43_violated_little_endian : ¬ C43_statement := by
  intro h
  obtain ⟨b, h1, h2⟩ := h ⟨5, 1000, .littleEndian⟩ ⟨0, 1000, .littleEndian⟩ (by decide) rfl rfl
  have h3 : (⟨5, 1000, .littleEndian⟩ : MInt).marshal = .ok [5] := by decide +kernel
  rw [h3] at h1
  obtain rfl := Res.ok.inj h1
  revert h2
  decide +kernel

/-- The encoding of a reduced big-endian value: fixed length, same number. -/
theorem C43_big_endian_encoding (a : MInt) (ha : Reduced a) (hbo : a.bo = .bigEndian) :
    ∃ b, a.marshal = .ok b ∧ b.length = a.marshalSize ∧ (beNat b : Int) = a.v := by
  obtain ⟨h1, h2, h3⟩ := ha
  have hlen : byteLen a.v.natAbs ≤ a.marshalSize := byteLen_le (by omega)
  unfold MInt.marshal
  simp only [hbo, reduceCtorEq, if_false, length_toBytesBE]
  rw [if_neg (by omega)]
  refine ⟨_, rfl, ?_, ?_⟩
  · simp; omega
  · rw [beNat_zeros_append, beNat_toBytesBE]; omega

example := C43_big_endian_encoding ⟨5, 1009, .bigEndian⟩ (by decide) rfl

/-- C43, what holds: the round trip in big-endian order for all values, and in little-endian order
for the values that need all the bytes. Missing: little-endian values with leading zero bytes. -/
theorem C43_round_trip_partial (a i : MInt) (ha : Reduced a) (hm : i.m = a.m) (hbo : i.bo = a.bo)
    (hfull : a.bo = .bigEndian ∨ byteLen a.v.natAbs = a.marshalSize) :
    ∃ b, a.marshal = .ok b ∧ b.length = a.marshalSize ∧
      i.unmarshal b = ({ i with v := a.v }, .ok ()) := by
  have hsz : i.marshalSize = a.marshalSize := by unfold MInt.marshalSize; rw [hm]
  rcases ho : a.bo with _ | _
  · have hfull : byteLen a.v.natAbs = a.marshalSize := by
      rcases hfull with h | h
      · rw [ho] at h; cases h
      · exact h
    obtain ⟨h1, h2, h3⟩ := ha
    have hmar : a.marshal = .ok (toBytesBE a.v.natAbs).reverse := by
      unfold MInt.marshal MInt.littleEndian
      simp only [ho, if_true, length_toBytesBE, hfull, lt_irrefl, if_false, and_false]
      rw [reverse_eq _ _ (by simp [hfull])]
      congr 2
      simp [hfull]
    refine ⟨_, hmar, by simpa using hfull, ?_⟩
    unfold MInt.unmarshal
    rw [if_neg (by simp [hfull, hsz])]
    simp only [hbo, ho, if_true]
    rw [reverse_eq _ _ (by simp), List.length_replicate, List.take_length, List.reverse_reverse]
    simp only [beNat_toBytesBE]
    rw [if_neg (by omega), Int.natAbs_of_nonneg h2]
  · obtain ⟨b, hb, hl, hv⟩ := C43_big_endian_encoding a ha ho
    refine ⟨b, hb, hl, ?_⟩
    obtain ⟨h1, h2, h3⟩ := ha
    unfold MInt.unmarshal
    rw [if_neg (by rw [hl, hsz]; simp)]
    simp only [hbo, ho, reduceCtorEq, if_false, hv]
    rw [if_neg (by omega)]

example := C43_round_trip_partial ⟨258, 1009, .littleEndian⟩ ⟨0, 1009, .littleEndian⟩ (by decide) rfl rfl
  (.inr (by decide +kernel))

/-- C43: exactly when `unmarshal_binary` accepts, and what it then stores. -/
theorem C43_accepts_iff (i : MInt) (b : Bytes) :
    (i.unmarshal b).2 = .ok () ↔ b.length = i.marshalSize ∧
      (if i.bo = .littleEndian then (leNat b : Int) else (leNat b.reverse : Int)) < i.m := by
  unfold MInt.unmarshal
  split
  · rename_i h; simp [h]
  · rename_i h
    push Not at h
    have hbuf : (if i.bo = .littleEndian then reverse (List.replicate b.length 0) b else .ok b) =
        (.ok (if i.bo = .littleEndian then b.reverse else b) : Res IntError Bytes) := by
      split
      · rw [reverse_eq _ _ (by simp)]; simp
      · rfl
    simp only [hbuf]
    have hval : (beNat (if i.bo = .littleEndian then b.reverse else b) : Int) =
        if i.bo = .littleEndian then (leNat b : Int) else (leNat b.reverse : Int) := by
      split <;> simp [beNat]
    rw [hval]
    simp only [h, true_and]
    generalize (if i.bo = .littleEndian then (leNat b : Int) else (leNat b.reverse : Int)) = x
    split <;> simp_all

/-- C43: the accepted encodings of one modulus and byte order are unique. -/
theorem C43_unique (i : MInt) (b b' : Bytes) (h : (i.unmarshal b).2 = .ok ())
    (h' : (i.unmarshal b').2 = .ok ()) (he : (i.unmarshal b).1.v = (i.unmarshal b').1.v) :
    b = b' := by
  have key : ∀ c : Bytes, (i.unmarshal c).2 = .ok () → (i.unmarshal c).1.v =
      if i.bo = .littleEndian then (leNat c : Int) else (leNat c.reverse : Int) := by
    intro c hc
    have hl := ((C43_accepts_iff i c).1 hc).1
    unfold MInt.unmarshal
    rw [if_neg (by simpa using hl)]
    have hbuf : (if i.bo = .littleEndian then reverse (List.replicate c.length 0) c else .ok c) =
        (.ok (if i.bo = .littleEndian then c.reverse else c) : Res IntError Bytes) := by
      split
      · rw [reverse_eq _ _ (by simp)]; simp
      · rfl
    simp only [hbuf]
    split_ifs <;> simp [beNat]
  rw [key b h, key b' h'] at he
  have h1 := ((C43_accepts_iff i b).1 h).1
  have h2 := ((C43_accepts_iff i b').1 h').1
  split at he
  · exact leNat_inj (h1.trans h2.symm) (by exact_mod_cast he)
  · exact beNat_inj (h1.trans h2.symm) (by exact_mod_cast he)

/-- Read the other way round: two accepted strings have different values. -/
example : ((⟨0, 1009, .bigEndian⟩ : MInt).unmarshal [1, 2]).1.v ≠ ((⟨0, 1009, .bigEndian⟩ : MInt).unmarshal [2, 1]).1.v :=
  fun he => absurd (C43_unique ⟨0, 1009, .bigEndian⟩ [1, 2] [2, 1] (by decide +kernel) (by decide +kernel) he) (by decide)

/-- C43: `big_endian(min, max)` panics whenever the value has a leading zero byte. -/
theorem C43_big_endian_panics (a : MInt) (min max : Nat)
    (hmax : max = 0 ∨ (min ≤ max ∧ a.marshalSize ≤ max)) :
    a.bigEndian min max = .panic ↔ byteLen a.v.natAbs ≠ a.marshalSize := by
  unfold MInt.bigEndian
  simp only [length_toBytesBE]
  rw [if_neg (by split <;> omega)]
  have : (if a.marshalSize < min then min else a.marshalSize) -
      (if a.marshalSize < min then min - a.marshalSize else 0) = a.marshalSize := by
    split <;> omega
  rw [this]
  split <;> simp_all

example : Reduced ⟨5, 1000, .bigEndian⟩ ∧
    (⟨5, 1000, .bigEndian⟩ : MInt).marshal = .ok [0, 5] ∧
    (⟨0, 1000, .bigEndian⟩ : MInt).unmarshal [0, 5] = (⟨5, 1000, .bigEndian⟩, .ok ()) ∧
    (⟨258, 1000, .littleEndian⟩ : MInt).marshal = .ok [2, 1] ∧
    byteLen 258 = (⟨258, 1000, .littleEndian⟩ : MInt).marshalSize ∧
    (⟨0, 1000, .bigEndian⟩ : MInt).unmarshal [3, 232] =
      (⟨1000, 1000, .bigEndian⟩, .err .outOfRange) ∧
    (⟨5, 1000, .bigEndian⟩ : MInt).bigEndian 2 2 = .panic := by
  decide +kernel

/-! ## C66: values stay in the documented range -/

/-- The values of modulus `m` that a program can build with the calls of the library. With
`careful` the program avoids the calls that C66 is about: negative arguments, Jacobi symbols that
are `-1`, and using a value after a failed `unmarshal_binary`. -/
inductive Reach (m : Int) (careful : Bool) : MInt → Prop where
  | newInt (v : Int) (a : MInt) (hv : careful = true → 0 ≤ v) (h : newInt v m = .ok a) : Reach m careful a
  | newInt64 (v : Int) (a : MInt) (hv : careful = true → 0 ≤ v) (h : newInt64 v m = .ok a) :
      Reach m careful a
  | newIntBytes (b : Bytes) (bo : ByteOrder) (a : MInt) (h : newIntBytes b m bo = .ok a) :
      Reach m careful a
  | add (a b c : MInt) (ha : Reach m careful a) (hb : Reach m careful b) (h : a.add b = .ok c) :
      Reach m careful c
  | mul (a b c : MInt) (ha : Reach m careful a) (hb : Reach m careful b) (h : a.mul b = .ok c) :
      Reach m careful c
  | sub (i a b c : MInt) (hi : Reach m careful i) (ha : Reach m careful a) (hb : Reach m careful b)
      (h : i.sub a b = .ok c) : Reach m careful c
  | div (i a b c : MInt) (hi : Reach m careful i) (ha : Reach m careful a) (hb : Reach m careful b)
      (h : i.div a b = .ok c) : Reach m careful c
  | neg (i a : MInt) (hi : Reach m careful i) (ha : Reach m careful a) : Reach m careful (i.neg a)
  | inv (i a c : MInt) (hi : Reach m careful i) (ha : Reach m careful a) (h : i.inv a = .ok c) :
      Reach m careful c
  | exp (i a c : MInt) (e : Int) (hi : Reach m careful i) (ha : Reach m careful a)
      (h : i.exp a e = .ok c) : Reach m careful c
  | sqrt (i a : MInt) (hi : Reach m careful i) (ha : Reach m careful a) : Reach m careful (i.sqrt a).1
  | jacobi (i a c : MInt) (hi : Reach m careful i) (ha : Reach m careful a)
      (hj : careful = true → jacobiSym a.v a.m.natAbs ≠ -1) (h : i.jacobi a = .ok c) :
      Reach m careful c
  | set (i a : MInt) (hi : Reach m careful i) (ha : Reach m careful a) : Reach m careful (i.set a)
  | setInt64 (i c : MInt) (v : Int) (hi : Reach m careful i) (hv : careful = true → 0 ≤ v)
      (h : i.setInt64 v = .ok c) : Reach m careful c
  | setUint64 (i c : MInt) (v : Nat) (hi : Reach m careful i) (h : i.setUint64 v = .ok c) :
      Reach m careful c
  | setBytes (i c : MInt) (b : Bytes) (hi : Reach m careful i) (h : i.setBytes b = .ok c) :
      Reach m careful c
  | zero (i : MInt) (hi : Reach m careful i) : Reach m careful i.zero
  | one (i : MInt) (hi : Reach m careful i) : Reach m careful i.one
  | unmarshal (i : MInt) (b : Bytes) (hi : Reach m careful i)
      (hok : careful = true → (i.unmarshal b).2 = .ok ()) : Reach m careful (i.unmarshal b).1

/-- C66, the intended property (the documentation of `Int`: "integer value from 0 through m-1"). -/
def C66_statement : Prop :=
  ∀ (m : Int), 2 ≤ m → ∀ a, Reach m false a → 0 ≤ a.v ∧ a.v < a.m

/-- C66 does not hold: `set_int64(-m)` stores `m`. -/
theorem C66_violated_set_int64 : ¬ C66_statement := by
  intro h
  have := h 7 (by norm_num) ⟨7, 7, .bigEndian⟩
    (.setInt64 ⟨0, 7, .bigEndian⟩ _ (-7) (.newInt 0 _ (by simp) (by decide)) (by simp) (by decide))
  revert this
  decide

/-- C66 does not hold: `new_int(-1, m)` stores `-1`, which is not equal to `m - 1`. -/
theorem C66_violated_new_int : ¬ C66_statement ∧
    newInt (-1) 7 = .ok ⟨-1, 7, .bigEndian⟩ ∧
    (⟨-1, 7, .bigEndian⟩ : MInt).equal ⟨6, 7, .bigEndian⟩ = false := by
  refine ⟨fun h => ?_, by decide, by decide⟩
  have := h 7 (by norm_num) ⟨-1, 7, .bigEndian⟩ (.newInt (-1) _ (by simp) (by decide))
  revert this
  decide

/-- C66 does not hold: a refused encoding stays in the receiver. -/
theorem C66_violated_unmarshal : ¬ C66_statement := by
  intro h
  have := h 7 (by norm_num) _
    (.unmarshal ⟨0, 7, .bigEndian⟩ [200] (.newInt 0 _ (by simp) (by decide)) (by simp))
  revert this
  decide +kernel

/-- C66 does not hold: the Jacobi symbol of a non-square is stored as `-1`. -/
theorem C66_violated_jacobi : ¬ C66_statement := by
  intro h
  have hj : (⟨0, 7, .bigEndian⟩ : MInt).jacobi ⟨3, 7, .bigEndian⟩ = .ok ⟨-1, 7, .bigEndian⟩ := by
    have : jacobiSym 3 7 = -1 := by norm_num
    simp [MInt.jacobi, bigJacobi, this]
  have := h 7 (by norm_num) ⟨-1, 7, .bigEndian⟩
    (.jacobi ⟨0, 7, .bigEndian⟩ ⟨3, 7, .bigEndian⟩ _ (.newInt 0 _ (by simp) (by decide))
      (.newInt 3 _ (by simp) (by decide)) (by simp) hj)
  revert this
  decide

/-- C66, what holds: without these calls every value stays in range, whatever is computed. -/
theorem C66_careful_partial (m : Int) (hm : 2 ≤ m) (a : MInt) (h : Reach m true a) :
    a.m = m ∧ 0 ≤ a.v ∧ a.v < a.m := by
  have hmod : ∀ x : Int, 0 ≤ x % m ∧ x % m < m :=
    fun x => ⟨Int.emod_nonneg _ (by omega), Int.emod_lt_of_pos _ (by omega)⟩
  induction h with
  | newInt v a hv h =>
    unfold ModInt.newInt at h
    rw [rem_eq (by omega), Res.bind_ok] at h
    obtain rfl := Res.ok.inj h
    simp only [tmod_eq _ _ (hv rfl)]
    exact ⟨trivial, hmod v⟩
  | newInt64 v a hv h =>
    unfold ModInt.newInt64 at h
    have := hv rfl
    rw [if_neg (by omega), rem_eq (by omega), Res.bind_ok] at h
    obtain rfl := Res.ok.inj h
    simp only [tmod_eq _ _ this]
    exact ⟨trivial, hmod v⟩
  | newIntBytes b bo a h =>
    obtain ⟨c, hc, h1, h2⟩ := (C41_setters ⟨0, m, bo⟩ hm).2.2 b
    unfold ModInt.newIntBytes at h
    rw [hc] at h
    obtain rfl := Res.ok.inj h
    rw [h2, h1]
    exact ⟨rfl, hmod _⟩
  | add a b c ha hb h iha ihb =>
    obtain ⟨d, hd, -, h2, h3⟩ := C41_add a b ⟨by omega, iha.2⟩ ⟨by omega, ihb.2⟩
    rw [hd] at h
    obtain rfl := Res.ok.inj h
    exact ⟨h2.trans iha.1, h3.2⟩
  | mul a b c ha hb h iha ihb =>
    obtain ⟨d, hd, -, h2, h3⟩ := C41_mul a b ⟨by omega, iha.2⟩ ⟨by omega, ihb.2⟩
    rw [hd] at h
    obtain rfl := Res.ok.inj h
    exact ⟨h2.trans iha.1, h3.2⟩
  | sub i a b c hi ha hb h ihi iha ihb =>
    obtain ⟨d, hd, -, h2, h3⟩ := C41_sub i a b (by omega)
    rw [hd] at h
    obtain rfl := Res.ok.inj h
    exact ⟨h2.trans iha.1, h3.2⟩
  | div i a b c hi ha hb h ihi iha ihb =>
    unfold MInt.div at h
    rw [rem_eq (by omega), Res.bind_ok] at h
    obtain rfl := Res.ok.inj h
    simp only [tmod_eq _ _ (mul_nonneg iha.2.1 ihb.2.1), ihi.1]
    exact ⟨trivial, hmod _⟩
  | neg i a hi ha ihi iha =>
    obtain ⟨-, h2, h3⟩ := C41_neg i a ⟨by omega, iha.2⟩
    exact ⟨h2.trans iha.1, h3.2⟩
  | inv i a c hi ha h ihi iha =>
    have hco : IsCoprime a.v a.m := by
      by_contra hc
      rw [(C41_inv_panics i a).2 hc] at h
      cases h
    obtain ⟨d, hd, -, h2, h3⟩ := C41_inv i a (by omega) hco
    rw [hd] at h
    obtain rfl := Res.ok.inj h
    exact ⟨h2.trans iha.1, h3.2⟩
  | exp i a c e hi ha h ihi iha =>
    unfold MInt.exp at h
    split at h
    · cases h
    · obtain rfl := Res.ok.inj h
      simp only [iha.1]
      exact ⟨trivial, hmod _⟩
  | sqrt i a hi ha ihi iha =>
    unfold MInt.sqrt
    rw [if_neg (by omega), if_neg (by omega)]
    simp only [iha.1]
    rw [tmod_eq _ _ (by omega)]
    exact ⟨trivial, hmod _⟩
  | jacobi i a c hi ha hj h ihi iha =>
    have hj := hj rfl
    unfold MInt.jacobi bigJacobi at h
    split at h
    · cases h
    · rw [if_neg (by omega), Res.bind_ok] at h
      obtain rfl := Res.ok.inj h
      refine ⟨iha.1, ?_⟩
      show 0 ≤ jacobiSym a.v a.m.natAbs ∧ jacobiSym a.v a.m.natAbs < a.m
      rcases jacobiSym.trichotomy a.v a.m.natAbs with h0 | h0 | h0
      · rw [h0]; omega
      · rw [h0]; omega
      · exact absurd h0 hj
  | set i a hi ha ihi iha => exact iha
  | setInt64 i c v hi hv h ihi =>
    unfold MInt.setInt64 at h
    have := hv rfl
    rw [if_neg (by omega), rem_eq (by omega), Res.bind_ok] at h
    obtain rfl := Res.ok.inj h
    simp only [tmod_eq _ _ this, ihi.1]
    exact ⟨trivial, hmod _⟩
  | setUint64 i c v hi h ihi =>
    unfold MInt.setUint64 at h
    rw [rem_eq (by omega), Res.bind_ok] at h
    obtain rfl := Res.ok.inj h
    rw [show ({ i with v := (v : Int).tmod i.m } : MInt).v = (v : Int) % i.m from
      tmod_eq _ _ (by omega)]
    simp only [ihi.1]
    exact ⟨trivial, hmod _⟩
  | setBytes i c b hi h ihi =>
    obtain ⟨d, hd, h1, h2⟩ := (C41_setters i (by omega)).2.2 b
    rw [hd] at h
    obtain rfl := Res.ok.inj h
    rw [h2, h1, ihi.1]
    exact ⟨rfl, hmod _⟩
  | zero i hi ihi => exact ⟨ihi.1, le_refl 0, lt_of_le_of_lt ihi.2.1 ihi.2.2⟩
  | one i hi ihi =>
    refine ⟨ihi.1, zero_le_one, ?_⟩
    show 1 < i.m
    omega
  | unmarshal i b hi hok ihi =>
    have hx := hok rfl
    unfold MInt.unmarshal at hx ⊢
    split
    · exact ihi
    · rename_i hl
      rw [if_neg hl] at hx
      revert hx
      simp only
      split
      · split
        · intro hx; cases hx
        · rename_i h1 h2
          intro _
          simp only at h2 ⊢
          exact ⟨ihi.1, by omega, by omega⟩
      · intro hx; cases hx
      · intro hx; cases hx

/-- A value built carefully in several steps. -/
example : Reach 1000 true ⟨41, 1000, .bigEndian⟩ := by
  refine .add ⟨6, 1000, .bigEndian⟩ ⟨35, 1000, .bigEndian⟩ _ (.newInt 1006 _ (by simp) (by decide)) ?_
    (by decide)
  exact .mul ⟨5, 1000, .bigEndian⟩ ⟨7, 1000, .bigEndian⟩ _ (.newInt64 5 _ (by simp) (by decide))
    (.newIntBytes [0, 7] .bigEndian _ (by decide +kernel)) (by decide)

end Kyber.Props
