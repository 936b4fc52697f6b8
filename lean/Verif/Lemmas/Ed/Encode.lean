/-
Encoding and decoding of points.
-/
import Verif.Lemmas.Ed.Mult

namespace Kyber.Ed

open Kyber Kyber.ModInt

/-! ## Encoding -/

theorem top_xor (t b : Nat) (ht : t < 128) (hb : b < 2) :
    UInt8.ofNat t ^^^ (UInt8.ofNat b <<< 7) = UInt8.ofNat (t + 128 * b) := by
  revert b; revert t; decide +kernel

theorem leBytes_succ_top (l n : Nat) : leBytes (l + 1) n = leBytes l n ++ [UInt8.ofNat (n / 256 ^ l)] := by
  rw [leBytes_eq_map, leBytes_eq_map, List.range_succ, List.map_append]
  rfl

theorem xorLast_leBytes (n b : Nat) (hn : n < 2 ^ 255) (hb : b < 2) :
    xorLast (leBytes 32 n) (UInt8.ofNat b <<< 7) = leBytes 32 (n + 2 ^ 255 * b) := by
  unfold xorLast
  rw [leBytes_succ_top 31 n, leBytes_succ_top 31 (n + 2 ^ 255 * b)]
  have hlen : (leBytes 31 n).length = 31 := length_leBytes _ _
  have hget : (leBytes 31 n ++ [UInt8.ofNat (n / 256 ^ 31)]).getD 31 0 = UInt8.ofNat (n / 256 ^ 31) := by
    rw [List.getD_eq_getElem?_getD, List.getElem?_append_right (by omega), hlen]
    rfl
  rw [hget, List.set_append_right _ _ (by omega), hlen, top_xor _ _ (by omega) hb]
  have e1 : (n + 2 ^ 255 * b) / 256 ^ 31 = n / 256 ^ 31 + 128 * b := by omega
  rw [e1]
  have e2 : leBytes 31 n = leBytes 31 (n + 2 ^ 255 * b) := by
    have : leBytes 31 (leNat (leBytes 31 n)) = leBytes 31 (leNat (leBytes 31 (n + 2 ^ 255 * b))) := by
      rw [leNat_leBytes, leNat_leBytes]
      congr 1
      omega
    rw [leNat_leBytes, leNat_leBytes] at this
    have l1 := leBytes_leNat (leBytes 31 n)
    have l2 := leBytes_leNat (leBytes 31 (n + 2 ^ 255 * b))
    rw [length_leBytes, leNat_leBytes] at l1 l2
    rw [← l1, ← l2, this]
  rw [← e2]
  rfl

/-- The standard encoding: 255 bits of `y`, and the parity of `x` on top. -/
def ptEnc (p : EdPt) : Bytes := leBytes 32 (p.y.val + 2 ^ 255 * (p.x.val % 2))

theorem bytes_eq {s : Ext} {p : EdPt} (h : s.Rep p) : s.bytes = ptEnc p := by
  have i := feInvert_spec h.bz.loose
  have x := feMul_spec h.bx.loose i.1.loose
  have y := feMul_spec h.by_.loose i.1.loose
  have vx : feVal (feMul s.x (feInvert s.z)) = p.x := by
    rw [x.2, i.2, h.hx, mul_assoc, mul_inv_cancel₀ h.z, mul_one]
  have vy : feVal (feMul s.y (feInvert s.z)) = p.y := by
    rw [y.2, i.2, h.hy, mul_assoc, mul_inv_cancel₀ h.z, mul_one]
  unfold Ext.bytes
  simp only
  rw [feToBytes_spec y.1.loose, feIsNegative_spec x.1.loose, vx, vy,
    xorLast_leBytes _ _ (val_lt_pow _) (Nat.mod_lt _ (by decide))]
  rfl

theorem length_ptEnc (p : EdPt) : (ptEnc p).length = 32 := length_leBytes _ _

theorem leNat_ptEnc (p : EdPt) : leNat (ptEnc p) = p.y.val + 2 ^ 255 * (p.x.val % 2) := by
  have := val_lt_pow p.y
  unfold ptEnc
  rw [leNat_leBytes, Nat.mod_eq_of_lt]
  have h2 := Nat.mod_lt p.x.val (show 0 < 2 by decide)
  have : (256 : Nat) ^ 32 = 2 ^ 255 * 2 := by norm_num
  omega

/-! ## Decoding -/

theorem v_ne (y : Fp) : dC * y ^ 2 + 1 ≠ 0 := by
  intro h
  have hy : y ≠ 0 := by
    rintro rfl
    simp at h
  apply dC_nonsq
  refine ⟨iC / y, ?_⟩
  rw [div_pow, iC_sq, div_eq_iff (pow_ne_zero 2 hy)]
  linear_combination -h

theorem on_iff (x y : Fp) : On dC x y ↔ (dC * y ^ 2 + 1) * x ^ 2 = y ^ 2 - 1 := by
  unfold On
  constructor <;> intro h <;> linear_combination -h

theorem x_sq_eq {p q : EdPt} (h : p.y = q.y) : p.x ^ 2 = q.x ^ 2 := by
  have h1 := (on_iff _ _).1 p.on
  have h2 := (on_iff _ _).1 q.on
  rw [h] at h1
  exact mul_left_cancel₀ (v_ne q.y) (h1.trans h2.symm)

theorem x_eq_or {p q : EdPt} (h : p.y = q.y) : p = q ∨ p = -q := by
  rcases sq_eq_sq_iff_eq_or_eq_neg.1 (x_sq_eq h) with e | e
  · left; ext <;> assumption
  · right; ext
    · rw [e, neg_x]
    · rw [h, neg_y]

theorem neg_val_parity {x : Fp} (h : x ≠ 0) : (-x).val % 2 = 1 - x.val % 2 := by
  rw [ZMod.neg_val, if_neg h]
  have h1 := ZMod.val_lt x
  have h2 : P % 2 = 1 := by decide +kernel
  have h3 : 0 < x.val := by
    rw [Nat.pos_iff_ne_zero]
    intro h0
    exact h ((ZMod.val_eq_zero x).1 h0)
  omega

theorem four_cases {s : Fp} (h : s ^ 4 = 1) : s = 1 ∨ s = -1 ∨ s ^ 2 = -1 := by
  have : (s - 1) * ((s + 1) * (s ^ 2 + 1)) = 0 := by linear_combination h
  rcases mul_eq_zero.1 this with e | e
  · left; linear_combination e
  · rcases mul_eq_zero.1 e with e | e
    · right; left; linear_combination e
    · right; right; linear_combination e

/-- The square root: with `x = u v^3 (u v^7)^((p-5)/8)`, `v x^2` is `u`, or `-u`, or else `u/v` is no
square. -/
theorem sqrt_spec (u v : Fp) (hv : v ≠ 0) (x : Fp) (hx : x = (u * v ^ 7) ^ (2 ^ 252 - 3) * v ^ 3 * u) :
    v * x ^ 2 = u ∨ v * x ^ 2 = -u ∨ ¬ ∃ z, v * z ^ 2 = u := by
  by_cases hu : u = 0
  · left
    rw [hx, hu]
    ring
  have hw : u * v ^ 7 ≠ 0 := mul_ne_zero hu (pow_ne_zero _ hv)
  have e1 : v * x ^ 2 = u * (u * v ^ 7) ^ (2 * (2 ^ 252 - 3) + 1) := by
    rw [hx, mul_pow, mul_pow, ← pow_mul, pow_add, mul_comm (2 ^ 252 - 3) 2]
    generalize (u * v ^ 7) ^ (2 * (2 ^ 252 - 3)) = A
    ring
  have e4 : ((u * v ^ 7) ^ (2 * (2 ^ 252 - 3) + 1)) ^ 4 = 1 := by
    rw [← pow_mul, show (2 * (2 ^ 252 - 3) + 1) * 4 = P - 1 by decide +kernel]
    exact ZMod.pow_card_sub_one_eq_one hw
  generalize hs : (u * v ^ 7) ^ (2 * (2 ^ 252 - 3) + 1) = s at e1 e4
  rcases four_cases e4 with h | h | h
  · left; rw [e1, h, mul_one]
  · right; left; rw [e1, h, mul_neg, mul_one]
  · right; right
    rintro ⟨z, hz⟩
    have hz0 : z ≠ 0 := by
      rintro rfl
      apply hu
      rw [← hz]
      ring
    have h1 : s ^ 2 = 1 := by
      rw [← hs, ← hz, show v * z ^ 2 * v ^ 7 = (v ^ 4 * z) ^ 2 by ring, ← pow_mul, ← pow_mul,
        show 2 * ((2 * (2 ^ 252 - 3) + 1) * 2) = P - 1 by decide +kernel]
      exact ZMod.pow_card_sub_one_eq_one (mul_ne_zero (pow_ne_zero _ hv) hz0)
    rw [h] at h1
    apply two_ne
    linear_combination -h1

theorem candidate_spec {y : Fe} (hy : Tight y) :
    Tight (candidate y).1 ∧ Mid (candidate y).2.1 ∧ Mid (candidate y).2.2 ∧
      feVal (candidate y).2.1 = feVal y ^ 2 - 1 ∧ feVal (candidate y).2.2 = dC * feVal y ^ 2 + 1 ∧
      feVal (candidate y).1 = ((feVal y ^ 2 - 1) * (dC * feVal y ^ 2 + 1) ^ 7) ^ (2 ^ 252 - 3) *
        (dC * feVal y ^ 2 + 1) ^ 3 * (feVal y ^ 2 - 1) := by
  have u0 := feSquare_spec hy.loose
  have v0 := feMul_spec u0.1.loose feD_spec.1.loose
  have u := diffT u0.1 feOne_spec.1
  have v := sumT v0.1 feOne_spec.1
  have w0 := feSquare_spec v.1.loose
  have w := feMul_spec w0.1.loose v.1.loose
  have x0 := feSquare_spec w.1.loose
  have x1 := feMul_spec x0.1.loose v.1.loose
  have x2 := feMul_spec x1.1.loose u.1.loose
  have x3 := fePow22523_pow x2.1.loose
  have x4 := feMul_spec x3.1.loose w.1.loose
  have x5 := feMul_spec x4.1.loose u.1.loose
  have eu : feVal (feSub (feSquare y) feOne) = feVal y ^ 2 - 1 := by rw [u.2, u0.2, feOne_spec.2]
  have ev : feVal (feAdd (feMul (feSquare y) feD) feOne) = dC * feVal y ^ 2 + 1 := by
    rw [v.2, v0.2, u0.2, feOne_spec.2, feD_spec.2]; ring
  refine ⟨x5.1, u.1, v.1, eu, ev, ?_⟩
  show feVal (feMul (feMul (fePow22523 _) _) _) = _
  rw [x5.2, x4.2, x3.2, x2.2, x1.2, x0.2, w.2, w0.2, eu, ev]
  generalize (dC * feVal y ^ 2 + 1) = v
  generalize (feVal y ^ 2 - 1) = u
  rw [show (v ^ 2 * v) ^ 2 * v * u = u * v ^ 7 by ring, show v ^ 2 * v = v ^ 3 by ring]

theorem sign_eq {s : Bytes} (hs : s.length = 32) : s.getD 31 0 >>> 7 = UInt8.ofNat (leNat s / 2 ^ 255) := by
  obtain ⟨i, v, rfl⟩ : ∃ i v, s = i ++ [v] := by
    rcases List.eq_nil_or_concat s with h | ⟨i, v, h⟩
    · rw [h] at hs; simp at hs
    · exact ⟨i, v, by rw [h, List.concat_eq_append]⟩
  have hi : i.length = 31 := by simpa using hs
  rw [leNat_append, hi, List.getD_eq_getElem?_getD, List.getElem?_append_right (by omega), hi]
  have h1 := leNat_lt i
  rw [hi] at h1
  simp only [leNat, Nat.sub_self, List.getElem?_cons_zero, Option.getD_some, Nat.mul_zero, Nat.add_zero]
  rw [show (leNat i + 256 ^ 31 * v.toNat) / 2 ^ 255 = v.toNat / 128 by omega]
  have h : ∀ n < 256, UInt8.ofNat n >>> 7 = UInt8.ofNat ((UInt8.ofNat n).toNat / 128) := by decide +kernel
  have := h v.toNat v.toNat_lt
  rwa [UInt8.ofNat_toNat] at this

theorem u8_parity {a b : Nat} (ha : a < 2) (hb : b < 2) : UInt8.ofNat a = UInt8.ofNat b ↔ a = b := by
  revert b; revert a; decide +kernel

/-- The end of decoding: one of the two points with the given `y` and `±x`. -/
theorem finishBytes_rep {x y : Fe} (hx : Tight x) (hy : Tight y) (hon : On dC (feVal x) (feVal y)) {s : Bytes}
    (hs : s.length = 32) :
    ∃ p : EdPt, (finishBytes x y s).Rep p ∧ p.y = feVal y ∧ (p.x ≠ 0 → p.x.val % 2 = leNat s / 2 ^ 255) := by
  have hlt := leNat_lt s
  rw [hs] at hlt
  have h2 : leNat s / 2 ^ 255 < 2 := by
    have : (256 : Nat) ^ 32 = 2 ^ 255 * 2 := by norm_num
    omega
  have fin : ∀ x' : Fe, Tight x' → ∀ hon' : On dC (feVal x') (feVal y), Ext.Rep ⟨x', y, feOne, feMul x' y⟩ ⟨feVal x', feVal y, hon'⟩ := by
    intro x' h' hon'
    have m := feMul_spec h'.loose hy.loose
    refine ⟨h', hy, feOne_spec.1, m.1, ?_, ?_, ?_, ?_⟩ <;> simp only [feOne_spec.2]
    · exact one_ne_zero
    · rw [mul_one]
    · rw [mul_one]
    · rw [m.2, mul_one]
  unfold finishBytes
  rw [feIsNegative_spec hx.loose, sign_eq hs]
  have hpar := Nat.mod_lt (feVal x).val (show 0 < 2 by decide)
  by_cases h : (feVal x).val % 2 = leNat s / 2 ^ 255
  · rw [if_neg (by rw [not_not, u8_parity hpar h2]; exact h)]
    exact ⟨_, fin x hx hon, rfl, fun _ => h⟩
  · rw [if_pos (by rw [ne_eq, u8_parity hpar h2]; exact h)]
    have n := negT hx
    refine ⟨_, fin (feNeg x) n.1 (by rw [n.2, on_iff, neg_sq, ← on_iff]; exact hon), rfl, ?_⟩
    intro h0
    simp only [n.2] at h0 ⊢
    rw [neg_val_parity (by simpa using h0)]
    omega

theorem nonZero_iff {f : Fe} (hf : Loose f) : feIsNonZero f = 1 ↔ feVal f ≠ 0 := by
  rw [feIsNonZero_spec hf]
  split
  next h => simp [h]
  next h => simp [h]

/-- Decoding succeeds exactly if the curve has a point with the encoded `y`, and then yields such a
point with the encoded sign. -/
theorem setBytes_spec (self : Ext) {s : Bytes} (hs : s.length = 32) :
    (((self.setBytes s).2 = true) ↔ ∃ p : EdPt, p.y = ((leNat s % 2 ^ 255 : Nat) : Fp)) ∧
    ((self.setBytes s).2 = true → ∃ p : EdPt, (self.setBytes s).1.Rep p ∧
      p.y = ((leNat s % 2 ^ 255 : Nat) : Fp) ∧ (p.x ≠ 0 → p.x.val % 2 = leNat s / 2 ^ 255)) := by
  obtain ⟨hy, ey⟩ := feFromBytes_spec s
  obtain ⟨bx, bu, bv, eu, ev, ex⟩ := candidate_spec hy
  have q0 := feSquare_spec bx.loose
  have q := feMul_spec q0.1.loose bv.loose
  have c1 := diffTM q.1 bu
  have c2 := sumTM q.1 bu
  have hv := v_ne (feVal (feFromBytes s))
  have key := sqrt_spec _ _ hv _ ex
  have eq : feVal (feMul (feSquare (candidate (feFromBytes s)).1) (candidate (feFromBytes s)).2.2) =
      (dC * feVal (feFromBytes s) ^ 2 + 1) * feVal (candidate (feFromBytes s)).1 ^ 2 := by
    rw [q.2, q0.2, ev]; ring
  have e1 : self.setBytes s =
      (if feIsNonZero (feSub (feMul (feSquare (candidate (feFromBytes s)).1) (candidate (feFromBytes s)).2.2)
          (candidate (feFromBytes s)).2.1) = 1 then
        if feIsNonZero (feAdd (feMul (feSquare (candidate (feFromBytes s)).1) (candidate (feFromBytes s)).2.2)
          (candidate (feFromBytes s)).2.1) = 1 then
          (⟨(candidate (feFromBytes s)).1, feFromBytes s, feOne, self.t⟩, false)
        else (finishBytes (feMul (candidate (feFromBytes s)).1 feSqrtM1) (feFromBytes s) s, true)
      else (finishBytes (candidate (feFromBytes s)).1 (feFromBytes s) s, true)) := by
    unfold Ext.setBytes
    rw [if_neg (by simp [hs])]
  have n1 := nonZero_iff c1.1
  have n2 := nonZero_iff c2.1
  rw [c1.2, eq, eu, sub_ne_zero] at n1
  rw [c2.2, eq, eu] at n2
  rw [← ey]
  rw [e1]
  by_cases h1 : (dC * feVal (feFromBytes s) ^ 2 + 1) * feVal (candidate (feFromBytes s)).1 ^ 2 = feVal (feFromBytes s) ^ 2 - 1
  · rw [if_neg (fun h => n1.1 h h1)]
    obtain ⟨p, hp, h2, h3⟩ := finishBytes_rep bx hy ((on_iff _ _).2 h1) hs
    exact ⟨⟨fun _ => ⟨p, h2⟩, fun _ => rfl⟩, fun _ => ⟨p, hp, h2, h3⟩⟩
  · rw [if_pos (n1.2 h1)]
    by_cases h2 : (dC * feVal (feFromBytes s) ^ 2 + 1) * feVal (candidate (feFromBytes s)).1 ^ 2 = -(feVal (feFromBytes s) ^ 2 - 1)
    · rw [if_neg (fun h => n2.1 h (by rw [h2, neg_add_cancel]))]
      have m := feMul_spec bx.loose feSqrtM1_spec.1.loose
      obtain ⟨p, hp, h3, h4⟩ := finishBytes_rep m.1 hy (by
        rw [on_iff, m.2, feSqrtM1_spec.2, mul_pow, iC_sq]
        linear_combination -h2) hs
      exact ⟨⟨fun _ => ⟨p, h3⟩, fun _ => rfl⟩, fun _ => ⟨p, hp, h3, h4⟩⟩
    · rw [if_pos (n2.2 (fun h => h2 (by linear_combination h)))]
      rcases key with k | k | k
      · exact absurd k h1
      · exact absurd k h2
      · refine ⟨⟨fun h => absurd h (by simp), ?_⟩, fun h => absurd h (by simp)⟩
        rintro ⟨p, hp⟩
        exact absurd ⟨p.x, by rw [← hp]; exact (on_iff _ _).1 p.on⟩ k

/-- The encoding determines the point. -/
theorem ptEnc_inj {p q : EdPt} (h : ptEnc p = ptEnc q) : p = q := by
  have h1 := congrArg leNat h
  rw [leNat_ptEnc, leNat_ptEnc] at h1
  have a := val_lt_pow p.y
  have b := val_lt_pow q.y
  have hy : p.y.val = q.y.val := by omega
  have hpar : p.x.val % 2 = q.x.val % 2 := by omega
  have hy' : p.y = q.y := ZMod.val_injective _ hy
  rcases x_eq_or hy' with e | e
  · exact e
  · by_cases h0 : q.x = 0
    · rw [e]
      ext
      · rw [neg_x, h0, neg_zero]
      · rfl
    · exfalso
      rw [e, neg_x, neg_val_parity h0] at hpar
      omega

theorem ptEq_iff {s u : Ext} {p q : EdPt} (h : s.Rep p) (g : u.Rep q) : ptEq s u = true ↔ p = q := by
  unfold ptEq
  simp only [List.all_eq_true, List.mem_range, beq_iff_eq]
  rw [bytes_eq h, bytes_eq g]
  constructor
  · intro hall
    apply ptEnc_inj
    apply List.ext_getElem?
    intro i
    by_cases hi : i < 32
    · have := hall i hi
      rw [List.getD_eq_getElem?_getD, List.getD_eq_getElem?_getD,
        List.getElem?_eq_getElem (by rw [length_ptEnc]; exact hi),
        List.getElem?_eq_getElem (by rw [length_ptEnc]; exact hi)] at this
      rw [List.getElem?_eq_getElem (by rw [length_ptEnc]; exact hi),
        List.getElem?_eq_getElem (by rw [length_ptEnc]; exact hi)]
      exact congrArg some this
    · rw [List.getElem?_eq_none (by rw [length_ptEnc]; omega), List.getElem?_eq_none (by rw [length_ptEnc]; omega)]
  · rintro rfl i _
    rfl

end Kyber.Ed
