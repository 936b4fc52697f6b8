/-
C53 to C60 and C69 to C73: points of edwards25519.

`Fp` is the field of `2^255 - 19` elements, `dC` the constant of the curve, `L` the order of the
base point.
-/
import Verif.Lemmas.Ed.Point

namespace Kyber.Ed

open Kyber Kyber.ModInt

/-- A well-formed extended group element: ten limbs within the bounds the multiplication needs,
`Z ≠ 0`, on the curve, and `XY = ZT`. -/
structure Ext.Valid (s : Ext) : Prop where
  bx : Tight s.x
  by_ : Tight s.y
  bz : Tight s.z
  bt : Tight s.t
  z : feVal s.z ≠ 0
  on : (feVal s.y ^ 2 - feVal s.x ^ 2) * feVal s.z ^ 2 = feVal s.z ^ 4 + dC * feVal s.x ^ 2 * feVal s.y ^ 2
  ext : feVal s.x * feVal s.y = feVal s.z * feVal s.t

/-- The affine coordinates. -/
def Ext.ax (s : Ext) : Fp := feVal s.x / feVal s.z
def Ext.ay (s : Ext) : Fp := feVal s.y / feVal s.z

theorem Ext.Valid.onCurve {s : Ext} (h : s.Valid) : On dC s.ax s.ay := by
  have hz := h.z
  have on := h.on
  unfold On Ext.ax Ext.ay
  field_simp
  linear_combination on

/-- The point that a well-formed group element stands for. -/
def Ext.Valid.pt {s : Ext} (h : s.Valid) : EdPt := ⟨s.ax, s.ay, h.onCurve⟩

theorem Ext.Valid.rep {s : Ext} (h : s.Valid) : s.Rep h.pt := by
  have hz := h.z
  have e := h.ext
  refine ⟨h.bx, h.by_, h.bz, h.bt, h.z, ?_, ?_, ?_⟩ <;> simp only [Ext.Valid.pt, Ext.ax, Ext.ay]
  · field_simp
  · field_simp
  · field_simp
    linear_combination -e

theorem Ext.Rep.valid {s : Ext} {p : EdPt} (h : s.Rep p) : s.Valid := by
  have on := p.on
  unfold On at on
  refine ⟨h.bx, h.by_, h.bz, h.bt, h.z, ?_, ?_⟩
  · rw [h.hx, h.hy]
    linear_combination feVal s.z ^ 4 * on
  · rw [h.hx, h.hy, h.ht]
    ring

theorem Ext.Rep.ax_eq {s : Ext} {p : EdPt} (h : s.Rep p) : s.ax = p.x := by
  unfold Ext.ax
  rw [h.hx, mul_div_cancel_right₀ _ h.z]

theorem Ext.Rep.ay_eq {s : Ext} {p : EdPt} (h : s.Rep p) : s.ay = p.y := by
  unfold Ext.ay
  rw [h.hy, mul_div_cancel_right₀ _ h.z]

theorem Ext.Rep.pt_eq {s : Ext} {p : EdPt} (h : s.Rep p) : h.valid.pt = p := by
  ext
  · exact h.ax_eq
  · exact h.ay_eq

theorem pair_eq {α : Type} {x : α × Bool} {b : Bool} (h : x.2 = b) : x = (x.1, b) := by
  cases x
  simp only at h
  rw [h]

theorem unmarshal_eq {self : Ext} {data : Bytes} {b : Bool} (h : (self.setBytes data).2 = b) :
    ptUnmarshal self data = ((self.setBytes data).1, b) := by
  unfold ptUnmarshal
  exact pair_eq h

theorem null_valid : extZero.Valid := extZero_rep.valid
theorem base_valid : baseExt.Valid := baseExt_rep.valid

/-! ## C53: canonical encodings of points -/

/-- `is_canonical` should accept exactly the 32-byte strings whose low 255 bits are below `p`. -/
def C53_statement : Prop :=
  ∀ b : Bytes, ptIsCanonical b = true ↔ b.length = 32 ∧ leNat b % 2 ^ 255 < P

/-- The encoding of `p - 1`, a canonical one, is rejected. -/
theorem C53_violated : ¬ C53_statement := by
  intro h
  have := (h (leBytes 32 (P - 1))).2 ⟨length_leBytes _ _, by decide +kernel⟩
  rw [ptIsCanonical_iff] at this
  exact absurd this.2 (by decide +kernel)

/-- What holds: every accepted string is a canonical encoding, and every canonical encoding is
accepted except for the values `p - 217` to `p - 1`. -/
theorem C53_is_canonical_partial (b : Bytes) :
    (ptIsCanonical b = true → b.length = 32 ∧ leNat b % 2 ^ 255 < P) ∧
    (b.length = 32 → leNat b % 2 ^ 255 < P →
      (ptIsCanonical b = false ↔ P - 217 ≤ leNat b % 2 ^ 255)) := by
  have hP : P = 2 ^ 255 - 19 := rfl
  constructor
  · intro h
    rw [ptIsCanonical_iff] at h
    exact ⟨h.1, by omega⟩
  · intro hb hlt
    rw [← Bool.not_eq_true, ptIsCanonical_iff]
    constructor
    · intro h
      by_contra hc
      exact h ⟨hb, by omega⟩
    · rintro h ⟨_, h2⟩
      omega

example : ptIsCanonical (leBytes 32 5) = true ∧ ptIsCanonical (leBytes 32 (P + 3)) = false ∧
    ptIsCanonical (leBytes 32 (P - 217)) = false ∧ ptIsCanonical (leBytes 32 (P - 218)) = true := by decide +kernel

/-! ## C54: small order -/

/-- `has_small_order` is true exactly for the points of order dividing 8. -/
theorem C54_small_order (s : Ext) (h : s.Valid) : hasSmallOrder s = true ↔ 8 • h.pt = 0 := by
  rw [hasSmallOrder_iff h.rep, weak_iff]

example : hasSmallOrder baseExt = true ↔ 8 • base_valid.pt = 0 := C54_small_order baseExt base_valid

/-- In terms of the encoding: the 255 low bits are those of a listed key. -/
theorem C54_listed (s : Ext) (h : s.Valid) :
    hasSmallOrder s = true ↔ ∃ w ∈ weakKeys, leNat (ptMarshal s) % 2 ^ 255 = leNat w := by
  rw [hasSmallOrder_iff h.rep]
  unfold ptMarshal
  rw [bytes_eq h.rep, leNat_ptEnc, Nat.add_mul_mod_self_left, Nat.mod_eq_of_lt (val_lt_pow _)]

example := C54_listed baseExt base_valid

/-- Every listed key is the encoding of a point, so none is listed in vain; there are exactly eight
points of order dividing 8, and they are the multiples of one of them. -/
theorem C54_eight_points :
    (∀ w ∈ weakKeys, ∃ p : EdPt, 8 • p = 0 ∧ p.y = (leNat w : Fp)) ∧
    (∃ t : EdPt, addOrderOf t = 8 ∧ ∀ p : EdPt, 8 • p = 0 ↔ ∃ k < 8, p = k • t) := by
  constructor
  · intro w hw
    obtain ⟨k, hk, e⟩ := torsion_y' w hw
    exact ⟨k • tPt, (eight_torsion _).2 ⟨k, hk, rfl⟩, rep_y (nMul_rep tN_rep 4 k (by omega)) e⟩
  · exact ⟨tPt, addOrderOf_tPt, eight_torsion⟩

/-- The base point is not of small order, the neutral element is. -/
theorem C54_base_null : hasSmallOrder baseExt = false ∧ hasSmallOrder extZero = true := by
  constructor
  · rw [← Bool.not_eq_true, C54_small_order _ base_valid, baseExt_rep.pt_eq]
    intro h
    have := addOrderOf_dvd_of_nsmul_eq_zero h
    rw [addOrderOf_base] at this
    exact absurd (Nat.le_of_dvd (by decide) this) (by decide +kernel)
  · rw [C54_small_order _ null_valid, extZero_rep.pt_eq, smul_zero]

/-! ## C55: the group law -/

/-- Addition: the denominators of the Edwards addition law do not vanish, and the result is a
well-formed element with the coordinates given by the law - also when the operands are equal,
opposite or neutral. -/
theorem C55_add (s u : Ext) (hs : s.Valid) (hu : u.Valid) :
    (ptAdd s u).Valid ∧
      1 + dC * s.ax * u.ax * s.ay * u.ay ≠ 0 ∧ 1 - dC * s.ax * u.ax * s.ay * u.ay ≠ 0 ∧
      (ptAdd s u).ax = (s.ax * u.ay + u.ax * s.ay) / (1 + dC * s.ax * u.ax * s.ay * u.ay) ∧
      (ptAdd s u).ay = (s.ay * u.ay + s.ax * u.ax) / (1 - dC * s.ax * u.ax * s.ay * u.ay) := by
  have h := ptAdd_rep hs.rep hu.rep
  exact ⟨h.valid, den_plus hs.onCurve hu.onCurve, den_minus hs.onCurve hu.onCurve,
    h.ax_eq.trans (add_x _ _), h.ay_eq.trans (add_y _ _)⟩

example : (ptAdd baseExt baseExt).Valid := (C55_add _ _ base_valid base_valid).1

/-- Subtraction: the addition of the point with `x` negated. -/
theorem C55_sub (s u : Ext) (hs : s.Valid) (hu : u.Valid) :
    (ptSub s u).Valid ∧
      1 - dC * s.ax * u.ax * s.ay * u.ay ≠ 0 ∧ 1 + dC * s.ax * u.ax * s.ay * u.ay ≠ 0 ∧
      (ptSub s u).ax = (s.ax * u.ay - u.ax * s.ay) / (1 - dC * s.ax * u.ax * s.ay * u.ay) ∧
      (ptSub s u).ay = (s.ay * u.ay - s.ax * u.ax) / (1 + dC * s.ax * u.ax * s.ay * u.ay) := by
  have h := ptSub_rep hs.rep hu.rep
  refine ⟨h.valid, den_minus hs.onCurve hu.onCurve, den_plus hs.onCurve hu.onCurve, ?_, ?_⟩
  · rw [h.ax_eq, sub_eq_add_neg, add_x, neg_x, neg_y]
    simp only [Ext.Valid.pt]
    congr 1 <;> ring
  · rw [h.ay_eq, sub_eq_add_neg, add_y, neg_x, neg_y]
    simp only [Ext.Valid.pt]
    congr 1 <;> ring

example : (ptSub baseExt (ptAdd baseExt baseExt)).Valid :=
  (C55_sub _ _ base_valid (C55_add _ _ base_valid base_valid).1).1

/-- Negation. -/
theorem C55_neg (s : Ext) (hs : s.Valid) : (ptNeg s).Valid ∧ (ptNeg s).ax = -s.ax ∧ (ptNeg s).ay = s.ay := by
  have h := hs.rep.neg
  exact ⟨h.valid, h.ax_eq.trans (neg_x _), h.ay_eq.trans (neg_y _)⟩

example : (ptNeg baseExt).ax = -baseExt.ax := (C55_neg baseExt base_valid).2.1

/-- Doubling, through both the extended and the projective representation. -/
theorem C55_double (s : Ext) (hs : s.Valid) :
    s.double.toExt.Valid ∧ s.double.toExt.ax = (ptAdd s s).ax ∧ s.double.toExt.ay = (ptAdd s s).ay ∧
      (s.double.toProj.double).toExt.ax = (ptAdd (ptAdd s s) (ptAdd s s)).ax ∧
      (s.double.toProj.double).toExt.ay = (ptAdd (ptAdd s s) (ptAdd s s)).ay := by
  have h := hs.rep.double.toExt
  have g := ptAdd_rep hs.rep hs.rep
  have h2 := hs.rep.double.toProj.double.toExt
  have g2 := ptAdd_rep g g
  exact ⟨h.valid, h.ax_eq.trans g.ax_eq.symm, h.ay_eq.trans g.ay_eq.symm, h2.ax_eq.trans g2.ax_eq.symm,
    h2.ay_eq.trans g2.ay_eq.symm⟩

example := C55_double baseExt base_valid

/-- Precomputed elements `(y + x, y - x, 2dxy)`: mixed addition and subtraction agree with addition
and subtraction. -/
theorem C55_mixed (s u : Ext) (q : Pre) (hs : s.Valid) (hu : u.Valid)
    (bp : Tight q.yPlusX) (bm : Tight q.yMinusX) (bt : Tight q.xy2d)
    (hp : feVal q.yPlusX = u.ay + u.ax) (hm : feVal q.yMinusX = u.ay - u.ax)
    (ht : feVal q.xy2d = 2 * dC * u.ax * u.ay) :
    (mixedAdd s q).toExt.ax = (ptAdd s u).ax ∧ (mixedAdd s q).toExt.ay = (ptAdd s u).ay ∧
      (mixedSub s q).toExt.ax = (ptSub s u).ax ∧ (mixedSub s q).toExt.ay = (ptSub s u).ay := by
  have hq : q.Rep hu.pt := ⟨bp, bm, bt, hp, hm, ht⟩
  have a := (mixedAdd_rep hs.rep hq).toExt
  have b := (mixedSub_rep hs.rep hq).toExt
  have c := ptAdd_rep hs.rep hu.rep
  have d := ptSub_rep hs.rep hu.rep
  exact ⟨a.ax_eq.trans c.ax_eq.symm, a.ay_eq.trans c.ay_eq.symm, b.ax_eq.trans d.ax_eq.symm, b.ay_eq.trans d.ay_eq.symm⟩

example : ∃ q : Pre, Tight q.yPlusX ∧ Tight q.yMinusX ∧ Tight q.xy2d ∧ feVal q.yPlusX = baseExt.ay + baseExt.ax ∧
    feVal q.yMinusX = baseExt.ay - baseExt.ax ∧ feVal q.xy2d = 2 * dC * baseExt.ax * baseExt.ay := by
  have h := base_rep 0 (by decide) 0 (by decide)
  rw [pow_zero, one_smul, zero_add, one_smul] at h
  refine ⟨_, h.bp, h.bm, h.bt, ?_, ?_, ?_⟩
  · rw [h.hp, baseExt_rep.ax_eq, baseExt_rep.ay_eq]
  · rw [h.hm, baseExt_rep.ax_eq, baseExt_rep.ay_eq]
  · rw [h.ht, baseExt_rep.ax_eq, baseExt_rep.ay_eq]

/-- The laws of a commutative group, as seen through the equality test of points. -/
theorem C55_group (s u w : Ext) (hs : s.Valid) (hu : u.Valid) (hw : w.Valid) :
    ptEq (ptAdd (ptAdd s u) w) (ptAdd s (ptAdd u w)) = true ∧
    ptEq (ptAdd s u) (ptAdd u s) = true ∧
    ptEq (ptAdd s extZero) s = true ∧
    ptEq (ptAdd s (ptNeg s)) extZero = true ∧
    ptEq (ptSub s u) (ptAdd s (ptNeg u)) = true := by
  have a := hs.rep
  have b := hu.rep
  have c := hw.rep
  refine ⟨?_, ?_, ?_, ?_, ?_⟩
  · rw [ptEq_iff (ptAdd_rep (ptAdd_rep a b) c) (ptAdd_rep a (ptAdd_rep b c)), add_assoc]
  · rw [ptEq_iff (ptAdd_rep a b) (ptAdd_rep b a), add_comm]
  · rw [ptEq_iff (ptAdd_rep a extZero_rep) a, add_zero]
  · exact (ptEq_iff (ptAdd_rep a a.neg) extZero_rep).2 (add_neg_cancel _)
  · exact (ptEq_iff (ptSub_rep a b) (ptAdd_rep a b.neg)).2 (sub_eq_add_neg _ _)

example : baseExt.Valid ∧ extZero.Valid := ⟨base_valid, null_valid⟩

/-! ## C56: multiplication by scalars -/

/-- `mul(s, Some(P))` is the `s`-fold sum of `P` (multiples in the group of the curve are iterated
additions). -/
theorem C56_mul (a : Bytes) (ha : a.length = 32) (hlt : leNat a < 2 ^ 255) (s : Ext) (hs : s.Valid) :
    (ptMul a (some s)).Valid ∧ ∃ q : EdPt, q = leNat a • hs.pt ∧
      (ptMul a (some s)).ax = q.x ∧ (ptMul a (some s)).ay = q.y := by
  have h := scalarMult_rep hs.rep ha hlt
  exact ⟨h.valid, _, rfl, h.ax_eq, h.ay_eq⟩

example := C56_mul (leBytes 32 (L - 1)) rfl (by decide +kernel) baseExt base_valid

/-- `mul(s, None)`, with the table of precomputed multiples, is the `s`-fold sum of the base point. -/
theorem C56_mul_base (a : Bytes) (ha : a.length = 32) (hlt : leNat a < 2 ^ 255) :
    (ptMul a none).Valid ∧ ptEq (ptMul a none) (ptMul a (some baseExt)) = true ∧
      ∃ q : EdPt, q = leNat a • base_valid.pt ∧ (ptMul a none).ax = q.x ∧ (ptMul a none).ay = q.y := by
  have h := scalarMultBase_rep ha hlt
  have g := scalarMult_rep baseExt_rep ha hlt
  refine ⟨h.valid, (ptEq_iff h g).2 rfl, leNat a • basePt, ?_, h.ax_eq, h.ay_eq⟩
  rw [show base_valid.pt = basePt from baseExt_rep.pt_eq]

example := C56_mul_base (leBytes 32 (L - 1)) rfl (by decide +kernel)

/-- Repeated addition at the level of the code: adding `P` to itself `n` times in a loop gives a
point equal to `mul(n, P)`. -/
theorem C56_iterate (a : Bytes) (ha : a.length = 32) (hlt : leNat a < 2 ^ 255) (s : Ext) (hs : s.Valid) :
    ptEq (ptMul a (some s)) ((fun acc => ptAdd acc s)^[leNat a] extZero) = true := by
  have h := scalarMult_rep hs.rep ha hlt
  have it : ∀ n : Nat, ((fun acc => ptAdd acc s)^[n] extZero).Rep (n • hs.pt) := by
    intro n
    induction n with
    | zero => rw [zero_smul]; exact extZero_rep
    | succ n ih =>
      rw [Function.iterate_succ_apply', add_smul, one_smul]
      exact ptAdd_rep ih hs.rep
  exact (ptEq_iff h (it _)).2 rfl

example : (leBytes 32 (L - 1)).length = 32 ∧ leNat (leBytes 32 (L - 1)) < 2 ^ 255 := by decide +kernel

/-- Every entry of the table is the multiple it should be. -/
theorem C56_table (r : Nat) (hr : r < 32) (i : Nat) (hi : i < 8) :
    ∃ q : EdPt, q = ((i + 1) * 256 ^ r) • base_valid.pt ∧
      feVal ((base.getD r []).getD i preZero).yPlusX = q.y + q.x ∧
      feVal ((base.getD r []).getD i preZero).yMinusX = q.y - q.x ∧
      feVal ((base.getD r []).getD i preZero).xy2d = 2 * dC * q.x * q.y := by
  have h := base_rep r hr i hi
  rw [← mul_smul] at h
  refine ⟨_, rfl, ?_⟩
  rw [show base_valid.pt = basePt from baseExt_rep.pt_eq]
  exact ⟨h.hp, h.hm, h.ht⟩

example := C56_table 31 (by decide) 7 (by decide)

/-! ## C69: all scalar values -/

/-- `unmarshal_binary` of a scalar stores any 32 bytes; multiplication should be right for all of
them. -/
def C69_statement : Prop :=
  ∀ (a : Bytes), a.length = 32 → ∀ (s : Ext) (hs : s.Valid), ∀ h' : (ptMul a (some s)).Valid, h'.pt = leNat a • hs.pt

/-- The scalar `9 * 16^63`, as accepted by `unmarshal_binary`. -/
def bigScalar : Bytes := List.replicate 31 0 ++ [0x90]

/-- For it, the product with the base point is the neutral element, which is wrong. -/
theorem C69_violated : ¬ C69_statement := by
  intro h
  have g := scalarMult_gen baseExt_rep (a := bigScalar) (by decide)
  have hd : (digits bigScalar).getD 63 0 = 9 := by decide +kernel
  have hn : (leNat bigScalar : Int) = 16 ^ 63 * 9 := by decide +kernel
  rw [hd, if_neg (by decide), hn, sub_self, zero_smul] at g
  have e := h bigScalar (by decide) baseExt base_valid g.valid
  replace e := (g.pt_eq.symm.trans e)
  rw [show base_valid.pt = basePt from baseExt_rep.pt_eq] at e
  have := addOrderOf_dvd_of_nsmul_eq_zero e.symm
  rw [addOrderOf_base] at this
  revert this
  decide +kernel

example : scUnmarshal scZero bigScalar = (bigScalar, .ok ()) := by decide +kernel

/-- What holds for all strings of 32 bytes: the result is a well-formed point, namely the right one
less the contribution of the top signed digit if that digit exceeds 8. -/
theorem C69_mul_partial (a : Bytes) (ha : a.length = 32) (s : Ext) (hs : s.Valid) :
    ∃ h' : (ptMul a (some s)).Valid, ∃ e : Int, (0 ≤ e ∧ e ≤ 16) ∧
      h'.pt = ((leNat a : Int) - (if e ≤ 8 then 0 else e * 16 ^ 63)) • hs.pt ∧
      (e = (a.getD 31 0).toNat / 16 ∨ e = (a.getD 31 0).toNat / 16 + 1) := by
  have g := scalarMult_gen hs.rep ha
  refine ⟨g.valid, (digits a).getD 63 0, digits_top_range ha, ?_, ?_⟩
  · refine g.pt_eq.trans ?_
    rw [mul_comm (16 ^ 63 : Int)]
  · rcases digits_top ha with h | h
    · left; rw [h]; norm_cast
    · right; rw [h]; norm_cast

example := C69_mul_partial (List.replicate 32 255) rfl baseExt base_valid

/-- The same for the base point. -/
theorem C69_mul_base_partial (a : Bytes) (ha : a.length = 32) :
    (ptMul a none).Valid ∧ ptEq (ptMul a none) (ptMul a (some baseExt)) = true := by
  have h := scalarMultBase_gen ha
  have g := scalarMult_gen baseExt_rep ha
  exact ⟨h.valid, (ptEq_iff h g).2 rfl⟩

example := C69_mul_base_partial (List.replicate 32 255) rfl

/-! ## C57: encoding -/

/-- Decoding the encoding of a point gives back a point equal to it, whatever the receiver held. -/
theorem C57_round_trip (s : Ext) (hs : s.Valid) (self : Ext) :
    ∃ u, ptUnmarshal self (ptMarshal s) = (u, true) ∧ u.Valid ∧ u.ax = s.ax ∧ u.ay = s.ay ∧ ptEq u s = true := by
  unfold ptMarshal
  rw [bytes_eq hs.rep]
  have hlen := length_ptEnc hs.pt
  have hnat := leNat_ptEnc hs.pt
  have hlt := val_lt_pow hs.pt.y
  have hmod : leNat (ptEnc hs.pt) % 2 ^ 255 = hs.pt.y.val := by
    rw [hnat, Nat.add_mul_mod_self_left, Nat.mod_eq_of_lt hlt]
  have hdiv : leNat (ptEnc hs.pt) / 2 ^ 255 = hs.pt.x.val % 2 := by
    rw [hnat, Nat.add_mul_div_left _ _ (by norm_num), Nat.div_eq_of_lt hlt, zero_add]
  obtain ⟨h1, h2⟩ := setBytes_spec self hlen
  rw [hmod, ZMod.natCast_zmod_val, hdiv] at h2
  rw [hmod, ZMod.natCast_zmod_val] at h1
  have hok := h1.2 ⟨hs.pt, rfl⟩
  obtain ⟨q, hq, hy, hpar⟩ := h2 hok
  have hqp : q = hs.pt := by
    rcases x_eq_or hy with e | e
    · exact e
    · by_cases h0 : q.x = 0
      · have : hs.pt.x = 0 := by
          have h3 := congrArg EdPt.x e
          rw [neg_x, h0] at h3
          exact neg_eq_zero.1 h3.symm
        ext
        · rw [h0, this]
        · exact hy
      · exfalso
        have h3 := hpar h0
        have h4 : hs.pt.x ≠ 0 := by
          intro h5
          apply h0
          rw [e, neg_x, h5, neg_zero]
        rw [e, neg_x, neg_val_parity h4] at h3
        omega
  rw [hqp] at hq
  exact ⟨(self.setBytes (ptEnc hs.pt)).1, unmarshal_eq hok, hq.valid, hq.ax_eq, hq.ay_eq, (ptEq_iff hq hs.rep).2 rfl⟩

/-- Equality of points, and equality of encodings, is equality of affine coordinates. -/
theorem C57_eq (s u : Ext) (hs : s.Valid) (hu : u.Valid) :
    (ptEq s u = true ↔ s.ax = u.ax ∧ s.ay = u.ay) ∧ (ptMarshal s = ptMarshal u ↔ s.ax = u.ax ∧ s.ay = u.ay) := by
  have key : hs.pt = hu.pt ↔ s.ax = u.ax ∧ s.ay = u.ay := by
    constructor
    · intro h
      exact ⟨congrArg EdPt.x h, congrArg EdPt.y h⟩
    · rintro ⟨h1, h2⟩
      ext
      · exact h1
      · exact h2
  constructor
  · rw [ptEq_iff hs.rep hu.rep, key]
  · unfold ptMarshal
    rw [bytes_eq hs.rep, bytes_eq hu.rep, ← key]
    exact ⟨ptEnc_inj, fun h => by rw [h]⟩

example := C57_eq baseExt (ptAdd baseExt extZero) base_valid (C55_add _ _ base_valid null_valid).1

/-- The encoding: 255 bits of `y`, least significant byte first, and the parity of `x` in the top
bit. -/
theorem C57_marshal (s : Ext) (hs : s.Valid) :
    (ptMarshal s).length = 32 ∧ leNat (ptMarshal s) = s.ay.val + 2 ^ 255 * (s.ax.val % 2) := by
  unfold ptMarshal
  rw [bytes_eq hs.rep]
  exact ⟨length_ptEnc _, leNat_ptEnc _⟩

example : leNat (ptMarshal baseExt) = bN.y := by
  rw [(C57_marshal _ base_valid).2, baseExt_rep.ax_eq, baseExt_rep.ay_eq, basePt_x, Nat.mul_zero, Nat.add_zero]
  show (bN.y : Fp).val = bN.y
  rw [ZMod.val_natCast]
  decide +kernel

/-! ## C58: decoding -/

/-- A successful decoding yields a point of the curve with the encoded `y` and, unless `x = 0`, the
encoded sign. -/
theorem C58_decode (self : Ext) (b : Bytes) (u : Ext) (h : ptUnmarshal self b = (u, true)) :
    b.length = 32 ∧ u.Valid ∧ u.ay = ((leNat b % 2 ^ 255 : Nat) : Fp) ∧
      (u.ax ≠ 0 → u.ax.val % 2 = leNat b / 2 ^ 255) := by
  unfold ptUnmarshal at h
  have hlen := setBytes_len (self := self) (s := b) (by rw [h])
  obtain ⟨p, hp, hy, hx⟩ := (setBytes_spec self hlen).2 (by rw [h])
  rw [h] at hp
  refine ⟨hlen, hp.valid, by rw [hp.ay_eq, hy], ?_⟩
  rw [hp.ax_eq]
  exact hx

example (self : Ext) : ∃ u, ptUnmarshal self (ptMarshal baseExt) = (u, true) ∧
    u.ay = ((leNat (ptMarshal baseExt) % 2 ^ 255 : Nat) : Fp) := by
  obtain ⟨u, hu, -⟩ := C57_round_trip baseExt base_valid self
  exact ⟨u, hu, (C58_decode self _ u hu).2.2.1⟩

/-- Decoding succeeds exactly for strings of 32 bytes for which the curve has a point with the
encoded `y`. -/
theorem C58_accept (self : Ext) (b : Bytes) :
    (ptUnmarshal self b).2 = true ↔ b.length = 32 ∧ ∃ x y : Fp, y = ((leNat b % 2 ^ 255 : Nat) : Fp) ∧
      y ^ 2 - x ^ 2 = 1 + dC * x ^ 2 * y ^ 2 := by
  unfold ptUnmarshal
  constructor
  · intro h
    have hlen := setBytes_len h
    obtain ⟨p, hp⟩ := (setBytes_spec self hlen).1.1 h
    exact ⟨hlen, p.x, p.y, hp, p.on⟩
  · rintro ⟨hlen, x, y, hy, hon⟩
    exact (setBytes_spec self hlen).1.2 ⟨⟨x, y, hon⟩, hy⟩

/-- A string of another length is refused and the receiver is left alone. -/
theorem C58_length (self : Ext) (b : Bytes) (h : b.length ≠ 32) : ptUnmarshal self b = (self, false) := by
  unfold ptUnmarshal Ext.setBytes
  rw [if_pos h]

example : (ptUnmarshal extDefault (ptMarshal baseExt)).2 = true := by
  obtain ⟨u, hu, _⟩ := C57_round_trip baseExt base_valid extDefault
  rw [hu]

/-! ## C71: strictness of decoding -/

/-- Every accepted encoding should be the encoding of the point obtained. -/
def C71_statement : Prop :=
  ∀ (self : Ext) (b : Bytes) (u : Ext), ptUnmarshal self b = (u, true) → ptMarshal u = b

/-- The neutral element with the sign bit set. -/
def oddNull : Bytes := [1] ++ List.replicate 30 0 ++ [0x80]

theorem one_point : (⟨0, 1, by unfold On; ring⟩ : EdPt) = 0 := rfl

/-- A string that decodes to the neutral element and is not its encoding. -/
theorem C71_violated : ¬ C71_statement := by
  intro h
  have hn : leNat oddNull = 1 + 2 ^ 255 := by decide +kernel
  have hlen : oddNull.length = 32 := by decide
  have hm : leNat oddNull % 2 ^ 255 = 1 := by rw [hn]; norm_num
  have hok := (setBytes_spec extZero hlen).1.2 ⟨0, by rw [hm, Nat.cast_one]; rfl⟩
  obtain ⟨p, hp, hy, _⟩ := (setBytes_spec extZero hlen).2 hok
  rw [hm, Nat.cast_one] at hy
  have hp0 : p = 0 := by
    rcases x_eq_or (p := p) (q := 0) (by rw [hy]; rfl) with e | e
    · exact e
    · rw [e, neg_zero]
  have e := h extZero oddNull (extZero.setBytes oddNull).1 (unmarshal_eq hok)
  unfold ptMarshal at e
  rw [bytes_eq hp, hp0] at e
  have := congrArg leNat e
  rw [leNat_ptEnc, hn, zero_x, zero_y, ZMod.val_zero, ZMod.val_one] at this
  omega

/-- What holds: an accepted encoding is that of the point obtained if its `y` is reduced and it does
not give a sign to `x = 0`. -/
theorem C71_strict_partial (self : Ext) (b : Bytes) (u : Ext) (h : ptUnmarshal self b = (u, true)) :
    ptMarshal u = b ↔ leNat b % 2 ^ 255 < P ∧ (u.ax = 0 → leNat b < 2 ^ 255) := by
  obtain ⟨hlen, hv, hy, hx⟩ := C58_decode self b u h
  obtain ⟨ml, mn⟩ := C57_marshal u hv
  have hblt := leNat_lt b
  rw [hlen] at hblt
  have h256 : (256 : Nat) ^ 32 = 2 ^ 255 * 2 := by norm_num
  constructor
  · intro e
    rw [e] at mn
    have hl := val_lt_pow u.ay
    have hp := ZMod.val_lt u.ay
    rw [mn]
    refine ⟨?_, ?_⟩
    · rw [Nat.add_mul_mod_self_left, Nat.mod_eq_of_lt hl]
      exact hp
    · intro h0
      rw [h0, ZMod.val_zero]
      omega
  · rintro ⟨h1, h2⟩
    apply leNat_inj (by rw [ml, hlen])
    rw [mn, hy, ZMod.val_natCast, Nat.mod_eq_of_lt h1]
    by_cases h0 : u.ax = 0
    · have := h2 h0
      rw [h0, ZMod.val_zero]
      omega
    · rw [hx h0]
      omega

example (self : Ext) : ∃ u, ptUnmarshal self (ptMarshal baseExt) = (u, true) ∧
    (ptMarshal u = ptMarshal baseExt ↔ leNat (ptMarshal baseExt) % 2 ^ 255 < P ∧
      (u.ax = 0 → leNat (ptMarshal baseExt) < 2 ^ 255)) := by
  obtain ⟨u, hu, -⟩ := C57_round_trip baseExt base_valid self
  exact ⟨u, hu, C71_strict_partial self _ u hu⟩

/-- Two encodings that both pass decoding and `is_canonical` and decode to equal points with
`x ≠ 0` are the same. -/
theorem C71_unique_partial (self self' : Ext) (b b' : Bytes) (u u' : Ext) (h : ptUnmarshal self b = (u, true))
    (h' : ptUnmarshal self' b' = (u', true)) (hc : ptIsCanonical b = true) (hc' : ptIsCanonical b' = true)
    (hx : u.ax ≠ 0) (he : ptEq u u' = true) : b = b' := by
  have v := (C58_decode _ _ _ h).2.1
  have v' := (C58_decode _ _ _ h').2.1
  obtain ⟨e1, e2⟩ := (C57_eq u u' v v').1.1 he
  have a := (C71_strict_partial _ _ _ h).2 ⟨((C53_is_canonical_partial b).1 hc).2, fun h0 => absurd h0 hx⟩
  have a' := (C71_strict_partial _ _ _ h').2 ⟨((C53_is_canonical_partial b').1 hc').2, fun h0 => absurd (e1.trans h0) hx⟩
  rw [← a, ← a']
  exact (C57_eq u u' v v').2.2 ⟨e1, e2⟩

/-! ## C72: the receiver of a failed decoding -/

/-- A point that failed to decode should keep its value. -/
def C72_statement : Prop :=
  ∀ (self : Ext) (b : Bytes) (u : Ext), self.Valid → ptUnmarshal self b = (u, false) → ptEq u self = true

/-- `y = 2` belongs to no point of the curve. -/
theorem no_point_two : ¬ ∃ p : EdPt, p.y = ((2 : Nat) : Fp) := by
  rintro ⟨p, hp⟩
  have h := (on_iff _ _).1 p.on
  rw [hp] at h
  -- `(4 d + 1) x^2 = 3`: Euler's criterion for `3 (4 d + 1)`
  have h2 : ((3 * (4 * dN + 1) : Nat) : Fp) = ((4 * dN + 1 : Nat) * p.x) ^ 2 := by
    push_cast at h ⊢
    rw [show (dN : Fp) = dC from rfl]
    linear_combination -(4 * dC + 1) * h
  have hx : ((4 * dN + 1 : Nat) * p.x : Fp) ≠ 0 := by
    intro h0
    rw [h0, zero_pow (by decide), ZMod.natCast_eq_zero_iff] at h2
    revert h2
    decide +kernel
  have h3 : ((3 * (4 * dN + 1) : Nat) : Fp) ^ ((P - 1) / 2) = 1 := by
    rw [h2, ← pow_mul, show 2 * ((P - 1) / 2) = P - 1 by decide +kernel]
    exact ZMod.pow_card_sub_one_eq_one hx
  have h4 : (((3 * (4 * dN + 1)) ^ ((P - 1) / 2) : Nat) : Fp) = ((1 : Nat) : Fp) := by
    rw [Nat.cast_pow, h3, Nat.cast_one]
  rw [ZMod.natCast_eq_natCast_iff', ← powMod_eq P 256 (3 * (4 * dN + 1)) _ (by decide +kernel)] at h4
  revert h4
  decide +kernel

def twoBytes : Bytes := 2 :: List.replicate 31 0

/-- The receiver after a failure. -/
theorem setBytes_fail {self : Ext} {b : Bytes} (hl : b.length = 32) (h : (self.setBytes b).2 = false) :
    ∃ x, (self.setBytes b).1 = ⟨x, feFromBytes b, feOne, self.t⟩ ∧ Tight x := by
  have hc := (candidate_spec (feFromBytes_spec b).1).1
  revert h
  have e1 : self.setBytes b =
      (if feIsNonZero (feSub (feMul (feSquare (candidate (feFromBytes b)).1) (candidate (feFromBytes b)).2.2)
          (candidate (feFromBytes b)).2.1) = 1 then
        if feIsNonZero (feAdd (feMul (feSquare (candidate (feFromBytes b)).1) (candidate (feFromBytes b)).2.2)
          (candidate (feFromBytes b)).2.1) = 1 then
          (⟨(candidate (feFromBytes b)).1, feFromBytes b, feOne, self.t⟩, false)
        else (finishBytes (feMul (candidate (feFromBytes b)).1 feSqrtM1) (feFromBytes b) b, true)
      else (finishBytes (candidate (feFromBytes b)).1 (feFromBytes b) b, true)) := by
    unfold Ext.setBytes
    rw [if_neg (by simp [hl])]
  rw [e1]
  split
  · split
    · intro _
      exact ⟨_, rfl, hc⟩
    · intro h; simp at h
  · intro h; simp at h

/-- The first byte of an encoding of an element with `Z = 1`. -/
theorem bytes_first {x y t : Fe} (bx : Tight x) (by_ : Tight y) {n : Nat} (hn : n < 256) (hy : feVal y = (n : Fp)) :
    (Ext.bytes ⟨x, y, feOne, t⟩).getD 0 0 = UInt8.ofNat n := by
  have i := feInvert_spec feOne_spec.1.loose
  have mx := feMul_spec bx.loose i.1.loose
  have my := feMul_spec by_.loose i.1.loose
  have vy : feVal (feMul y (feInvert feOne)) = (n : Fp) := by
    rw [my.2, i.2, feOne_spec.2, hy, inv_one, mul_one]
  have hP : 256 < P := by decide +kernel
  unfold Ext.bytes
  simp only
  rw [feToBytes_spec my.1.loose, vy, feIsNegative_spec mx.1.loose, ZMod.val_natCast, Nat.mod_eq_of_lt (by omega),
    xorLast_leBytes _ _ (lt_of_lt_of_le hn (by norm_num)) (Nat.mod_lt _ (by decide))]
  generalize (feVal (feMul x (feInvert feOne))).val % 2 = k
  rw [leBytes, List.getD_cons_zero]
  apply UInt8.toNat_inj.1
  rw [UInt8.toNat_ofNat', UInt8.toNat_ofNat']
  omega

/-- After the failed decoding of `y = 2`, the neutral element has become something that is not even
a point: its second coordinate is 2. -/
theorem C72_violated : ¬ C72_statement := by
  intro h
  have hlen : twoBytes.length = 32 := by decide
  have hn : leNat twoBytes = 2 := by decide +kernel
  have hm : leNat twoBytes % 2 ^ 255 = 2 := by rw [hn]; norm_num
  have ey := (feFromBytes_spec twoBytes)
  rw [hm] at ey
  revert hlen hm ey
  generalize twoBytes = b
  intro hlen hm ey
  have hfail : (extZero.setBytes b).2 = false := by
    rw [← Bool.not_eq_true, (setBytes_spec extZero hlen).1, hm]
    exact no_point_two
  obtain ⟨x, hx, bx⟩ := setBytes_fail hlen hfail
  have e := h extZero b _ null_valid (unmarshal_eq hfail)
  rw [hx] at e
  unfold ptEq at e
  simp only [List.all_eq_true, List.mem_range, beq_iff_eq] at e
  have e0 := e 0 (by decide)
  rw [bytes_eq extZero_rep, bytes_first bx ey.1 (by decide) ey.2] at e0
  have hz : (ptEnc 0).getD 0 0 = 1 := by
    unfold ptEnc
    rw [zero_x, zero_y, ZMod.val_zero, ZMod.val_one]
    decide +kernel
  rw [hz] at e0
  exact absurd e0 (by decide)

/-- What holds: a refused string of another length leaves the receiver alone, and a refused string
of 32 bytes leaves only `t` alone. -/
theorem C72_failed_partial (self : Ext) (b : Bytes) (u : Ext) (h : ptUnmarshal self b = (u, false)) :
    (b.length ≠ 32 → u = self) ∧ u.t = self.t := by
  unfold ptUnmarshal Ext.setBytes at h
  by_cases hl : b.length = 32
  · refine ⟨fun h0 => absurd hl h0, ?_⟩
    rw [if_neg (by rw [hl]; decide)] at h
    simp only at h
    split at h
    · split at h
      · simp only [Prod.mk.injEq] at h
        rw [← h.1]
      · simp at h
    · simp at h
  · rw [if_pos hl] at h
    simp only [Prod.mk.injEq] at h
    rw [← h.1]
    exact ⟨fun _ => rfl, rfl⟩

/-- Strings that are too short, on any receiver. -/
example (self : Ext) : ∃ u, ptUnmarshal self [1, 2] = (u, false) ∧ u = self :=
  ⟨self, C58_length self [1, 2] (by decide), ((C72_failed_partial self [1, 2] self (C58_length self [1, 2] (by decide))).1 (by decide))⟩

/-! ## C59: embedding of data -/

/-- `data` on a point returned by `embed` gives back the data, cut off after 29 bytes. -/
theorem C59_embed {σ : Type} (S : Rand.Stream σ) (d : Bytes) (fuel : Nat) (self : Ext) (st : σ) (s : Ext)
    (h : embed S (some d) fuel self st = some (.ok s)) : ptData s = some (d.take 29) := by
  obtain ⟨self', b, hr⟩ := embed_round fuel self st h
  obtain ⟨p, hp, _, hlen, hy⟩ := embedRound_some hr
  have hm : min 29 d.length < 237 := by omega
  have hb0 : ((embedBytes (some d) b).getD 0 0).toNat = min 29 d.length := by
    show (UInt8.ofNat (min embedLen d.length)).toNat = _
    rw [UInt8.toNat_ofNat', show embedLen = 29 from rfl]
    omega
  have hlow := low_bytes hlen (by rw [hb0]; exact hm) hy
  unfold ptData
  simp only
  rw [bytes_eq hp]
  have g0 : (ptEnc p).getD 0 0 = (embedBytes (some d) b).getD 0 0 := by
    have := congrArg (fun l : Bytes => l.getD 0 0) hlow
    simp only [List.getD_eq_getElem?_getD] at this ⊢
    rwa [List.getElem?_take_of_lt (by decide), List.getElem?_take_of_lt (by decide)] at this
  rw [g0, hb0, if_neg (by unfold embedLen; omega)]
  congr 1
  have cut : ∀ l : Bytes, (l.drop 1).take (min 29 d.length) = ((l.take 31).drop 1).take (min 29 d.length) := by
    intro l
    rw [List.drop_take, List.take_take]
    congr 1
    omega
  rw [cut, hlow, ← cut]
  show (List.take (min embedLen d.length) d ++ b.drop _).take (min 29 d.length) = _
  rw [show embedLen = 29 from rfl, List.take_append_of_le_length (by rw [List.length_take]; omega), List.take_take,
    min_self]
  by_cases hd : 29 ≤ d.length
  · rw [min_eq_left hd]
  · rw [min_eq_right (by omega), List.take_of_length_le (le_refl _), List.take_of_length_le (by omega)]

/-- The point returned lies in the subgroup generated by the base point. -/
theorem C59_embed_subgroup {σ : Type} (S : Rand.Stream σ) (d : Bytes) (fuel : Nat) (self : Ext) (st : σ) (s : Ext)
    (h : embed S (some d) fuel self st = some (.ok s)) : ∃ hv : s.Valid, L • hv.pt = 0 := by
  obtain ⟨self', b, hr⟩ := embed_round fuel self st h
  obtain ⟨p, hp, hs, _⟩ := embedRound_some hr
  exact ⟨hp.valid, by rw [hp.pt_eq]; exact (mem_Sub_iff p).1 hs⟩

/-- `pick` returns a point of the subgroup that is not the neutral element. -/
theorem C59_pick {σ : Type} (S : Rand.Stream σ) (fuel : Nat) (self : Ext) (st : σ) (s : Ext)
    (h : ptPick S fuel self st = some (.ok s)) :
    ∃ hv : s.Valid, L • hv.pt = 0 ∧ ptEq s extZero = false ∧ addOrderOf hv.pt = L := by
  obtain ⟨self', b, hr⟩ := embed_round fuel self st h
  obtain ⟨p, hp, hs, hne⟩ := embedRound_none hr
  refine ⟨hp.valid, by rw [hp.pt_eq]; exact (mem_Sub_iff p).1 hs, ?_, ?_⟩
  · rw [← Bool.not_eq_true, ptEq_iff hp extZero_rep]
    exact hne
  · rw [hp.pt_eq]
    exact addOrderOf_eq_prime ((mem_Sub_iff p).1 hs) hne

theorem embed_step {σ : Type} {S : Rand.Stream σ} {data : Option Bytes} {fuel : Nat} {self s : Ext} {st st' : σ} {b : Bytes}
    (hx : S.xor st (List.replicate 32 0) (List.replicate 32 0) = (st', .ok b)) (hr : embedRound data self b = (s, true)) :
    embed S data (fuel + 1) self st = some (.ok s) := by
  rw [embed, hx]
  simp only
  rw [hr]

theorem embedRound_ok {data : Bytes} {self u : Ext} {b c : Bytes} (hb : embedBytes (some data) b = c)
    (hu : ptUnmarshal self c = (u, true)) (hv : u.Valid) (hL : L • hv.pt = 0) :
    embedRound (some data) self b = (u, true) := by
  unfold ptUnmarshal at hu
  have hq : ptEq (ptMul primeOrderScalar (some u)) extZero = true := (ptEq_iff (mulL_rep hv.rep) extZero_rep).2 hL
  unfold embedRound
  rw [hb, hu]
  simp only
  rw [hq]

/-- The hypotheses of the theorems about `embed` are met: a stream of zeros makes it return for the
data `[0]` (the encoding drawn is that of the neutral element). -/
def zeroStream : Rand.Stream Unit := ⟨fun st _ _ => (st, .ok (List.replicate 32 0))⟩

theorem embed_example (self : Ext) : ∃ s, embed zeroStream (some [0]) 1 self () = some (.ok s) := by
  have hb : embedBytes (some [0]) (List.replicate 32 0) = ptEnc 0 := by
    unfold ptEnc
    rw [zero_x, zero_y, ZMod.val_zero, ZMod.val_one]
    decide +kernel
  obtain ⟨u, hu, hv, ax, ay, _⟩ := C57_round_trip extZero null_valid self
  unfold ptMarshal at hu
  rw [bytes_eq extZero_rep] at hu
  have hp0 : hv.pt = 0 := by
    ext
    · exact ax.trans extZero_rep.ax_eq
    · exact ay.trans extZero_rep.ay_eq
  exact ⟨u, embed_step rfl (embedRound_ok hb hu hv (by rw [hp0, smul_zero]))⟩

example (self : Ext) : ∃ s, embed zeroStream (some [0]) 1 self () = some (.ok s) ∧ ptData s = some [0] ∧
    ∃ hv : s.Valid, L • hv.pt = 0 := by
  obtain ⟨s, hs⟩ := embed_example self
  exact ⟨s, hs, C59_embed zeroStream [0] 1 self () s hs, C59_embed_subgroup zeroStream [0] 1 self () s hs⟩

/-- Completeness: whenever the bytes drawn complete the length byte and the data to the encoding of
a point of the subgroup, that point is returned. The first bytes drawn, as many as are replaced, do
not matter. -/
theorem C59_embed_accept {σ : Type} (S : Rand.Stream σ) (d : Bytes) (fuel : Nat) (self : Ext) (st st' : σ) (b : Bytes)
    (hx : S.xor st (List.replicate 32 0) (List.replicate 32 0) = (st', .ok b)) (w : Ext) (hw : w.Valid)
    (hL : L • hw.pt = 0)
    (hm : ptMarshal w = UInt8.ofNat (min 29 d.length) :: (d.take 29 ++ b.drop (1 + min 29 d.length))) :
    ∃ s, embed S (some d) (fuel + 1) self st = some (.ok s) ∧ ptEq s w = true := by
  have hb : embedBytes (some d) b = ptMarshal w := by
    rw [hm]
    simp only [embedBytes, show embedLen = 29 from rfl]
    rw [show d.take (min 29 d.length) = d.take 29 by
      rw [← List.take_take, List.take_length]]
  obtain ⟨u, hu, hv, ax, ay, he⟩ := C57_round_trip w hw self
  have hp : hv.pt = hw.pt := by
    ext
    · exact ax
    · exact ay
  exact ⟨u, embed_step hx (embedRound_ok hb hu hv (by rw [hp, hL])), he⟩

theorem embedRound_pick {self u s : Ext} {b : Bytes} (hu : self.setBytes b = (u, true))
    (hs : ptMul cofactorScalar (some u) = s) (hq : ptEq s extZero = false) : embedRound none self b = (s, true) := by
  unfold embedRound
  simp only [show embedBytes none b = b from rfl, hu, hs, hq, Bool.not_false]

/-- What `pick` returns: eight times the point whose encoding it drew. It goes on drawing when the bytes are no
encoding or the point is of small order. -/
theorem C59_pick_accept {σ : Type} (S : Rand.Stream σ) (fuel : Nat) (self : Ext) (st st' : σ)
    (w : Ext) (hw : w.Valid) (h8 : 8 • hw.pt ≠ 0)
    (hx : S.xor st (List.replicate 32 0) (List.replicate 32 0) = (st', .ok (ptMarshal w))) :
    ∃ s, ptPick S (fuel + 1) self st = some (.ok s) ∧ s.Rep (8 • hw.pt) := by
  obtain ⟨u, hu, hv, ax, ay, he⟩ := C57_round_trip w hw self
  have hp : hv.pt = hw.pt := by
    ext
    · exact ax
    · exact ay
  have hr : (ptMul cofactorScalar (some u)).Rep (8 • hw.pt) := hp ▸ mul8_rep hv.rep
  unfold ptUnmarshal at hu
  generalize hs : ptMul cofactorScalar (some u) = s at hr
  refine ⟨s, embed_step hx (embedRound_pick hu hs ?_), hr⟩
  rw [← Bool.not_eq_true, ptEq_iff hr extZero_rep]
  exact h8

/-- Bytes that do not decode, or decode to a point of small order, are thrown away and new ones drawn. -/
theorem C59_pick_retry {σ : Type} (S : Rand.Stream σ) (fuel : Nat) (self : Ext) (st st' : σ) (b : Bytes)
    (hx : S.xor st (List.replicate 32 0) (List.replicate 32 0) = (st', .ok b))
    (hb : ∀ u p, ptUnmarshal self b = (u, true) → u.Rep p → 8 • p = 0) :
    ∃ self', ptPick S (fuel + 1) self st = ptPick S fuel self' st' := by
  have key : ∀ r, embedRound none self b = r → r.2 = false := by
    rintro ⟨s, ok⟩ hr
    cases ok with
    | false => rfl
    | true =>
      exfalso
      unfold embedRound at hr
      rw [show embedBytes none b = b from rfl] at hr
      cases hs : self.setBytes b with
      | mk u ok =>
        rw [hs] at hr
        cases ok with
        | false => cases congrArg Prod.snd hr
        | true =>
          have hlen := setBytes_len (self := self) (s := b) (by rw [hs])
          obtain ⟨p, hp, -, -⟩ := (setBytes_spec self hlen).2 (by rw [hs])
          rw [hs] at hp
          have h0 := hb u p hs hp
          have hq := congrArg Prod.snd hr
          simp only at hq
          rw [(ptEq_iff (mul8_rep hp) extZero_rep).2 h0] at hq
          cases hq
  cases hr : embedRound none self b with
  | mk s ok =>
    obtain rfl : ok = false := key _ hr
    refine ⟨s, ?_⟩
    unfold ptPick
    rw [embed, hx]
    simp only
    rw [hr]

/-! The seventeenth multiple of the base point begins with the byte 4, so it carries four bytes of data. -/

/-- its encoding -/
def enc17 : Bytes :=
  [4, 190, 151, 236, 155, 254, 108, 205, 1, 249, 52, 59, 114, 136, 177, 23] ++
  [183, 159, 145, 204, 69, 194, 74, 242, 249, 62, 0, 96, 202, 43, 109, 111]

theorem coords17 : ptMarshal (ptMul (leBytes 32 17) none) = enc17 ∧ (ptMul (leBytes 32 17) none).ax ≠ 0 := by
  obtain ⟨hv, -, q, hq, ex, ey⟩ := C56_mul_base (leBytes 32 17) rfl (by decide +kernel)
  have hn : leNat (leBytes 32 17) = 17 := by decide +kernel
  have hb : base_valid.pt = basePt := baseExt_rep.unique base_valid.rep ▸ rfl
  rw [hn, hb] at hq
  have hr : (nMul 6 17 bN).Rep q := by rw [hq]; exact nMul_rep bN_rep 6 17 (by decide)
  have hy : q.y = (50399614753915632959315208729749638020219221279769677088273404540033848294916 : Nat) := rep_y hr (by decide +kernel)
  have hx : q.x = (56887487962890212366448920369068155807228363509110160616941230120594402893674 : Nat) := by
    have h1 : (((nMul 6 17 bN).x : Nat) : Fp) = ((56887487962890212366448920369068155807228363509110160616941230120594402893674 * (nMul 6 17 bN).z : Nat) : Fp) := by
      rw [ZMod.natCast_eq_natCast_iff']; decide +kernel
    rw [hr.hx, Nat.cast_mul] at h1
    exact mul_right_cancel₀ hr.z h1
  have hqv : hv.pt = q := by
    ext
    · exact ex
    · exact ey
  constructor
  · unfold ptMarshal
    rw [bytes_eq hv.rep, hqv, ptEnc, hx, hy, ZMod.val_natCast, ZMod.val_natCast]
    decide +kernel
  · rw [ex, hx, Ne, ZMod.natCast_eq_zero_iff]
    decide +kernel

theorem marshal17 : ptMarshal (ptMul (leBytes 32 17) none) = enc17 := coords17.1

/-- `C71_unique_partial`: no other canonical string decodes to this point. -/
example (self self' : Ext) (b' : Bytes) (u' : Ext) (h' : ptUnmarshal self' b' = (u', true))
    (hc' : ptIsCanonical b' = true) (he : ptEq (ptUnmarshal self enc17).1 u' = true) : b' = enc17 := by
  obtain ⟨hv, -⟩ := C56_mul_base (leBytes 32 17) rfl (by decide +kernel)
  obtain ⟨u, hu, -, hx, -⟩ := C57_round_trip _ hv self
  rw [marshal17] at hu
  rw [hu] at he
  exact (C71_unique_partial self self' enc17 b' u u' hu h' (by decide +kernel) hc'
    (by rw [hx]; exact coords17.2) he).symm

/-- a stream that draws this encoding, but for the first five bytes -/
def stream17 : Rand.Stream Unit := ⟨fun st _ _ => (st, .ok (List.replicate 5 9 ++ enc17.drop 5))⟩
/-- a stream that draws this encoding -/
def pick17 : Rand.Stream Unit := ⟨fun st _ _ => (st, .ok enc17)⟩
/-- a stream that draws the encoding of the neutral element -/
def pick0 : Rand.Stream Unit := ⟨fun st _ _ => (st, .ok (1 :: List.replicate 31 0))⟩

theorem valid17 : ∃ hv : (ptMul (leBytes 32 17) none).Valid, hv.pt = 17 • basePt := by
  obtain ⟨hv, -, q, hq, ex, ey⟩ := C56_mul_base (leBytes 32 17) rfl (by decide +kernel)
  have hn : leNat (leBytes 32 17) = 17 := by decide +kernel
  have hb : base_valid.pt = basePt := baseExt_rep.unique base_valid.rep ▸ rfl
  rw [hn, hb] at hq
  refine ⟨hv, ?_⟩
  rw [← hq]
  ext
  · exact ex
  · exact ey

/-- `C59_embed_accept`, `C59_embed`: four bytes of data are embedded and read back. -/
example (self : Ext) : ∃ s, embed stream17 (some [190, 151, 236, 155]) 1 self () = some (.ok s) ∧
    ptData s = some [190, 151, 236, 155] := by
  obtain ⟨hv, hp⟩ := valid17
  obtain ⟨s, hs, -⟩ := C59_embed_accept stream17 [190, 151, 236, 155] 0 self () () _ rfl
    (ptMul (leBytes 32 17) none) hv (by rw [hp, smul_comm, L_smul_base, smul_zero]) (by rw [marshal17]; decide +kernel)
  exact ⟨s, hs, C59_embed _ _ _ _ _ _ hs⟩

/-- `C59_pick_accept`, `C59_pick`. -/
example (self : Ext) : ∃ s, ptPick pick17 1 self () = some (.ok s) ∧ ∃ hv : s.Valid, addOrderOf hv.pt = L := by
  obtain ⟨hv, hp⟩ := valid17
  obtain ⟨s, hs, -⟩ := C59_pick_accept pick17 0 self () () (ptMul (leBytes 32 17) none) hv
    (by
      rw [hp, ← mul_nsmul, Ne, show 17 * 8 = 136 from rfl, (nMul_rep bN_rep 8 136 (by decide)).eq_zero_iff]
      decide +kernel)
    (by rw [marshal17]; rfl)
  obtain ⟨hv', -, -, h⟩ := C59_pick pick17 1 self () s hs
  exact ⟨s, hs, hv', h⟩

/-- `C59_pick_retry`: the neutral element is drawn again and again, and never returned. -/
example (self : Ext) (fuel : Nat) : ∃ self', ptPick pick0 (fuel + 1) self () = ptPick pick0 fuel self' () := by
  refine C59_pick_retry pick0 fuel self () () _ rfl ?_
  intro u p hu hp
  obtain ⟨-, hv, hy, -⟩ := C58_decode self _ u hu
  have h1 : p.y = 1 := by
    rw [← hp.ay_eq, hy, show leNat (1 :: List.replicate 31 0) % 2 ^ 255 = 1 by decide +kernel, Nat.cast_one]
  have hp0 : p = 0 := by
    rcases x_eq_or (p := p) (q := 0) (by rw [h1]; rfl) with e | e
    · exact e
    · rw [e, neg_zero]
  rw [hp0, smul_zero]

/-- A stream that always returns the encoding of the base point makes `pick` return eight times the base
point. -/
theorem pick_example (self : Ext) :
    ∃ s, ptPick ⟨fun st _ _ => (st, .ok (ptMarshal baseExt))⟩ 1 self () = some (.ok s) ∧ s.Rep (8 • basePt) := by
  have hv := baseExt_rep.valid
  have hb : hv.pt = basePt := baseExt_rep.pt_eq
  rw [← hb]
  refine C59_pick_accept _ 0 self () () baseExt hv ?_ rfl
  rw [hb]
  intro h
  have h2 := addOrderOf_dvd_of_nsmul_eq_zero h
  rw [addOrderOf_base] at h2
  exact absurd (Nat.le_of_dvd (by decide) h2) (by decide +kernel)

/-- `data` never returns more than 29 bytes, and refuses a point whose length byte is larger. -/
theorem C59_data (s : Ext) (hs : s.Valid) :
    (∀ d, ptData s = some d → d.length = leNat (ptMarshal s) % 256 ∧ d.length ≤ 29) ∧
    (ptData s = none ↔ 29 < leNat (ptMarshal s) % 256) := by
  have hlen := (C57_marshal s hs).1
  have h0 : (s.bytes.getD 0 0).toNat = leNat (ptMarshal s) % 256 := by
    unfold ptMarshal at hlen ⊢
    cases hb : s.bytes with
    | nil => rw [hb] at hlen; simp at hlen
    | cons v l =>
      have := v.toNat_lt
      rw [leNat, List.getD_cons_zero]
      omega
  unfold ptData
  simp only
  rw [h0, show embedLen = 29 from rfl]
  constructor
  · intro d hd
    split at hd
    · simp at hd
    · simp only [Option.some.injEq] at hd
      rw [← hd, List.length_take, List.length_drop]
      unfold ptMarshal at hlen
      rw [hlen]
      unfold ptMarshal at *
      omega
  · split
    · simpa using by assumption
    · simp only [reduceCtorEq, false_iff]
      assumption

example := C59_data baseExt base_valid

/-! ## C60: clamping -/

theorem clamp_low (v : UInt8) : (v &&& 0xf8).toNat % 8 = 0 := by
  have h : ∀ n < 256, (UInt8.ofNat n &&& 0xf8).toNat % 8 = 0 := by decide +kernel
  have := h v.toNat v.toNat_lt
  rwa [UInt8.ofNat_toNat] at this

theorem clamp_top (v : UInt8) : 64 ≤ ((v &&& 0x7f) ||| 0x40).toNat ∧ ((v &&& 0x7f) ||| 0x40).toNat < 128 := by
  have h : ∀ n < 256, 64 ≤ ((UInt8.ofNat n &&& 0x7f) ||| 0x40).toNat ∧ ((UInt8.ofNat n &&& 0x7f) ||| 0x40).toNat < 128 := by
    decide +kernel
  have := h v.toNat v.toNat_lt
  rwa [UInt8.ofNat_toNat] at this

/-- The key made from a 64-byte digest is a multiple of 8 between `2^254` and `2^255`; it keeps the
bytes of the digest except for these five bits; the rest of the digest is the second part. -/
theorem C60_clamp (digest : Bytes) (hd : digest.length = 64) :
    (clampKey digest).1.length = 32 ∧ leNat (clampKey digest).1 % 8 = 0 ∧
      2 ^ 254 ≤ leNat (clampKey digest).1 ∧ leNat (clampKey digest).1 < 2 ^ 255 ∧
      (clampKey digest).2 = digest.drop 32 ∧
      (∀ i, 0 < i → i < 31 → (clampKey digest).1.getD i 0 = digest.getD i 0) := by
  obtain ⟨v, m, w, t, rfl, hm⟩ : ∃ v m w t, digest = v :: (m ++ w :: t) ∧ m.length = 30 := by
    obtain ⟨v, rest, rfl⟩ : ∃ v rest, digest = v :: rest := by
      cases digest with
      | nil => simp at hd
      | cons v r => exact ⟨v, r, rfl⟩
    have hr : rest.length = 63 := by simpa using hd
    refine ⟨v, rest.take 30, rest[30], rest.drop 31, ?_, by rw [List.length_take]; omega⟩
    congr 1
    conv_lhs => rw [← List.take_append_drop 30 rest]
    congr 1
    rw [List.drop_eq_getElem_cons (by omega)]
  have g31 : ∀ (a c : UInt8), (a :: (m ++ c :: t)).getD 31 0 = c := by
    intro a c
    rw [List.getD_cons_succ, List.getD_eq_getElem?_getD, List.getElem?_append_right (by omega), hm]
    rfl
  have s31 : ∀ (a c e : UInt8), (a :: (m ++ c :: t)).set 31 e = a :: (m ++ e :: t) := by
    intro a c e
    rw [List.set_cons_succ, List.set_append_right _ _ (by omega), hm]
    rfl
  have e : clampKey (v :: (m ++ w :: t)) = ((v &&& 0xf8) :: (m ++ [(w &&& 0x7f) ||| 0x40]), t) := by
    unfold clampKey
    simp only [List.getD_cons_zero, List.set_cons_zero, s31, g31]
    congr 1
    · rw [List.take_succ_cons, List.take_append, hm, List.take_of_length_le (by omega)]
      rfl
    · rw [List.drop_succ_cons, List.drop_append, hm, List.drop_of_length_le (by omega)]
      rfl
  rw [e]
  have hnat : leNat ((v &&& 0xf8) :: (m ++ [(w &&& 0x7f) ||| 0x40])) =
      (v &&& 0xf8).toNat + 256 * (leNat m + 256 ^ 30 * ((w &&& 0x7f) ||| 0x40).toNat) := by
    rw [leNat, leNat_append, hm, leNat, leNat]; ring
  have c1 := clamp_low v
  have c2 := clamp_top w
  have c3 := leNat_lt m
  rw [hm] at c3
  have c4 := (v &&& 0xf8).toNat_lt
  simp only
  rw [hnat]
  refine ⟨by simp [hm], by omega, by omega, by omega, ?_, ?_⟩
  · rw [List.drop_succ_cons, List.drop_append, hm, List.drop_of_length_le (by omega)]
    rfl
  · intro i h1 h2
    obtain ⟨j, rfl⟩ : ∃ j, i = j + 1 := ⟨i - 1, by omega⟩
    rw [List.getD_cons_succ, List.getD_cons_succ, List.getD_eq_getElem?_getD, List.getD_eq_getElem?_getD,
      List.getElem?_append_left (by omega), List.getElem?_append_left (by omega)]

example : (clampKey (List.replicate 64 0xff)).1 = (0xf8 :: List.replicate 30 0xff) ++ [0x7f] := by decide +kernel

/-- Multiplication by a clamped key sends exactly the points of order dividing 8 to the neutral
element, and the key is not a multiple of the order `L`. -/
theorem C60_subgroups (digest : Bytes) (hd : digest.length = 64) (s : Ext) (hs : s.Valid) :
    (ptEq (ptMul (clampKey digest).1 (some s)) extZero = true ↔ 8 • hs.pt = 0) ∧
      leNat (clampKey digest).1 % L ≠ 0 := by
  obtain ⟨h1, h2, h3, h4, _⟩ := C60_clamp digest hd
  generalize (clampKey digest).1 = k at *
  have hL : leNat k % L ≠ 0 := by
    intro h0
    have hdvd : 8 * L ∣ leNat k :=
      Nat.Coprime.mul_dvd_of_dvd_of_dvd (by decide +kernel) (Nat.dvd_of_mod_eq_zero h2) (Nat.dvd_of_mod_eq_zero h0)
    have := Nat.le_of_dvd (by omega) hdvd
    have h8 : 2 ^ 255 ≤ 8 * L := by decide +kernel
    omega
  refine ⟨?_, hL⟩
  rw [show ptEq (ptMul k (some s)) extZero = true ↔ _ from ptEq_iff (scalarMult_rep hs.rep h1 h4) extZero_rep]
  constructor
  · intro h0
    -- the order divides the key and `8 L`, hence 8
    have d1 := addOrderOf_dvd_of_nsmul_eq_zero h0
    have d2 := addOrderOf_dvd_of_nsmul_eq_zero (order_smul hs.pt)
    have hc : Nat.Coprime L (leNat k) := (Nat.Prime.coprime_iff_not_dvd prime_L).2
      (fun h => hL (Nat.mod_eq_zero_of_dvd h))
    have hc' : Nat.Coprime (addOrderOf hs.pt) L := (hc.symm.coprime_dvd_left d1)
    exact addOrderOf_dvd_iff_nsmul_eq_zero.1 (hc'.dvd_of_dvd_mul_right d2)
  · intro h0
    obtain ⟨m, hm⟩ := Nat.dvd_of_mod_eq_zero h2
    rw [hm, mul_comm, mul_smul, h0, smul_zero]

example := C60_subgroups (List.replicate 64 0xff) rfl baseExt base_valid

/-! ## C70: scalars act on points -/

/-- Multiplication should turn sums and products of scalars into sums and iterated
multiplications, for every point. -/
def C70_statement : Prop :=
  ∀ (a b : Bytes), a.length = 32 → b.length = 32 → leNat a < L → leNat b < L → ∀ (s : Ext), s.Valid →
    ptEq (ptMul (scAdd a b) (some s)) (ptAdd (ptMul a (some s)) (ptMul b (some s))) = true

theorem scAdd_nat (a b : Bytes) (ha : a.length = 32) (hb : b.length = 32) :
    leNat (scAdd a b) = (leNat a + leNat b) % L := by
  rw [scAdd_val a b ha hb]
  have := leNat_scEnc (scVal a + scVal b)
  unfold scEnc at this
  rw [this]
  unfold scVal
  rw [← Nat.cast_add, ZMod.val_natCast]

theorem scMul_nat (a b : Bytes) (ha : a.length = 32) (hb : b.length = 32) :
    leNat (scMul a b) = (leNat a * leNat b) % L := by
  rw [scMul_val a b ha hb]
  have := leNat_scEnc (scVal a * scVal b)
  unfold scEnc at this
  rw [this]
  unfold scVal
  rw [← Nat.cast_mul, ZMod.val_natCast]

theorem L_lt' : L < 2 ^ 255 := by decide +kernel

/-- The point `y = -1`, of order 2, as the code decodes it. -/
theorem exists_order_two : ∃ (s : Ext) (hs : s.Valid), hs.pt ≠ 0 ∧ 2 • hs.pt = 0 := by
  have hr := nMul_rep tN_rep 4 4 (by decide)
  have h2 : 2 • (4 • tPt) = 0 := by
    rw [← mul_smul]
    have := addOrderOf_nsmul_eq_zero tPt
    rwa [addOrderOf_tPt] at this
  have hne : 4 • tPt ≠ 0 := by
    rw [Ne, hr.eq_zero_iff]
    decide +kernel
  have hy := (setBytes_spec extZero (length_ptEnc (4 • tPt))).1.2 ⟨4 • tPt, by
    rw [leNat_ptEnc, Nat.add_mul_mod_self_left, Nat.mod_eq_of_lt (val_lt_pow _), ZMod.natCast_zmod_val]⟩
  obtain ⟨q, hq, ey, _⟩ := (setBytes_spec extZero (length_ptEnc (4 • tPt))).2 hy
  rw [leNat_ptEnc, Nat.add_mul_mod_self_left, Nat.mod_eq_of_lt (val_lt_pow _), ZMod.natCast_zmod_val] at ey
  refine ⟨_, hq.valid, ?_, ?_⟩ <;> rw [hq.pt_eq]
  · rcases x_eq_or ey with e | e <;> rw [e]
    · exact hne
    · exact neg_ne_zero.2 hne
  · rcases x_eq_or ey with e | e <;> rw [e]
    · exact h2
    · rw [smul_neg, h2, neg_zero]

/-- On the point of order 2, `(1 + (L - 1)) P` is neutral while `P + (L - 1) P` is not: `L` is odd. -/
theorem C70_violated : ¬ C70_statement := by
  intro h
  obtain ⟨s, hs, hne, h2⟩ := exists_order_two
  have hn : leNat (leBytes 32 (L - 1)) = L - 1 := by decide +kernel
  have h1 : leNat scOne = 1 := by decide
  have e := h scOne (leBytes 32 (L - 1)) rfl (length_leBytes _ _) (by rw [h1]; decide +kernel)
    (by rw [hn]; decide +kernel) s hs
  have hadd := scAdd_nat scOne (leBytes 32 (L - 1)) rfl (length_leBytes _ _)
  have hlt : ∀ x, x % L < 2 ^ 255 := fun x => (Nat.mod_lt _ L_pos).trans L_lt'
  have r0 := scalarMult_rep hs.rep (a := scAdd scOne (leBytes 32 (L - 1))) rfl (by rw [hadd]; exact hlt _)
  have r1 := scalarMult_rep hs.rep (a := scOne) rfl (by rw [h1]; norm_num)
  have r2 := scalarMult_rep hs.rep (a := leBytes 32 (L - 1)) (length_leBytes _ _) (by rw [hn]; decide +kernel)
  replace e := (ptEq_iff r0 (ptAdd_rep r1 r2)).1 e
  rw [← add_smul, hadd, h1, hn] at e
  rw [show 1 + (L - 1) = L by decide +kernel, Nat.mod_self, zero_smul] at e
  have hodd : L = 2 * (L / 2) + 1 := by decide +kernel
  rw [hodd, add_smul, one_smul, mul_comm, mul_smul, h2, smul_zero, zero_add] at e
  exact hne e.symm

/-- On the subgroup generated by the base point the scalars act as a field on a vector space. -/
theorem C70_action_partial (a b : Bytes) (ha : a.length = 32) (hb : b.length = 32) (hla : leNat a < 2 ^ 255)
    (hlb : leNat b < 2 ^ 255) (s u : Ext) (hs : s.Valid) (hu : u.Valid) (hL : L • hs.pt = 0) :
    ptEq (ptMul (scAdd a b) (some s)) (ptAdd (ptMul a (some s)) (ptMul b (some s))) = true ∧
    ptEq (ptMul (scMul a b) (some s)) (ptMul a (some (ptMul b (some s)))) = true ∧
    ptEq (ptMul scOne (some u)) u = true ∧ ptEq (ptMul scZero (some u)) extZero = true ∧
    ptEq (ptMul a (some (ptAdd s u))) (ptAdd (ptMul a (some s)) (ptMul a (some u))) = true := by
  have hlt : ∀ x, x % L < 2 ^ 255 := fun x => (Nat.mod_lt _ L_pos).trans L_lt'
  have hmod : ∀ n : Nat, (n % L) • hs.pt = n • hs.pt := by
    intro n
    conv_rhs => rw [← Nat.mod_add_div n L]
    rw [add_smul, mul_comm, mul_smul, hL, smul_zero, add_zero]
  have ra := scalarMult_rep hs.rep ha hla
  have rb := scalarMult_rep hs.rep hb hlb
  have rua := scalarMult_rep hu.rep ha hla
  have hadd := scAdd_nat a b ha hb
  have hmul := scMul_nat a b ha hb
  have r0 := scalarMult_rep hs.rep (a := scAdd a b) rfl (by rw [hadd]; exact hlt _)
  have r1 := scalarMult_rep hs.rep (a := scMul a b) rfl (by rw [hmul]; exact hlt _)
  have one : leNat scOne = 1 := by decide
  have zero : leNat scZero = 0 := by decide
  have ro := scalarMult_rep hu.rep (a := scOne) rfl (by rw [one]; norm_num)
  have rz := scalarMult_rep hu.rep (a := scZero) rfl (by rw [zero]; norm_num)
  refine ⟨(ptEq_iff r0 (ptAdd_rep ra rb)).2 ?_, (ptEq_iff r1 (scalarMult_rep rb ha hla)).2 ?_,
    (ptEq_iff ro hu.rep).2 ?_, (ptEq_iff rz extZero_rep).2 ?_,
    (ptEq_iff (scalarMult_rep (ptAdd_rep hs.rep hu.rep) ha hla) (ptAdd_rep ra rua)).2 ?_⟩
  · rw [hadd, hmod, add_smul]
  · rw [hmul, hmod, mul_smul]
  · rw [one, one_smul]
  · rw [zero, zero_smul]
  · rw [smul_add]

example : ∃ hs : baseExt.Valid, L • hs.pt = 0 := ⟨base_valid, by
  rw [show base_valid.pt = basePt from baseExt_rep.pt_eq]; exact L_smul_base⟩

/-! ## C73: the order of the group -/

/-- The curve has exactly `8 L` points, with `L` the documented prime order and 8 the documented
cofactor; the base point generates the subgroup of order `L`, which consists of all points
whose order divides `L`. -/
theorem C73_order :
    Nat.card EdPt = fullOrder ∧ addOrderOf base_valid.pt = L ∧ Nat.Prime L ∧
      (∀ p : EdPt, (8 * L) • p = 0) ∧ (∀ p : EdPt, L • p = 0 ↔ ∃ k < L, p = k • base_valid.pt) := by
  rw [show base_valid.pt = basePt from baseExt_rep.pt_eq]
  refine ⟨by rw [card_EdPt, fullOrder, mul_comm], addOrderOf_base, prime_L, order_smul, ?_⟩
  intro p
  constructor
  · intro h
    obtain ⟨k, hk⟩ := AddSubgroup.mem_zmultiples_iff.1 ((mem_Sub_iff p).2 h)
    have hpos : (0 : Int) < L := by exact_mod_cast L_pos
    refine ⟨(k % L).toNat, ?_, ?_⟩
    · have h1 := Int.emod_lt_of_pos k hpos
      have h2 := Int.emod_nonneg k hpos.ne'
      omega
    · rw [← hk, ← natCast_zsmul, Int.toNat_of_nonneg (Int.emod_nonneg k hpos.ne')]
      conv_lhs => rw [← Int.emod_add_mul_ediv k L]
      have hz : (L : Int) • basePt = 0 := by rw [natCast_zsmul]; exact L_smul_base
      rw [add_smul, mul_comm (L : Int) (k / L), mul_smul, hz, smul_zero, add_zero]
  · rintro ⟨k, _, rfl⟩
    rw [smul_comm, L_smul_base, smul_zero]

/-- Two scalars below `L` give equal multiples of the base point only if they are equal. -/
theorem C73_base_injective (a b : Bytes) (ha : a.length = 32) (hb : b.length = 32) (hla : leNat a < L) (hlb : leNat b < L) :
    ptEq (ptMul a none) (ptMul b none) = true ↔ a = b := by
  have ra := scalarMultBase_rep ha (hla.trans L_lt')
  have rb := scalarMultBase_rep hb (hlb.trans L_lt')
  rw [show ptEq (ptMul a none) (ptMul b none) = true ↔ _ from ptEq_iff ra rb]
  constructor
  · intro h
    apply leNat_inj (by rw [ha, hb])
    have := (nsmul_inj_mod (x := basePt)).1 h
    rwa [addOrderOf_base, Nat.mod_eq_of_lt hla, Nat.mod_eq_of_lt hlb] at this
  · rintro rfl
    rfl

example : ptEq (ptMul (leBytes 32 5) none) (ptMul (leBytes 32 (L - 5)) none) = true ↔ leBytes 32 5 = leBytes 32 (L - 5) :=
  C73_base_injective _ _ rfl rfl (by decide +kernel) (by decide +kernel)

/-- Every element that the interface can produce from the constants, from decoding, and by the
group operations and multiplication by arbitrary 32-byte scalars, is well-formed. -/
inductive PtReach : Ext → Prop
  | null : PtReach extZero
  | base : PtReach baseExt
  | unmarshal (self : Ext) (b : Bytes) (u : Ext) : ptUnmarshal self b = (u, true) → PtReach u
  | add (s u : Ext) : PtReach s → PtReach u → PtReach (ptAdd s u)
  | sub (s u : Ext) : PtReach s → PtReach u → PtReach (ptSub s u)
  | neg (s : Ext) : PtReach s → PtReach (ptNeg s)
  | mul (a : Bytes) (s : Ext) : a.length = 32 → PtReach s → PtReach (ptMul a (some s))
  | mulBase (a : Bytes) : a.length = 32 → PtReach (ptMul a none)
  | embed {σ : Type} (S : Rand.Stream σ) (d : Option Bytes) (fuel : Nat) (self : Ext) (st : σ) (s : Ext) :
      embed S d fuel self st = some (.ok s) → PtReach s

theorem C55_reachable (s : Ext) (h : PtReach s) : s.Valid := by
  induction h with
  | null => exact null_valid
  | base => exact base_valid
  | unmarshal self b u hu => exact (C58_decode self b u hu).2.1
  | add s u _ _ h1 h2 => exact (C55_add s u h1 h2).1
  | sub s u _ _ h1 h2 => exact (C55_sub s u h1 h2).1
  | neg s _ h1 => exact (C55_neg s h1).1
  | mul a s ha _ h1 => exact (scalarMult_gen h1.rep ha).valid
  | mulBase a ha => exact (scalarMultBase_gen ha).valid
  | embed S d fuel self st s he =>
    cases d with
    | none => exact (C59_pick S fuel self st s he).1
    | some d => exact (C59_embed_subgroup S d fuel self st s he).1

example : (ptSub (ptMul (leBytes 32 7) (some baseExt)) (ptNeg (ptMul (leBytes 32 9) none))).Valid :=
  C55_reachable _ (.sub _ _ (.mul _ _ rfl .base) (.neg _ (.mulBase _ rfl)))

/-- `Point::default()` is not among them: all its coordinates are zero, in particular `Z`. -/
theorem C55_default_invalid : ¬ extDefault.Valid ∧ ¬ PtReach extDefault := by
  have h : ¬ extDefault.Valid := fun h => h.z (by simp only [extDefault]; exact feZero_spec.2)
  exact ⟨h, fun hr => h (C55_reachable _ hr)⟩

end Kyber.Ed
