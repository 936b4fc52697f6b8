/-
The scalar operations compute in the integers modulo the order of the base point.
-/
import Verif.Lemmas.Ed.Scalar

namespace Kyber.Ed

open Kyber Kyber.ModInt

/-- The residue that a scalar stands for. -/
def scVal (b : Bytes) : Fl := (leNat b : Fl)

/-- Upper bounds of the limbs of an operand. -/
def scA : List Int :=
  [2097151, 2097151, 2097151, 2097151, 2097151, 2097151, 2097151, 2097151, 2097151, 2097151, 2097151,
   33554431]

def InA (f : List Int) : Prop := ∀ i, 0 ≤ limb f i ∧ limb f i ≤ limb scA i

theorem InA_nil : InA [] := by
  intro i
  have h : limb ([] : List Int) i = 0 := by simp [limb]
  rw [h]
  refine ⟨le_refl _, ?_⟩
  by_cases hi : i < 12
  · interval_cases i <;> decide
  · rw [limb_of_le (by simp [scA]; omega)]

theorem scLimbs_inA (b : Bytes) (hb : b.length = 32) : InA (scLimbs b) := by
  obtain ⟨n0, n1, n2, n3, n4, n5, n6, n7, n8, n9, n10, n11, e, h0, h1, h2, h3, h4, h5, h6, h7, h8, h9, h10, h11, -⟩ :=
    scLimbs_eq b hb
  rw [e]
  intro i
  by_cases hi : i < 12
  · interval_cases i <;> simp only [limb, scA, List.getD_cons_zero, List.getD_cons_succ] <;> omega
  · rw [limb_of_le (by simp; omega), limb_of_le (by simp [scA]; omega)]
    exact ⟨le_refl _, le_refl _⟩

theorem limb_range24 (g : Nat → Int) (i : Nat) (hi : i < 24) : limb ((List.range 24).map g) i = g i := by
  unfold limb
  rw [List.getD_eq_getElem?_getD, List.getElem?_map, List.getElem?_range hi]
  rfl

/-- The sums of products stay in the intervals of the analysis. -/
theorem sum_le {a b A : List Int} (ha : ∀ i, 0 ≤ limb a i ∧ limb a i ≤ limb A i)
    (hb : ∀ i, 0 ≤ limb b i ∧ limb b i ≤ limb A i) (k : Nat) (l : List Nat) :
    0 ≤ (l.map (fun i => limb a i * limb b (k - i))).sum ∧
    (l.map (fun i => limb a i * limb b (k - i))).sum ≤ (l.map (fun i => limb A i * limb A (k - i))).sum := by
  induction l with
  | nil => simp
  | cons x l ih =>
    simp only [List.map_cons, List.sum_cons]
    obtain ⟨h1, h2⟩ := ha x
    obtain ⟨h3, h4⟩ := hb (k - x)
    have h5 := mul_nonneg h1 h3
    have h6 := mul_le_mul h2 h4 h3 (h1.trans h2)
    constructor <;> linarith [ih.1, ih.2]

theorem convBound : ∀ k < 24, limb scA k + ((List.range (k + 1)).map (fun i => limb scA i * limb scA (k - i))).sum ≤
    (scB.getD k (0, 0)).2 ∧ (scB.getD k (0, 0)).1 ≤ 0 ∧ (scB.getD k (0, 0)).2 < 2 ^ 63 := by decide +kernel

/-- Sums within the intervals do not wrap. -/
theorem inB_of (g : Nat → Int) (h : ∀ k < 24, (scB.getD k (0, 0)).1 ≤ g k ∧ g k ≤ (scB.getD k (0, 0)).2) :
    (List.range 24).map (fun k => wrap 64 (g k)) = (List.range 24).map g ∧ InB ((List.range 24).map g) scB := by
  have hlo : ∀ k < 24, -2 ^ 63 < (scB.getD k (0, 0)).1 ∧ (scB.getD k (0, 0)).2 < 2 ^ 63 := by decide +kernel
  constructor
  · apply List.map_congr_left
    intro k hk
    have hk := List.mem_range.1 hk
    obtain ⟨h1, h2⟩ := h k hk
    obtain ⟨h3, h4⟩ := hlo k hk
    exact wrap64_of_abs (abs_lt.2 ⟨by linarith, by linarith⟩)
  · refine ⟨by simp [scB], fun i hi => ?_⟩
    have hi : i < 24 := hi
    rw [limb_range24 _ _ hi]
    exact h i hi

theorem scConv_eq {a b c : List Int} (ha : InA a) (hb : InA b) (hc : InA c) :
    scConv a b c = (List.range 24).map (fun k =>
      limb c k + ((List.range (k + 1)).map (fun i => limb a i * limb b (k - i))).sum) ∧
    InB (scConv a b c) scB := by
  have h := inB_of (fun k => limb c k + ((List.range (k + 1)).map (fun i => limb a i * limb b (k - i))).sum) (by
    intro k hk
    obtain ⟨h1, h2⟩ := sum_le ha hb k (List.range (k + 1))
    obtain ⟨h3, h4⟩ := hc k
    obtain ⟨h5, h6, -⟩ := convBound k hk
    constructor
    · exact h6.trans (add_nonneg h3 h1)
    · exact (add_le_add h4 h2).trans h5)
  unfold scConv
  rw [h.1]
  exact ⟨rfl, h.2⟩

theorem scW_pow (R : Type) [CommRing R] : scW R = (List.range 24).map (fun k => ((2 : R) ^ 21) ^ k) := by
  simp only [scW, List.range, List.range.loop, List.map, ← pow_mul, Nat.reduceMul, pow_zero]

/-- The value of the limbs of an operand. -/
theorem scLimbs_dot (b : Bytes) (hb : b.length = 32) : dot (scW Fl) (scLimbs b) = scVal b := by
  obtain ⟨n0, n1, n2, n3, n4, n5, n6, n7, n8, n9, n10, n11, e, -, -, -, -, -, -, -, -, -, -, -, -, hv⟩ :=
    scLimbs_eq b hb
  rw [e, scVal, ← hv]
  simp only [dot, scW]
  push_cast
  ring

theorem length_scLimbs (b : Bytes) : (scLimbs b).length = 12 := rfl

theorem list12 {f : List Int} (h : f.length = 12) : ∃ x0 x1 x2 x3 x4 x5 x6 x7 x8 x9 x10 x11 : Int,
    f = [x0, x1, x2, x3, x4, x5, x6, x7, x8, x9, x10, x11] := by
  match f, h with
  | [x0, x1, x2, x3, x4, x5, x6, x7, x8, x9, x10, x11], _ =>
    exact ⟨x0, x1, x2, x3, x4, x5, x6, x7, x8, x9, x10, x11, rfl⟩

set_option maxHeartbeats 4000000 in
theorem conv_dot {R : Type} [CommRing R] (x : R) {a b : List Int} (ha : a.length = 12) (hb : b.length = 12) :
    dot ((List.range 24).map (fun k => x ^ k)) ((List.range 24).map (fun k =>
      ((List.range (k + 1)).map (fun i => limb a i * limb b (k - i))).sum)) =
    dot ((List.range 24).map (fun k => x ^ k)) a * dot ((List.range 24).map (fun k => x ^ k)) b := by
  obtain ⟨a0, a1, a2, a3, a4, a5, a6, a7, a8, a9, a10, a11, rfl⟩ := list12 ha
  obtain ⟨b0, b1, b2, b3, b4, b5, b6, b7, b8, b9, b10, b11, rfl⟩ := list12 hb
  simp only [List.range, List.range.loop, List.map, dot, limb, List.getD_cons_zero, List.getD_cons_succ,
    List.getD_nil, List.sum_cons, List.sum_nil, Nat.reduceSub, mul_zero, zero_mul, add_zero]
  push_cast
  ring

theorem dot_add {R : Type} [CommRing R] (W : List R) (f g : Nat → Int) (l : List Nat) :
    dot W (l.map (fun k => f k + g k)) = dot W (l.map f) + dot W (l.map g) := by
  induction l generalizing W with
  | nil => cases W <;> simp [dot]
  | cons x l ih =>
    cases W with
    | nil => simp [dot]
    | cons w W => simp only [List.map_cons, dot, ih]; push_cast; ring

theorem dot_sub {R : Type} [CommRing R] (W : List R) (f g : Nat → Int) (l : List Nat) :
    dot W (l.map (fun k => f k - g k)) = dot W (l.map f) - dot W (l.map g) := by
  induction l generalizing W with
  | nil => cases W <;> simp [dot]
  | cons x l ih =>
    cases W with
    | nil => simp [dot]
    | cons w W => simp only [List.map_cons, dot, ih]; push_cast; ring

theorem dot_limb (W : List Fl) {c : List Int} (hc : c.length = 12) :
    dot W ((List.range 24).map (fun k => limb c k)) = dot W c := by
  obtain ⟨x0, x1, x2, x3, x4, x5, x6, x7, x8, x9, x10, x11, rfl⟩ := list12 hc
  have : ∀ W : List Fl, dot W (List.replicate 12 0) = 0 := by
    have : ∀ n, ∀ W : List Fl, dot W (List.replicate n 0) = 0 := by
      intro n
      induction n with
      | zero => intro W; cases W <;> simp [dot]
      | succ n ih => intro W; cases W <;> simp [dot, List.replicate_succ, ih]
    exact this 12
  have e : (List.range 24).map (fun k => limb [x0, x1, x2, x3, x4, x5, x6, x7, x8, x9, x10, x11] k) =
      [x0, x1, x2, x3, x4, x5, x6, x7, x8, x9, x10, x11] ++ List.replicate 12 0 := rfl
  rw [e]
  have ap : ∀ (f g : List Int) (W : List Fl), (∀ W : List Fl, dot W g = 0) → dot W (f ++ g) = dot W f := by
    intro f
    induction f with
    | nil => intro g W hg; rw [List.nil_append, hg]; cases W <;> rfl
    | cons y f ih =>
      intro g W hg
      cases W with
      | nil => rfl
      | cons w W => simp only [List.cons_append, dot]; rw [ih g W hg]
  exact ap _ _ _ this

theorem scMulAdd_val (a b c : Bytes) (ha : a.length = 32) (hb : b.length = 32) (hc : c.length = 32) :
    scMulAdd a b c = leBytes 32 (scVal a * scVal b + scVal c).val := by
  obtain ⟨h1, h2⟩ := scConv_eq (scLimbs_inA a ha) (scLimbs_inA b hb) (scLimbs_inA c hc)
  unfold scMulAdd
  rw [scReduce_eq h2, h1, dot_add, dot_limb _ (length_scLimbs c), scLimbs_dot c hc, scW_pow,
    conv_dot _ (length_scLimbs a) (length_scLimbs b), ← scW_pow, scLimbs_dot a ha, scLimbs_dot b hb, add_comm]

theorem scMul_val (a b : Bytes) (ha : a.length = 32) (hb : b.length = 32) :
    scMul a b = leBytes 32 (scVal a * scVal b).val := by
  obtain ⟨h1, h2⟩ := scConv_eq (scLimbs_inA a ha) (scLimbs_inA b hb) InA_nil
  unfold scMul
  have e : (fun k => limb ([] : List Int) k + ((List.range (k + 1)).map (fun i => limb (scLimbs a) i *
      limb (scLimbs b) (k - i))).sum) =
      (fun k => ((List.range (k + 1)).map (fun i => limb (scLimbs a) i * limb (scLimbs b) (k - i))).sum) := by
    funext k
    rw [show limb ([] : List Int) k = 0 by simp [limb], zero_add]
  rw [scReduce_eq h2, h1, e, scW_pow, conv_dot _ (length_scLimbs a) (length_scLimbs b), ← scW_pow,
    scLimbs_dot a ha, scLimbs_dot b hb]

theorem scAdd_val (a c : Bytes) (ha : a.length = 32) (hc : c.length = 32) :
    scAdd a c = leBytes 32 (scVal a + scVal c).val := by
  have hA := scLimbs_inA a ha
  have hC := scLimbs_inA c hc
  have bound : ∀ k < 24, limb scA k + limb scA k ≤ (scB.getD k (0, 0)).2 ∧ (scB.getD k (0, 0)).1 ≤ 0 := by
    decide +kernel
  have h := inB_of (fun k => limb (scLimbs c) k + limb (scLimbs a) k) (by
    intro k hk
    have h1 := hA k
    have h2 := hC k
    have h3 := bound k hk
    constructor <;> linarith [h1.1, h1.2, h2.1, h2.2, h3.1, h3.2])
  unfold scAdd
  rw [h.1, scReduce_eq h.2, dot_add, dot_limb _ (length_scLimbs a), dot_limb _ (length_scLimbs c),
    scLimbs_dot a ha, scLimbs_dot c hc, add_comm]

theorem subConst_dot : dot (scW Fl) subConst = 0 := by
  have h : dot (scW Int) subConst = 16 * (L : Int) := by decide +kernel
  rw [scW_cast, ← dot_cast, h]
  push_cast
  rw [ZMod.natCast_self, mul_zero]

theorem scSub_val (a c : Bytes) (ha : a.length = 32) (hc : c.length = 32) :
    scSub a c = leBytes 32 (scVal a - scVal c).val := by
  have hA := scLimbs_inA a ha
  have hC := scLimbs_inA c hc
  have bound : ∀ k < 24, limb subConst k + limb scA k ≤ (scB.getD k (0, 0)).2 ∧
      (scB.getD k (0, 0)).1 ≤ limb subConst k - limb scA k := by
    decide +kernel
  have h := inB_of (fun k => limb subConst k - limb (scLimbs c) k + limb (scLimbs a) k) (by
    intro k hk
    have h1 := hA k
    have h2 := hC k
    have h3 := bound k hk
    constructor <;> linarith [h1.1, h1.2, h2.1, h2.2, h3.1, h3.2])
  unfold scSub
  have e : (List.range 24).map (fun k => limb subConst k) = subConst := rfl
  rw [h.1, scReduce_eq h.2, dot_add, dot_sub, dot_limb _ (length_scLimbs a), dot_limb _ (length_scLimbs c),
    scLimbs_dot a ha, scLimbs_dot c hc, e, subConst_dot]
  congr 2
  ring

/-! ## The `Scalar` type -/

/-- The canonical encoding of a residue. -/
def scEnc (x : Fl) : Bytes := leBytes 32 x.val

theorem L_lt : L < 2 ^ 253 := by decide +kernel

theorem length_scEnc (x : Fl) : (scEnc x).length = 32 := by simp [scEnc]

theorem leNat_scEnc (x : Fl) : leNat (scEnc x) = x.val := by
  unfold scEnc
  rw [leNat_leBytes]
  have := ZMod.val_lt x
  have h2 := L_lt
  exact Nat.mod_eq_of_lt (by norm_num at h2 ⊢; omega)

theorem scVal_scEnc (x : Fl) : scVal (scEnc x) = x := by
  unfold scVal
  rw [leNat_scEnc, ZMod.natCast_zmod_val]

theorem scEnc_scVal {b : Bytes} (hb : b.length = 32) (h : leNat b < L) : scEnc (scVal b) = b := by
  unfold scEnc scVal
  rw [ZMod.val_natCast_of_lt h, ← hb, leBytes_leNat]

theorem scZero_eq : scZero = scEnc 0 := by
  unfold scEnc
  rw [ZMod.val_zero]
  rfl

theorem scOne_eq : scOne = scEnc 1 := by
  unfold scEnc
  have : (1 : Fl).val = 1 := by
    have h := ZMod.val_natCast_of_lt (n := L) (a := 1) (by decide)
    rwa [Nat.cast_one] at h
  rw [this]
  rfl

theorem length_scMul (a b : Bytes) : (scMul a b).length = 32 := rfl
theorem length_scAdd (a b : Bytes) : (scAdd a b).length = 32 := rfl
theorem length_scSub (a b : Bytes) : (scSub a b).length = 32 := rfl

theorem scNeg_val (a : Bytes) (ha : a.length = 32) : scNeg a = scEnc (-scVal a) := by
  unfold scNeg
  rw [scSub_val _ _ rfl ha, scZero_eq, scVal_scEnc, zero_sub]
  rfl

theorem getBits_byte (b : UInt8) (i : Nat) (hi : i < 8) :
    ([1, 2, 4, 8, 16, 32, 64, 128].map (fun m : UInt8 => b &&& m != 0)).getD i false = b.toNat.testBit i := by
  have : ∀ n < 256, ∀ i < 8, ([1, 2, 4, 8, 16, 32, 64, 128].map
      (fun m : UInt8 => UInt8.ofNat n &&& m != 0)).getD i false = n.testBit i := by decide +kernel
  have h := this b.toNat b.toNat_lt i hi
  rwa [UInt8.ofNat_toNat] at h

theorem getBits_cons (b : UInt8) (bs : Bytes) :
    getBits (b :: bs) = [1, 2, 4, 8, 16, 32, 64, 128].map (fun m : UInt8 => b &&& m != 0) ++ getBits bs := rfl

theorem getBits_getD (b : Bytes) (i : Nat) : (getBits b).getD i false = (leNat b).testBit i := by
  induction b generalizing i with
  | nil => simp [getBits, leNat]
  | cons x b ih =>
    have hx := x.toNat_lt
    rw [getBits_cons]
    unfold leNat
    rw [show (256 : Nat) = 2 ^ 8 from rfl]
    by_cases hi : i < 8
    · rw [List.getD_eq_getElem?_getD, List.getElem?_append_left (by simpa using hi),
        ← List.getD_eq_getElem?_getD, getBits_byte x i hi,
        Nat.add_comm, Nat.testBit_two_pow_mul_add _ (by simpa using hx), if_pos hi]
    · rw [List.getD_eq_getElem?_getD, List.getElem?_append_right (by simp; omega),
        ← List.getD_eq_getElem?_getD, ih]
      rw [Nat.add_comm, Nat.testBit_two_pow_mul_add _ (by simpa using hx), if_neg hi]
      simp

theorem div_two_pow (e n : Nat) : e / 2 ^ n = 2 * (e / 2 ^ (n + 1)) + (e.testBit n).toNat := by
  rw [Nat.pow_succ, ← Nat.div_div_eq_div_mul]
  generalize hq : e / 2 ^ n = q
  have ht : e.testBit n = decide (q % 2 = 1) := by
    rw [Nat.testBit_eq_decide_div_mod_eq, hq]
  rw [ht]
  by_cases h : q % 2 = 1
  · simp [h]; omega
  · simp [h]; omega

theorem inv_loop (a : Bytes) (ha : a.length = 32) (e n : Nat) (res : Bytes)
    (hr : res = scEnc (scVal a ^ (e / 2 ^ n))) :
    (List.range n).reverse.foldl (fun res i => invStep a res (e.testBit i)) res = scEnc (scVal a ^ e) := by
  induction n generalizing res with
  | zero => simpa using hr
  | succ n ih =>
    rw [List.range_succ, List.reverse_append]
    simp only [List.reverse_cons, List.reverse_nil, List.nil_append, List.cons_append, List.foldl_cons]
    apply ih
    have hs : scMul res res = scEnc (scVal a ^ (2 * (e / 2 ^ (n + 1)))) := by
      rw [hr, scMul_val _ _ (length_scEnc _) (length_scEnc _), scVal_scEnc, ← pow_add, ← two_mul]
      rfl
    rw [div_two_pow e n]
    unfold invStep
    by_cases h : e.testBit n = true
    · simp only [h, if_true]
      rw [scMul_val _ _ (length_scMul _ _) ha, hs, scVal_scEnc]
      rfl
    · simp only [h, Bool.false_eq_true, if_false, hs]
      simp

theorem scInv_pow (a : Bytes) (ha : a.length = 32) : scInv a = scEnc (scVal a ^ (L - 2)) := by
  have e : lMinus2 = L - 2 := by decide +kernel
  have h0 : lMinus2 / 2 ^ 256 = 0 := by decide +kernel
  unfold scInv
  simp only [getBits_getD, leNat_toBytesLE]
  rw [inv_loop a ha lMinus2 256 scOne (by rw [h0, pow_zero, scOne_eq]), e]

theorem pow_L_sub_two (x : Fl) : x ^ (L - 2) = x⁻¹ := by
  by_cases h : x = 0
  · rw [h, inv_zero, zero_pow (by decide +kernel)]
  · apply eq_inv_of_mul_eq_one_left
    have hc := ZMod.pow_card_sub_one_eq_one h
    rw [← pow_succ]
    rwa [show L - 2 + 1 = L - 1 by decide +kernel]

theorem scInv_val (a : Bytes) (ha : a.length = 32) : scInv a = scEnc (scVal a)⁻¹ := by
  rw [scInv_pow a ha, pow_L_sub_two]

theorem scDiv_val (a b : Bytes) (ha : a.length = 32) (hb : b.length = 32) :
    scDiv a b = scEnc (scVal a / scVal b) := by
  unfold scDiv
  rw [scInv_val b hb, scMul_val _ _ ha (length_scEnc _), scVal_scEnc, div_eq_mul_inv]
  rfl

/-! ## Conversion from and to integers -/

theorem marshalSize_L (v : Int) (bo : ByteOrder) : (⟨v, L, bo⟩ : MInt).marshalSize = 32 := by
  show (bitLen (Int.natAbs (L : Int)) + 7) / 8 = 32
  decide +kernel

theorem byteLen_le32 {n m : Nat} (h : n < m) (hm : m ≤ fullOrder) : byteLen n ≤ 32 := by
  have := byteLen_le (lt_of_lt_of_le h hm)
  rwa [show (bitLen fullOrder + 7) / 8 = 32 by decide +kernel] at this

theorem littleEndian_eq (a : MInt) (hs : a.marshalSize = 32) (n : Nat) (hv : a.v = n) (hn : n < fullOrder) :
    a.littleEndian 32 32 = .ok (toBytesLE n) := by
  have hb := byteLen_le32 hn (le_refl _)
  unfold MInt.littleEndian
  simp only [hv, Int.natAbs_natCast, hs, length_toBytesBE]
  generalize hact : (if byteLen n < 32 then byteLen n else 32) = act
  have hact' : act = byteLen n := by
    rw [← hact]; split <;> omega
  subst hact'
  clear hact
  generalize hpad : (if byteLen n < 32 then 32 else byteLen n) = pad
  have hpad' : pad = 32 := by
    rw [← hpad]; split <;> omega
  subst hpad'
  rw [if_neg (by omega), reverse_eq _ _ (by simp)]
  have : (List.take (byteLen n) (List.replicate 32 (0 : UInt8))).length = byteLen n := by simp; omega
  rw [this, List.take_of_length_le (by simp), toBytesBE, List.reverse_reverse]

theorem toBytesLE_pad {n : Nat} (hn : n < fullOrder) (t : Bytes) :
    (toBytesLE n ++ t).take 32 = toBytesLE n ++ t.take (32 - byteLen n) ∧
    leBytes 32 n = toBytesLE n ++ List.replicate (32 - byteLen n) 0 := by
  have hb := byteLen_le32 hn (le_refl _)
  have hl : (toBytesLE n).length = byteLen n := by
    have := length_toBytesBE n
    rwa [toBytesBE, List.length_reverse] at this
  constructor
  · rw [List.take_append, hl, List.take_of_length_le (by omega)]
  · apply leNat_inj
    · simp [hl]; omega
    · rw [leNat_leBytes, leNat_append, leNat_replicate_zero, leNat_toBytesLE, Nat.mod_eq_of_lt]
      · ring
      · have : fullOrder < 256 ^ 32 := by decide +kernel
        omega

theorem newIntBytes_L (b : Bytes) : newIntBytes b L .littleEndian = .ok ⟨(leNat b % L : Nat), L, .littleEndian⟩ := by
  unfold newIntBytes MInt.setBytes
  simp only [if_true]
  rw [reverse_eq _ _ (by simp), Res.bind_ok]
  simp only [List.length_replicate, List.take_length]
  rw [rem_eq (by decide +kernel), Res.bind_ok, tmod_eq _ _ (by positivity)]
  rw [show beNat b.reverse = leNat b by rw [beNat, List.reverse_reverse]]
  rfl

theorem scMarshal_eq (v : Bytes) : scMarshal v = .ok (leBytes 32 (leNat v % L)) := by
  have hlt : leNat v % L < fullOrder := by
    have := Nat.mod_lt (leNat v) (show 0 < L by decide)
    have h2 : L < fullOrder := by decide +kernel
    omega
  unfold scMarshal scAsInt
  rw [newIntBytes_L, Res.bind_ok]
  unfold MInt.marshal
  simp only [if_true]
  rw [marshalSize_L, littleEndian_eq _ (marshalSize_L _ _) _ rfl hlt, Res.bind_ok]
  obtain ⟨h1, h2⟩ := toBytesLE_pad hlt (List.replicate 32 0)
  rw [h1, h2, List.take_replicate]
  congr 3
  omega

theorem scSetInt_eq (self : Bytes) (hs : self.length = 32) (i : MInt) (hm : i.marshalSize = 32) (n : Nat)
    (hv : i.v = n) (hn : n < fullOrder) :
    scSetInt self i = .ok (toBytesLE n ++ self.drop (byteLen n)) := by
  have hl : (toBytesLE n).length = byteLen n := by
    have := length_toBytesBE n
    rwa [toBytesBE, List.length_reverse] at this
  have hb := byteLen_le32 hn (le_refl _)
  unfold scSetInt
  rw [littleEndian_eq i hm n hv hn]
  simp only [hl, hs]
  rw [if_neg (by omega)]

/-- A receiver whose bytes above the written ones are zero. -/
theorem setInt_clean {self : Bytes} {n : Nat} (hn : n < fullOrder)
    (hz : self.drop (byteLen n) = List.replicate (32 - byteLen n) 0) :
    toBytesLE n ++ self.drop (byteLen n) = leBytes 32 n := by
  rw [hz, (toBytesLE_pad hn self).2]

/-! ## The canonicity test -/

theorem sub_shift (x y : UInt8) :
    ((x.toUInt16 - y.toUInt16) >>> 8).toUInt8 = if x.toNat < y.toNat then 255 else 0 := by
  have hx := x.toNat_lt
  have hy := y.toNat_lt
  apply UInt8.toNat_inj.1
  rw [UInt16.toNat_toUInt8, UInt16.toNat_shiftRight, UInt16.toNat_sub, UInt8.toNat_toUInt16, UInt8.toNat_toUInt16]
  rw [show (8 : UInt16).toNat % 16 = 8 from rfl, Nat.shiftRight_eq_div_pow]
  split
  · rw [show (255 : UInt8).toNat = 255 from rfl]; omega
  · rw [show (0 : UInt8).toNat = 0 from rfl]; omega

theorem xor_shift (x y : UInt8) :
    (((x.toUInt16 ^^^ y.toUInt16) - 1) >>> 8).toUInt8 = if x.toNat = y.toNat then 255 else 0 := by
  have hx := x.toNat_lt
  have hy := y.toNat_lt
  apply UInt8.toNat_inj.1
  rw [UInt16.toNat_toUInt8, UInt16.toNat_shiftRight, UInt16.toNat_sub, UInt16.toNat_xor, UInt8.toNat_toUInt16,
    UInt8.toNat_toUInt16]
  rw [show (8 : UInt16).toNat % 16 = 8 from rfl, Nat.shiftRight_eq_div_pow, show (1 : UInt16).toNat = 1 from rfl]
  have hz : x.toNat ^^^ y.toNat < 2 ^ 8 := Nat.xor_lt_two_pow hx hy
  split
  · rename_i h
    rw [h, Nat.xor_self, show (255 : UInt8).toNat = 255 from rfl]
  · rename_i h
    have hne : x.toNat ^^^ y.toNat ≠ 0 := fun h0 => by
      have := Nat.xor_assoc x.toNat y.toNat y.toNat
      rw [h0, Nat.zero_xor, Nat.xor_self, Nat.xor_zero] at this
      exact h this.symm
    rw [show (0 : UInt8).toNat = 0 from rfl]
    generalize x.toNat ^^^ y.toNat = z at *
    omega

theorem leNat_cons (x : UInt8) (xs : Bytes) : leNat (x :: xs) = x.toNat + 256 * leNat xs := rfl

theorem canon_loop (xs ys : Bytes) (hl : xs.length = ys.length) :
    (xs.zip ys).foldr (fun p st => canonStep st p) (0, 1) =
      ((if leNat xs < leNat ys then 1 else 0), (if leNat xs = leNat ys then 1 else 0)) := by
  induction xs generalizing ys with
  | nil =>
    cases ys with
    | nil => rfl
    | cons y ys => simp at hl
  | cons x xs ih =>
    cases ys with
    | nil => simp at hl
    | cons y ys =>
      have hx := x.toNat_lt
      have hy := y.toNat_lt
      rw [List.zip_cons_cons, List.foldr_cons, ih ys (by simpa using hl)]
      unfold canonStep
      rw [leNat_cons, leNat_cons]
      simp only [sub_shift, xor_shift]
      rcases Nat.lt_trichotomy (leNat xs) (leNat ys) with h | h | h
      · rw [if_pos h, if_neg (show ¬ leNat xs = leNat ys by omega), if_pos (show x.toNat + 256 * leNat xs < y.toNat + 256 * leNat ys by omega),
          if_neg (show ¬ x.toNat + 256 * leNat xs = y.toNat + 256 * leNat ys by omega)]
        split <;> split <;> decide
      · rw [if_neg (by omega), if_pos h]
        rcases Nat.lt_trichotomy x.toNat y.toNat with h' | h' | h'
        · rw [if_pos h', if_neg (by omega), if_pos (by omega), if_neg (by omega)]; decide
        · rw [if_neg (by omega), if_pos h', if_neg (by omega), if_pos (by omega)]; decide
        · rw [if_neg (by omega), if_neg (by omega), if_neg (by omega), if_neg (by omega)]; decide
      · rw [if_neg (show ¬ leNat xs < leNat ys by omega), if_neg (show ¬ leNat xs = leNat ys by omega),
          if_neg (show ¬ x.toNat + 256 * leNat xs < y.toNat + 256 * leNat ys by omega),
          if_neg (show ¬ x.toNat + 256 * leNat xs = y.toNat + 256 * leNat ys by omega)]
        split <;> split <;> decide

theorem scIsCanonical_iff (sb : Bytes) : scIsCanonical sb = true ↔ sb.length = 32 ∧ leNat sb < L := by
  unfold scIsCanonical
  by_cases hl : sb.length = 32
  · rw [if_neg (by simpa using hl)]
    split
    · rename_i hb
      have h15 : ∀ n < 256, UInt8.ofNat n &&& 0xf0 = 0 → n < 16 := by decide +kernel
      have h16 := h15 (sb.getD 31 0).toNat (UInt8.toNat_lt _) (by rwa [UInt8.ofNat_toNat])
      have hsplit : sb = sb.take 31 ++ [sb.getD 31 0] := by
        have h31 : sb.drop 31 = [sb.getD 31 0] := by
          rw [List.drop_eq_getElem_cons (by omega), List.drop_of_length_le (by omega),
            List.getD_eq_getElem?_getD, List.getElem?_eq_getElem (by omega)]
          rfl
        rw [← h31, List.take_append_drop]
      have ht : (sb.take 31).length = 31 := by simp [hl]
      have h1 := leNat_lt (sb.take 31)
      have : leNat sb < L := by
        rw [hsplit, leNat_append, ht]
        rw [ht] at h1
        simp only [leNat]
        rw [L_eq]
        norm_num only at h1 ⊢
        omega
      simp [hl, this]
    · rw [List.foldl_reverse, canon_loop _ _ (by rw [hl]; decide +kernel), leNat_toBytesLE]
      by_cases h : leNat sb < L <;> simp [h, hl]
  · rw [if_pos (by simpa using hl)]
    simp [hl]

end Kyber.Ed
