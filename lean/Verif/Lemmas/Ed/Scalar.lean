/-
The reduction modulo the order of the base point is exact and canonical.
-/
import Verif.Model.Ed.Scalar
import Verif.Lemmas.Ed.Limb
import Verif.Lemmas.Ed.Prime
import Verif.Lemmas.Ed.FeBytes
import Mathlib.Algebra.Field.ZMod
import Mathlib.FieldTheory.Finite.Basic

namespace Kyber.Ed

open Kyber Kyber.ModInt

theorem L_eq : L = 2 ^ 252 + 27742317777372353535851937790883648493 := by decide +kernel

theorem prime_L : L.Prime := by rw [L_eq]; exact prime_l

instance : Fact L.Prime := ⟨prime_L⟩

/-- The field of scalars. -/
abbrev Fl := ZMod L

/-- The weights of the 24 limbs. -/
def scW (R : Type) [CommRing R] : List R :=
  [1, 2 ^ 21, 2 ^ 42, 2 ^ 63, 2 ^ 84, 2 ^ 105, 2 ^ 126, 2 ^ 147, 2 ^ 168, 2 ^ 189, 2 ^ 210, 2 ^
   231, 2 ^ 252, 2 ^ 273, 2 ^ 294, 2 ^ 315, 2 ^ 336, 2 ^ 357, 2 ^ 378, 2 ^ 399, 2 ^ 420, 2 ^ 441,
   2 ^ 462, 2 ^ 483]

theorem runOps_append (w : Nat) (o1 o2 : List LOp) (h : List Int) :
    runOps w (o1 ++ o2) h = runOps w o2 (runOps w o1 h) := by
  unfold runOps; rw [List.foldl_append]

theorem runOps_cons (w : Nat) (o : LOp) (ops : List LOp) (h : List Int) :
    runOps w (o :: ops) h = runOps w ops (o.run w h) := rfl

theorem bndOps_cons {w : Nat} {o : LOp} {ops : List LOp} {B B' B'' : List (Int × Int)}
    (h1 : o.bnd w B = some B') (h2 : bndOps w ops B' = some B'') : bndOps w (o :: ops) B = some B'' := by
  unfold bndOps at *
  rw [List.foldlM_cons, h1]
  exact h2

/-! ## Loading -/

theorem mask21 (x : Nat) : 2097151 &&& x = x % 2 ^ 21 := by
  rw [Nat.and_comm, show 2097151 = 2 ^ 21 - 1 from rfl, Nat.and_two_pow_sub_one_eq_mod]

theorem digits21 (n : Nat) (h : n < 2 ^ 256) :
    n % 2 ^ 21 + 2 ^ 21 * (n / 2 ^ 21 % 2 ^ 21) + 2 ^ 42 * (n / 2 ^ 42 % 2 ^ 21) +
      2 ^ 63 * (n / 2 ^ 63 % 2 ^ 21) + 2 ^ 84 * (n / 2 ^ 84 % 2 ^ 21) + 2 ^ 105 * (n / 2 ^ 105 % 2 ^ 21) +
      2 ^ 126 * (n / 2 ^ 126 % 2 ^ 21) + 2 ^ 147 * (n / 2 ^ 147 % 2 ^ 21) +
      2 ^ 168 * (n / 2 ^ 168 % 2 ^ 21) + 2 ^ 189 * (n / 2 ^ 189 % 2 ^ 21) +
      2 ^ 210 * (n / 2 ^ 210 % 2 ^ 21) + 2 ^ 231 * (n / 2 ^ 231 % 2 ^ 25) = n := by
  have h1 := leNat_append' n 231 25
  have h2 := leNat_append' n 210 21
  have h3 := leNat_append' n 189 21
  have h4 := leNat_append' n 168 21
  have h5 := leNat_append' n 147 21
  have h6 := leNat_append' n 126 21
  have h7 := leNat_append' n 105 21
  have h8 := leNat_append' n 84 21
  have h9 := leNat_append' n 63 21
  have h10 := leNat_append' n 42 21
  have h11 := leNat_append' n 21 21
  rw [show 231 + 25 = 256 from rfl, Nat.mod_eq_of_lt h] at h1
  norm_num only at *
  linarith

theorem digit_of (n m s r : Nat) (h : s + r ≤ m) : n % 2 ^ m / 2 ^ s % 2 ^ r = n / 2 ^ s % 2 ^ r := by
  obtain ⟨t, rfl⟩ := Nat.exists_eq_add_of_le h
  rw [Nat.add_assoc, Nat.pow_add, Nat.mod_mul_right_div_self, Nat.pow_add, Nat.mod_mul_right_mod]

theorem scLimbs_eq (b : Bytes) (hb : b.length = 32) : ∃ n0 n1 n2 n3 n4 n5 n6 n7 n8 n9 n10 n11 : Nat, scLimbs b = [(n0 : Int), (n1 : Int), (n2 : Int), (n3 : Int), (n4 : Int), (n5 : Int), (n6 : Int), (n7 : Int), (n8 : Int), (n9 : Int), (n10 : Int), (n11 : Int)] ∧
    n0 < 2 ^ 21 ∧ n1 < 2 ^ 21 ∧ n2 < 2 ^ 21 ∧ n3 < 2 ^ 21 ∧ n4 < 2 ^ 21 ∧ n5 < 2 ^ 21 ∧ n6 < 2 ^ 21 ∧ n7 < 2 ^ 21 ∧ n8 < 2 ^ 21 ∧ n9 < 2 ^ 21 ∧ n10 < 2 ^ 21 ∧ n11 < 2 ^ 25 ∧
    n0 + 2 ^ 21 * n1 + 2 ^ 42 * n2 + 2 ^ 63 * n3 + 2 ^ 84 * n4 + 2 ^ 105 * n5 + 2 ^ 126 * n6 + 2 ^ 147 * n7 + 2 ^ 168 * n8 + 2 ^ 189 * n9 + 2 ^ 210 * n10 + 2 ^ 231 * n11 = leNat b := by
  have hlt : leNat b < 2 ^ 256 := by
    have := leNat_lt b
    rw [hb] at this
    norm_num at this ⊢
    exact this
  have e256 : ∀ k, (256 : Nat) ^ k = 2 ^ (8 * k) := fun k => by rw [pow_mul]; norm_num
  refine ⟨_, _, _, _, _, _, _, _, _, _, _, _, rfl, ?_⟩
  simp only [load3_eq, load4_eq, mask21, Nat.shiftRight_eq_div_pow, e256, Nat.reduceMul]
  simp only [digit_of _ _ _ _ (show 5 + 21 ≤ 32 by norm_num), digit_of _ _ _ _ (show 2 + 21 ≤ 24 by norm_num),
    digit_of _ _ _ _ (show 7 + 21 ≤ 32 by norm_num), digit_of _ _ _ _ (show 4 + 21 ≤ 32 by norm_num),
    digit_of _ _ _ _ (show 1 + 21 ≤ 24 by norm_num), digit_of _ _ _ _ (show 6 + 21 ≤ 32 by norm_num),
    digit_of _ _ _ _ (show 3 + 21 ≤ 24 by norm_num), Nat.div_div_eq_div_mul, ← Nat.pow_add, Nat.reduceAdd]
  have hn := digits21 (leNat b) hlt
  have m24 : ∀ x : Nat, x % 2 ^ 24 % 2 ^ 21 = x % 2 ^ 21 := fun x =>
    Nat.mod_mod_of_dvd _ (Dvd.intro_left (2 ^ 3) (by norm_num))
  have m32 : ∀ x : Nat, x % 2 ^ 32 / 2 ^ 7 = x / 2 ^ 7 % 2 ^ 25 := fun x => by
    rw [show (2 : Nat) ^ 32 = 2 ^ 7 * 2 ^ 25 by norm_num, Nat.mod_mul_right_div_self]
  rw [m24, m24, m32, Nat.div_div_eq_div_mul, ← Nat.pow_add, Nat.pow_zero, Nat.div_one]
  have ml : ∀ x r : Nat, x % 2 ^ r < 2 ^ r := fun x r => Nat.mod_lt _ (Nat.two_pow_pos r)
  refine ⟨ml _ _, ml _ _, ml _ _, ml _ _, ml _ _, ml _ _, ml _ _, ml _ _, ml _ _, ml _ _, ml _ _, ml _ _, hn⟩

/-! ## Reduction -/

/-- Bounds of the sums of all four functions. -/
def scB : List (Int × Int) :=
  [(-67108864, 4398109425665), (-67108864, 8796151742466), (-67108864, 13194194059267),
   (-67108864, 17592236376068), (-67108864, 21990278692869), (-67108864, 26388321009670),
   (-67108864, 30786363326471), (-67108864, 35184405643272), (-67108864, 39582447960073),
   (-67108864, 43980490276874), (-67108864, 48378532593675), (-67108864, 184717907329036),
   (0, 180319865012235), (0, 175921822695434), (0, 171523780378633), (0, 167125738061832),
   (0, 162727695745031), (0, 158329653428230), (0, 153931611111429), (0, 149533568794628),
   (0, 145135526477827), (0, 140737484161026), (0, 1125899906842625), (0, 67108864)]

/-- The integer form of `LOp.keeps`, modulo `M`. -/
def LOp.keepsMod (M : Nat) (W : List Int) : LOp → Bool
  | .carry i j k m _ => (W.getD j 0 * m - W.getD i 0 * 2 ^ k) % M == 0
  | .fold i tgt => ((tgt.map (fun e => W.getD e.1 0 * e.2)).sum - W.getD i 0) % M == 0

theorem getD_map_cast {R : Type} [CommRing R] (W : List Int) (i : Nat) :
    (W.map (Int.cast : Int → R)).getD i 0 = ((W.getD i 0 : Int) : R) := by
  rw [List.getD_eq_getElem?_getD, List.getD_eq_getElem?_getD, List.getElem?_map]
  cases W[i]? <;> simp

theorem cast_eq_of_mod {M : Nat} {a b : Int} (h : ((a - b) % M == 0) = true) : (a : ZMod M) = (b : ZMod M) := by
  rw [ZMod.intCast_eq_intCast_iff_dvd_sub]
  have := Int.dvd_of_emod_eq_zero (beq_iff_eq.1 h)
  rw [← Int.dvd_neg]
  rwa [Int.neg_sub]

theorem LOp.keeps_of_mod {M : Nat} {W : List Int} {o : LOp} (h : o.keepsMod M W = true) :
    o.keeps (W.map (Int.cast : Int → ZMod M)) := by
  cases o with
  | carry i j k m r =>
    simp only [LOp.keepsMod] at h
    simp only [LOp.keeps]
    rw [getD_map_cast, getD_map_cast]
    have := cast_eq_of_mod h
    push_cast at this
    exact this
  | fold i tgt =>
    simp only [LOp.keepsMod] at h
    simp only [LOp.keeps]
    have := cast_eq_of_mod h
    rw [getD_map_cast, ← this, Int.cast_list_sum, List.map_map]
    congr 1
    apply List.map_congr_left
    intro e _
    rw [getD_map_cast]
    simp

theorem scW_cast (R : Type) [CommRing R] : scW R = (scW Int).map (Int.cast : Int → R) := by
  simp only [scW, List.map, Int.cast_pow, Int.cast_ofNat, Int.cast_one]

theorem keepsMod_all : reduceOps.all (LOp.keepsMod L (scW Int)) = true := by decide +kernel

theorem reduceOps_keeps : ∀ o ∈ reduceOps, o.keeps (scW Fl) := by
  intro o ho
  rw [scW_cast]
  exact LOp.keeps_of_mod (List.all_eq_true.1 keepsMod_all o ho)

/-- The statements before the last fold, the last fold, and the last carries. -/
def ops1 : List LOp := reduceOps.take 71
def opFold : LOp :=
  .fold 12 [(0, 666643), (1, 470296), (2, 654183), (3, -997805), (4, 136657), (5, -683901)]
def ops3 : List LOp := reduceOps.drop 72

theorem reduceOps_split : reduceOps = ops1 ++ (opFold :: ops3) := by decide

/-- Bounds before the last fold. -/
def scB1 : List (Int × Int) :=
  [(0, 2097151), (0, 2097151), (0, 2097151), (0, 2097151), (0, 2097151), (0, 2097151), (0, 2097151),
   (0, 2097151), (0, 2097151), (0, 2097151), (0, 2097151), (0, 2097151), (-1, 0), (0, 0), (0, 0), (0, 0),
   (0, 0), (0, 0), (0, 0), (0, 0), (0, 0), (0, 0), (0, 0), (0, 0)]

/-- Bounds at the end. -/
def scB3 : List (Int × Int) :=
  [(0, 2097151), (0, 2097151), (0, 2097151), (0, 2097151), (0, 2097151), (0, 2097151), (0, 2097151),
   (0, 2097151), (0, 2097151), (0, 2097151), (0, 2097151), (-1, 2097152), (0, 0), (0, 0), (0, 0), (0, 0),
   (0, 0), (0, 0), (0, 0), (0, 0), (0, 0), (0, 0), (0, 0), (0, 0)]

theorem bnd1 : bndOps 64 ops1 scB = some scB1 := by decide +kernel
theorem bnd2 : (opFold.bnd 64 scB1).isSome = true := by decide +kernel
theorem bnd3 : (opFold.bnd 64 scB1).bind (bndOps 64 ops3) = some scB3 := by decide +kernel

theorem ops3_keeps : ∀ o ∈ ops3, o.keeps (scW Int) := by
  intro o ho
  simp only [ops3, reduceOps, List.drop, List.mem_cons, List.not_mem_nil, or_false] at ho
  rcases ho with rfl | rfl | rfl | rfl | rfl | rfl | rfl | rfl | rfl | rfl | rfl <;>
    simp only [LOp.keeps, scW, List.getD_cons_zero, List.getD_cons_succ] <;> norm_num

theorem list24 {f : List Int} (h : f.length = 24) : ∃ x0 x1 x2 x3 x4 x5 x6 x7 x8 x9 x10 x11 x12 x13 x14 x15 x16 x17 x18 x19 x20 x21 x22 x23 : Int, f = [x0, x1, x2, x3, x4, x5, x6, x7, x8, x9, x10, x11, x12, x13, x14, x15, x16, x17, x18, x19, x20, x21, x22, x23] := by
  match f, h with
  | [x0, x1, x2, x3, x4, x5, x6, x7, x8, x9, x10, x11, x12, x13, x14, x15, x16, x17, x18, x19, x20, x21, x22, x23], _ => exact ⟨x0, x1, x2, x3, x4, x5, x6, x7, x8, x9, x10, x11, x12, x13, x14, x15, x16, x17, x18, x19, x20, x21, x22, x23, rfl⟩

/-- After the reduction: twelve non-negative limbs that stand for the residue modulo the order. -/
theorem reduce_limbs {h : List Int} (hB : InB h scB) : ∃ n0 n1 n2 n3 n4 n5 n6 n7 n8 n9 n10 n11 : Nat, ∃ t : List Int,
    runOps 64 reduceOps h = (n0 : Int) :: (n1 : Int) :: (n2 : Int) :: (n3 : Int) :: (n4 : Int) :: (n5 : Int) :: (n6 : Int) :: (n7 : Int) :: (n8 : Int) :: (n9 : Int) :: (n10 : Int) :: (n11 : Int) :: t ∧
    n0 < 2 ^ 21 ∧ n1 < 2 ^ 21 ∧ n2 < 2 ^ 21 ∧ n3 < 2 ^ 21 ∧ n4 < 2 ^ 21 ∧ n5 < 2 ^ 21 ∧ n6 < 2 ^ 21 ∧ n7 < 2 ^ 21 ∧ n8 < 2 ^ 21 ∧ n9 < 2 ^ 21 ∧ n10 < 2 ^ 21 ∧ n11 < 2 ^ 22 ∧
    n0 + 2 ^ 21 * n1 + 2 ^ 42 * n2 + 2 ^ 63 * n3 + 2 ^ 84 * n4 + 2 ^ 105 * n5 + 2 ^ 126 * n6 + 2 ^ 147 * n7 + 2 ^ 168 * n8 + 2 ^ 189 * n9 + 2 ^ 210 * n10 + 2 ^ 231 * n11 < L ∧
    (((n0 + 2 ^ 21 * n1 + 2 ^ 42 * n2 + 2 ^ 63 * n3 + 2 ^ 84 * n4 + 2 ^ 105 * n5 + 2 ^ 126 * n6 + 2 ^ 147 * n7 + 2 ^ 168 * n8 + 2 ^ 189 * n9 + 2 ^ 210 * n10 + 2 ^ 231 * n11 : Nat) : Int) : Fl) = dot (scW Fl) h := by
  obtain ⟨s1, s2⟩ := runOps_sound 64 (by norm_num) ops1 h scB scB1 hB bnd1
  have hl : h.length = 24 := hB.1
  have v1 := runOps_value (scW Fl) 64 (by norm_num) ops1 h scB scB1 hB bnd1 (by simp [scW, hl])
    (fun o ho => reduceOps_keeps o (List.mem_of_mem_take ho))
  rw [← s1] at s2
  rw [reduceOps_split, runOps_append]
  generalize runOps 64 ops1 h = g at *
  clear s1
  obtain ⟨B2, hB2⟩ := Option.isSome_iff_exists.1 bnd2
  have b3 : bndOps 64 ops3 B2 = some scB3 := by
    have := bnd3
    rw [hB2] at this
    exact this
  obtain ⟨f1, f2, -⟩ := LOp.sound 64 (by norm_num) opFold g scB1 B2 s2 hB2
  have hrun : runOps 64 (opFold :: ops3) g = runOps 64 ops3 (opFold.runX g) := by
    rw [runOps_cons, f1]
  rw [hrun]
  obtain ⟨t1, t2⟩ := runOps_sound 64 (by norm_num) ops3 (opFold.runX g) B2 scB3 f2 b3
  have hgl : g.length = 24 := s2.1
  have hfl : (opFold.runX g).length = 24 := by
    have h2 := LOp.sound 64 (by norm_num) opFold g scB1 B2 s2 hB2
    rw [f2.1, h2.2.2]; rfl
  have v3 := runOps_value (scW Int) 64 (by norm_num) ops3 (opFold.runX g) B2 scB3 f2 b3 (by simp [scW, hfl])
    ops3_keeps
  rw [← t1] at t2
  have vF := runOps_value (scW Fl) 64 (by norm_num) (opFold :: ops3) g scB1 scB3 s2
    (bndOps_cons hB2 b3) (by simp [scW, hgl])
    (fun o ho => reduceOps_keeps o (by rw [reduceOps_split]; exact List.mem_append_right _ ho))
  rw [hrun, v1] at vF
  rw [← vF]
  clear vF v1 t1 f1 hrun
  obtain ⟨x0, x1, x2, x3, x4, x5, x6, x7, x8, x9, x10, x11, x12, x13, x14, x15, x16, x17, x18, x19, x20, x21, x22, x23, rfl⟩ := list24 hgl
  have k0 := s2.2 0 (by decide)
  have k1 := s2.2 1 (by decide)
  have k2 := s2.2 2 (by decide)
  have k3 := s2.2 3 (by decide)
  have k4 := s2.2 4 (by decide)
  have k5 := s2.2 5 (by decide)
  have k6 := s2.2 6 (by decide)
  have k7 := s2.2 7 (by decide)
  have k8 := s2.2 8 (by decide)
  have k9 := s2.2 9 (by decide)
  have k10 := s2.2 10 (by decide)
  have k11 := s2.2 11 (by decide)
  have k12 := s2.2 12 (by decide)
  have k13 := s2.2 13 (by decide)
  have k14 := s2.2 14 (by decide)
  have k15 := s2.2 15 (by decide)
  have k16 := s2.2 16 (by decide)
  have k17 := s2.2 17 (by decide)
  have k18 := s2.2 18 (by decide)
  have k19 := s2.2 19 (by decide)
  have k20 := s2.2 20 (by decide)
  have k21 := s2.2 21 (by decide)
  have k22 := s2.2 22 (by decide)
  have k23 := s2.2 23 (by decide)
  simp only [limb, scB1, List.getD_cons_zero, List.getD_cons_succ] at k0 k1 k2 k3 k4 k5 k6 k7 k8 k9 k10 k11 k12 k13 k14 k15 k16 k17 k18 k19 k20 k21 k22 k23
  have eF : opFold.runX [x0, x1, x2, x3, x4, x5, x6, x7, x8, x9, x10, x11, x12, x13, x14, x15, x16, x17, x18, x19, x20, x21, x22, x23] = [x0 + x12 * 666643, x1 + x12 * 470296, x2 + x12 * 654183, x3 + x12 * -997805, x4 + x12 * 136657, x5 + x12 * -683901, x6, x7, x8, x9, x10, x11, 0, x13, x14, x15, x16, x17, x18, x19, x20, x21, x22, x23] := by
    simp [opFold, LOp.runX, limb]
  rw [eF] at v3 t2 ⊢
  clear f2 hfl
  generalize runOps 64 ops3 _ = f at v3 t2 ⊢
  have hfl' : f.length = 24 := t2.1
  obtain ⟨y0, y1, y2, y3, y4, y5, y6, y7, y8, y9, y10, y11, y12, y13, y14, y15, y16, y17, y18, y19, y20, y21, y22, y23, rfl⟩ := list24 hfl'
  have j0 := t2.2 0 (by decide)
  have j1 := t2.2 1 (by decide)
  have j2 := t2.2 2 (by decide)
  have j3 := t2.2 3 (by decide)
  have j4 := t2.2 4 (by decide)
  have j5 := t2.2 5 (by decide)
  have j6 := t2.2 6 (by decide)
  have j7 := t2.2 7 (by decide)
  have j8 := t2.2 8 (by decide)
  have j9 := t2.2 9 (by decide)
  have j10 := t2.2 10 (by decide)
  have j11 := t2.2 11 (by decide)
  have j12 := t2.2 12 (by decide)
  have j13 := t2.2 13 (by decide)
  have j14 := t2.2 14 (by decide)
  have j15 := t2.2 15 (by decide)
  have j16 := t2.2 16 (by decide)
  have j17 := t2.2 17 (by decide)
  have j18 := t2.2 18 (by decide)
  have j19 := t2.2 19 (by decide)
  have j20 := t2.2 20 (by decide)
  have j21 := t2.2 21 (by decide)
  have j22 := t2.2 22 (by decide)
  have j23 := t2.2 23 (by decide)
  simp only [limb, scB3, List.getD_cons_zero, List.getD_cons_succ] at j0 j1 j2 j3 j4 j5 j6 j7 j8 j9 j10 j11 j12 j13 j14 j15 j16 j17 j18 j19 j20 j21 j22 j23
  have hL : (L : Int) = 2 ^ 252 + 27742317777372353535851937790883648493 := by rw [L_eq]; rfl
  obtain rfl : x13 = 0 := by omega
  obtain rfl : x14 = 0 := by omega
  obtain rfl : x15 = 0 := by omega
  obtain rfl : x16 = 0 := by omega
  obtain rfl : x17 = 0 := by omega
  obtain rfl : x18 = 0 := by omega
  obtain rfl : x19 = 0 := by omega
  obtain rfl : x20 = 0 := by omega
  obtain rfl : x21 = 0 := by omega
  obtain rfl : x22 = 0 := by omega
  obtain rfl : x23 = 0 := by omega
  obtain rfl : y12 = 0 := by omega
  obtain rfl : y13 = 0 := by omega
  obtain rfl : y14 = 0 := by omega
  obtain rfl : y15 = 0 := by omega
  obtain rfl : y16 = 0 := by omega
  obtain rfl : y17 = 0 := by omega
  obtain rfl : y18 = 0 := by omega
  obtain rfl : y19 = 0 := by omega
  obtain rfl : y20 = 0 := by omega
  obtain rfl : y21 = 0 := by omega
  obtain rfl : y22 = 0 := by omega
  obtain rfl : y23 = 0 := by omega
  obtain ⟨kl0, ku0⟩ := k0
  obtain ⟨kl1, ku1⟩ := k1
  obtain ⟨kl2, ku2⟩ := k2
  obtain ⟨kl3, ku3⟩ := k3
  obtain ⟨kl4, ku4⟩ := k4
  obtain ⟨kl5, ku5⟩ := k5
  obtain ⟨kl6, ku6⟩ := k6
  obtain ⟨kl7, ku7⟩ := k7
  obtain ⟨kl8, ku8⟩ := k8
  obtain ⟨kl9, ku9⟩ := k9
  obtain ⟨kl10, ku10⟩ := k10
  obtain ⟨kl11, ku11⟩ := k11
  obtain ⟨kl12, ku12⟩ := k12
  obtain ⟨jl0, ju0⟩ := j0
  obtain ⟨jl1, ju1⟩ := j1
  obtain ⟨jl2, ju2⟩ := j2
  obtain ⟨jl3, ju3⟩ := j3
  obtain ⟨jl4, ju4⟩ := j4
  obtain ⟨jl5, ju5⟩ := j5
  obtain ⟨jl6, ju6⟩ := j6
  obtain ⟨jl7, ju7⟩ := j7
  obtain ⟨jl8, ju8⟩ := j8
  obtain ⟨jl9, ju9⟩ := j9
  obtain ⟨jl10, ju10⟩ := j10
  obtain ⟨jl11, ju11⟩ := j11
  simp only [scW, dot, Int.cast_id, mul_zero, add_zero] at v3
  clear eF s2 t2 hgl hfl' b3 hB2 hl hB
  have hpos : 0 ≤ y11 := by
    by_contra hn
    have hn' : y11 ≤ -1 := by omega
    norm_num only at *
    linarith
  refine ⟨y0.toNat, y1.toNat, y2.toNat, y3.toNat, y4.toNat, y5.toNat, y6.toNat, y7.toNat, y8.toNat, y9.toNat, y10.toNat, y11.toNat, [0, 0, 0, 0, 0, 0, 0, 0, 0, 0, 0, 0], ?_, by omega, by omega, by omega, by omega, by omega, by omega, by omega, by omega, by omega, by omega, by omega, by omega, ?_, ?_⟩
  · rw [Int.toNat_of_nonneg jl0, Int.toNat_of_nonneg jl1, Int.toNat_of_nonneg jl2, Int.toNat_of_nonneg jl3, Int.toNat_of_nonneg jl4, Int.toNat_of_nonneg jl5, Int.toNat_of_nonneg jl6, Int.toNat_of_nonneg jl7, Int.toNat_of_nonneg jl8, Int.toNat_of_nonneg jl9, Int.toNat_of_nonneg jl10, Int.toNat_of_nonneg hpos]
  · zify
    rw [hL, Int.toNat_of_nonneg jl0, Int.toNat_of_nonneg jl1, Int.toNat_of_nonneg jl2, Int.toNat_of_nonneg jl3, Int.toNat_of_nonneg jl4, Int.toNat_of_nonneg jl5, Int.toNat_of_nonneg jl6, Int.toNat_of_nonneg jl7, Int.toNat_of_nonneg jl8, Int.toNat_of_nonneg jl9, Int.toNat_of_nonneg jl10, Int.toNat_of_nonneg hpos]
    norm_num only at *
    linarith
  · push_cast
    rw [show ((y0.toNat : Nat) : Fl) = (y0 : Fl) by rw [← Int.cast_natCast, Int.toNat_of_nonneg jl0], show ((y1.toNat : Nat) : Fl) = (y1 : Fl) by rw [← Int.cast_natCast, Int.toNat_of_nonneg jl1], show ((y2.toNat : Nat) : Fl) = (y2 : Fl) by rw [← Int.cast_natCast, Int.toNat_of_nonneg jl2], show ((y3.toNat : Nat) : Fl) = (y3 : Fl) by rw [← Int.cast_natCast, Int.toNat_of_nonneg jl3], show ((y4.toNat : Nat) : Fl) = (y4 : Fl) by rw [← Int.cast_natCast, Int.toNat_of_nonneg jl4], show ((y5.toNat : Nat) : Fl) = (y5 : Fl) by rw [← Int.cast_natCast, Int.toNat_of_nonneg jl5], show ((y6.toNat : Nat) : Fl) = (y6 : Fl) by rw [← Int.cast_natCast, Int.toNat_of_nonneg jl6], show ((y7.toNat : Nat) : Fl) = (y7 : Fl) by rw [← Int.cast_natCast, Int.toNat_of_nonneg jl7], show ((y8.toNat : Nat) : Fl) = (y8 : Fl) by rw [← Int.cast_natCast, Int.toNat_of_nonneg jl8], show ((y9.toNat : Nat) : Fl) = (y9 : Fl) by rw [← Int.cast_natCast, Int.toNat_of_nonneg jl9], show ((y10.toNat : Nat) : Fl) = (y10 : Fl) by rw [← Int.cast_natCast, Int.toNat_of_nonneg jl10], show ((y11.toNat : Nat) : Fl) = (y11 : Fl) by rw [← Int.cast_natCast, Int.toNat_of_nonneg hpos]]
    simp only [scW, dot, Int.cast_zero, mul_zero, add_zero]
    ring

set_option maxHeartbeats 4000000 in
theorem scBytes_eq (n0 n1 n2 n3 n4 n5 n6 n7 n8 n9 n10 n11 : Nat) (t : List Int) (h0 : n0 < 2 ^ 21) (h1 : n1 < 2 ^ 21) (h2 : n2 < 2 ^ 21) (h3 : n3 < 2 ^ 21) (h4 : n4 < 2 ^ 21) (h5 : n5 < 2 ^ 21) (h6 : n6 < 2 ^ 21) (h7 : n7 < 2 ^ 21) (h8 : n8 < 2 ^ 21) (h9 : n9 < 2 ^ 21) (h10 : n10 < 2 ^ 21) (h11 : n11 < 2 ^ 22) :
    scBytes ((n0 : Int) :: (n1 : Int) :: (n2 : Int) :: (n3 : Int) :: (n4 : Int) :: (n5 : Int) :: (n6 : Int) :: (n7 : Int) :: (n8 : Int) :: (n9 : Int) :: (n10 : Int) :: (n11 : Int) :: t) = leBytes 32 (n0 + 2 ^ 21 * n1 + 2 ^ 42 * n2 + 2 ^ 63 * n3 + 2 ^ 84 * n4 + 2 ^ 105 * n5 + 2 ^ 126 * n6 + 2 ^ 147 * n7 + 2 ^ 168 * n8 + 2 ^ 189 * n9 + 2 ^ 210 * n10 + 2 ^ 231 * n11) := by
  rw [leBytes_eq_map]
  simp only [scBytes, limb, List.getD_cons_zero, List.getD_cons_succ, u8_sar, u8_shl, u8_nat, List.range,
    List.range.loop, List.map]
  rw [ofNat_or (n0 / 2 ^ 16) n1 5 (by norm_num) (by omega),
    ofNat_or (n1 / 2 ^ 19) n2 2 (by norm_num) (by omega),
    ofNat_or (n2 / 2 ^ 14) n3 7 (by norm_num) (by omega),
    ofNat_or (n3 / 2 ^ 17) n4 4 (by norm_num) (by omega),
    ofNat_or (n4 / 2 ^ 20) n5 1 (by norm_num) (by omega),
    ofNat_or (n5 / 2 ^ 15) n6 6 (by norm_num) (by omega),
    ofNat_or (n6 / 2 ^ 18) n7 3 (by norm_num) (by omega),
    ofNat_or (n8 / 2 ^ 16) n9 5 (by norm_num) (by omega),
    ofNat_or (n9 / 2 ^ 19) n10 2 (by norm_num) (by omega),
    ofNat_or (n10 / 2 ^ 14) n11 7 (by norm_num) (by omega)]
  obtain ⟨V, hV⟩ : ∃ V, V = n0 + 2 ^ 21 * n1 + 2 ^ 42 * n2 + 2 ^ 63 * n3 + 2 ^ 84 * n4 + 2 ^ 105 * n5 + 2 ^ 126 * n6 + 2 ^ 147 * n7 + 2 ^ 168 * n8 + 2 ^ 189 * n9 + 2 ^ 210 * n10 + 2 ^ 231 * n11 := ⟨_, rfl⟩
  rw [← hV]
  simp only [List.cons.injEq, and_true]
  refine ⟨?_, ?_, ?_, ?_, ?_, ?_, ?_, ?_, ?_, ?_, ?_, ?_, ?_, ?_, ?_, ?_, ?_, ?_, ?_, ?_, ?_, ?_, ?_, ?_, ?_, ?_, ?_, ?_, ?_, ?_, ?_, ?_⟩ <;>
    (apply ofNat_congr; norm_num only at *; omega)

/-- The reduction writes the canonical residue of the value of the limbs. -/
theorem scReduce_eq {h : List Int} (hB : InB h scB) :
    scReduce h = leBytes 32 (dot (scW Fl) h).val := by
  obtain ⟨n0, n1, n2, n3, n4, n5, n6, n7, n8, n9, n10, n11, t, e, k0, k1, k2, k3, k4, k5, k6, k7, k8, k9, k10, k11, hlt, hv⟩ := reduce_limbs hB
  unfold scReduce
  rw [e, scBytes_eq n0 n1 n2 n3 n4 n5 n6 n7 n8 n9 n10 n11 t k0 k1 k2 k3 k4 k5 k6 k7 k8 k9 k10 k11, ← hv, Int.cast_natCast, ZMod.val_natCast_of_lt hlt]

end Kyber.Ed
