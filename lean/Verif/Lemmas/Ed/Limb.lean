/-
Interval analysis for the limb programs, and the value of a limb vector.
-/
import Verif.Model.Ed.Limb
import Verif.Lemmas.Int
import Mathlib.Tactic.LinearCombination
import Mathlib.Algebra.BigOperators.Group.List.Basic
import Mathlib.Data.Int.Cast.Lemmas

namespace Kyber.Ed

open Kyber Kyber.ModInt

theorem wrap_eq {w : Nat} {x : Int} (hw : 0 < w) (h1 : -2 ^ (w - 1) ≤ x) (h2 : x < 2 ^ (w - 1)) :
    wrap w x = x := by
  unfold wrap
  obtain ⟨n, rfl⟩ : ∃ n, w = n + 1 := ⟨w - 1, by omega⟩
  rw [Nat.add_sub_cancel] at h1 h2
  have hp : ((2 ^ (n + 1) : Nat) : Int) = 2 * 2 ^ n := by push_cast; ring
  apply Int.bmod_eq_of_le
  · rw [hp]; omega
  · rw [hp]; omega

theorem wrap_add_left (w : Nat) (x y : Int) : wrap w (wrap w x + y) = wrap w (x + y) := by
  unfold wrap; simp

theorem wrap_mul_left (w : Nat) (x y : Int) : wrap w (wrap w x * y) = wrap w (x * y) := by
  unfold wrap; simp

/-! ## Exact semantics -/

/-- A statement group without wrap-around. -/
def LOp.runX : LOp → List Int → List Int
  | .carry i j k m r, h =>
    let c := (limb h i + if r then 2 ^ (k - 1) else 0) / 2 ^ k
    (h.set j (limb h j + c * m)).set i (limb h i - c * 2 ^ k)
  | .fold i tgt, h =>
    (tgt.foldl (fun h' e => h'.set e.1 (limb h' e.1 + limb h i * e.2)) h).set i 0

/-- A sequence of statement groups without wrap-around. -/
def runOpsX (ops : List LOp) (h : List Int) : List Int := ops.foldl (fun h o => o.runX h) h

/-! ## Intervals -/

/-- The limbs lie in the intervals. -/
def InB (h : List Int) (B : List (Int × Int)) : Prop :=
  h.length = B.length ∧ ∀ i < B.length, (B.getD i (0, 0)).1 ≤ limb h i ∧ limb h i ≤ (B.getD i (0, 0)).2

/-- The interval fits a signed `w`-bit integer. -/
def fits (w : Nat) (lo hi : Int) : Bool := decide (-2 ^ (w - 1) ≤ lo) && decide (hi < 2 ^ (w - 1))

/-- The interval of `x * m` for `lo ≤ x ≤ hi`. -/
def scaleB (m lo hi : Int) : Int × Int := if 0 ≤ m then (lo * m, hi * m) else (hi * m, lo * m)

/-- Intervals after one target of a fold. -/
def foldB (w : Nat) (i : Nat) (src : Int × Int) (B : List (Int × Int)) (e : Nat × Int) :
    Option (List (Int × Int)) :=
  let s := scaleB e.2 src.1 src.2
  let t := B.getD e.1 (0, 0)
  if e.1 < B.length ∧ e.1 ≠ i ∧ fits w s.1 s.2 ∧ fits w (t.1 + s.1) (t.2 + s.2) then
    some (B.set e.1 (t.1 + s.1, t.2 + s.2))
  else none

/-- Intervals after a statement group; `none` if something may overflow. -/
def LOp.bnd (w : Nat) : LOp → List (Int × Int) → Option (List (Int × Int))
  | .carry i j k m r, B =>
    let a := B.getD i (0, 0)
    let rr : Int := if r then 2 ^ (k - 1) else 0
    let c : Int × Int := ((a.1 + rr) / 2 ^ k, (a.2 + rr) / 2 ^ k)
    let s := scaleB m c.1 c.2
    let t := B.getD j (0, 0)
    if i < B.length ∧ j < B.length ∧ i ≠ j ∧ fits w (a.1 + rr) (a.2 + rr) ∧ fits w s.1 s.2 ∧
        fits w (t.1 + s.1) (t.2 + s.2) ∧ fits w (c.1 * 2 ^ k) (c.2 * 2 ^ k) ∧
        fits w (-rr) (2 ^ k - 1 - rr) then
      some ((B.set j (t.1 + s.1, t.2 + s.2)).set i (-rr, 2 ^ k - 1 - rr))
    else none
  | .fold i tgt, B =>
    if i < B.length then
      (tgt.foldlM (foldB w i (B.getD i (0, 0))) B).map (fun B => B.set i (0, 0))
    else none

/-- Intervals after a sequence of statement groups. -/
def bndOps (w : Nat) (ops : List LOp) (B : List (Int × Int)) : Option (List (Int × Int)) :=
  ops.foldlM (fun B o => o.bnd w B) B

theorem limb_set (h : List Int) (i j : Nat) (x : Int) (hi : i < h.length) :
    limb (h.set i x) j = if i = j then x else limb h j := by
  unfold limb
  rw [List.getD_eq_getElem?_getD, List.getD_eq_getElem?_getD, List.getElem?_set]
  split
  · subst_vars; simp [*]
  · rfl

theorem getD_set (B : List (Int × Int)) (i j : Nat) (x : Int × Int) (hi : i < B.length) :
    (B.set i x).getD j (0, 0) = if i = j then x else B.getD j (0, 0) := by
  rw [List.getD_eq_getElem?_getD, List.getD_eq_getElem?_getD, List.getElem?_set]
  split
  · subst_vars; simp [*]
  · rfl

theorem InB.set {h : List Int} {B : List (Int × Int)} (hB : InB h B) {i : Nat} (hi : i < B.length)
    {x lo hi' : Int} (h1 : lo ≤ x) (h2 : x ≤ hi') : InB (h.set i x) (B.set i (lo, hi')) := by
  refine ⟨by simpa using hB.1, fun j hj => ?_⟩
  rw [limb_set _ _ _ _ (by rw [hB.1]; exact hi), getD_set _ _ _ _ hi]
  split
  · exact ⟨h1, h2⟩
  · exact hB.2 j (by simpa using hj)

theorem fits_wrap {w : Nat} {lo hi x : Int} (hw : 0 < w) (h : fits w lo hi = true) (h1 : lo ≤ x)
    (h2 : x ≤ hi) : wrap w x = x := by
  unfold fits at h
  simp only [Bool.and_eq_true, decide_eq_true_eq] at h
  exact wrap_eq hw (by omega) (by omega)

theorem scaleB_spec {m lo hi x : Int} (h1 : lo ≤ x) (h2 : x ≤ hi) :
    (scaleB m lo hi).1 ≤ x * m ∧ x * m ≤ (scaleB m lo hi).2 := by
  unfold scaleB
  split
  · rename_i hm
    exact ⟨mul_le_mul_of_nonneg_right h1 hm, mul_le_mul_of_nonneg_right h2 hm⟩
  · rename_i hm
    have hm : m ≤ 0 := by omega
    exact ⟨mul_le_mul_of_nonpos_right h2 hm, mul_le_mul_of_nonpos_right h1 hm⟩

theorem fold_sound (w : Nat) (hw : 0 < w) (i : Nat) (x : Int) (src : Int × Int) (hx : src.1 ≤ x ∧ x ≤ src.2)
    (tgt : List (Nat × Int)) (h : List Int) (B B' : List (Int × Int)) (hB : InB h B)
    (hb : tgt.foldlM (foldB w i src) B = some B') :
    tgt.foldl (fun h' e => h'.set e.1 (wrap w (limb h' e.1 + wrap w (x * e.2)))) h =
      tgt.foldl (fun h' e => h'.set e.1 (limb h' e.1 + x * e.2)) h ∧
    InB (tgt.foldl (fun h' e => h'.set e.1 (limb h' e.1 + x * e.2)) h) B' ∧ B'.length = B.length ∧
    ∀ e ∈ tgt, e.1 < B.length ∧ e.1 ≠ i := by
  induction tgt generalizing h B with
  | nil =>
    simp only [List.foldlM_nil, Option.pure_def, Option.some.injEq] at hb
    subst hb
    exact ⟨rfl, hB, rfl, by simp⟩
  | cons e tgt ih =>
    rw [List.foldlM_cons] at hb
    unfold foldB at hb
    simp only at hb
    split at hb
    · rename_i hc
      obtain ⟨c1, c2, c3, c4⟩ := hc
      simp only [Option.bind_eq_bind, Option.bind_some] at hb
      have hs := scaleB_spec (m := e.2) hx.1 hx.2
      have ht := hB.2 e.1 c1
      have e1 := fits_wrap hw c3 hs.1 hs.2
      have e2 : wrap w (limb h e.1 + x * e.2) = limb h e.1 + x * e.2 :=
        fits_wrap hw c4 (by omega) (by omega)
      have hB' := hB.set c1 (x := limb h e.1 + x * e.2)
        (lo := (B.getD e.1 (0, 0)).1 + (scaleB e.2 src.1 src.2).1)
        (hi' := (B.getD e.1 (0, 0)).2 + (scaleB e.2 src.1 src.2).2) (by omega) (by omega)
      obtain ⟨r1, r2, r3, r4⟩ := ih _ _ hB' hb
      refine ⟨?_, r2, by simpa using r3, ?_⟩
      · rw [List.foldl_cons, List.foldl_cons, e1, e2, r1]
      · intro e' he'
        rcases List.mem_cons.1 he' with rfl | he'
        · exact ⟨c1, c2⟩
        · have := r4 e' he'
          simpa using this
    · cases hb

/-- If the interval analysis passes, nothing overflows and the results are in the intervals. -/
theorem LOp.sound (w : Nat) (hw : 0 < w) (o : LOp) (h : List Int) (B B' : List (Int × Int))
    (hB : InB h B) (hb : o.bnd w B = some B') :
    o.run w h = o.runX h ∧ InB (o.runX h) B' ∧ B'.length = B.length := by
  cases o with
  | carry i j k m r =>
    unfold LOp.bnd at hb
    simp only at hb
    generalize hrr : (if r = true then (2 : Int) ^ (k - 1) else 0) = rr at *
    split at hb
    · rename_i hc
      obtain ⟨c1, c2, c3, c4, c5, c6, c7, c8⟩ := hc
      simp only [Option.some.injEq] at hb
      subst hb
      have hi := hB.2 i c1
      have hj := hB.2 j c2
      have hpk : (0 : Int) < 2 ^ k := by positivity
      have e0 : wrap w (limb h i + rr) = limb h i + rr := fits_wrap hw c4 (by omega) (by omega)
      have hc1 : (limb h i + rr) / 2 ^ k ≤ ((B.getD i (0, 0)).2 + rr) / 2 ^ k :=
        Int.ediv_le_ediv hpk (by omega)
      have hc0 : ((B.getD i (0, 0)).1 + rr) / 2 ^ k ≤ (limb h i + rr) / 2 ^ k :=
        Int.ediv_le_ediv hpk (by omega)
      have hs := scaleB_spec (m := m) hc0 hc1
      have e1 := fits_wrap hw c5 hs.1 hs.2
      have e2 : wrap w (limb h j + (limb h i + rr) / 2 ^ k * m) = limb h j + (limb h i + rr) / 2 ^ k * m :=
        fits_wrap hw c6 (by omega) (by omega)
      have e3 : wrap w ((limb h i + rr) / 2 ^ k * 2 ^ k) = (limb h i + rr) / 2 ^ k * 2 ^ k :=
        fits_wrap hw c7 (mul_le_mul_of_nonneg_right hc0 hpk.le) (mul_le_mul_of_nonneg_right hc1 hpk.le)
      have hmod := Int.emod_add_mul_ediv (limb h i + rr) (2 ^ k)
      have hm0 := Int.emod_nonneg (limb h i + rr) (ne_of_gt hpk)
      have hm1 := Int.emod_lt_of_pos (limb h i + rr) hpk
      have hx : limb h i - (limb h i + rr) / 2 ^ k * 2 ^ k = (limb h i + rr) % 2 ^ k - rr := by
        linarith [mul_comm ((limb h i + rr) / 2 ^ k) (2 ^ k)]
      have e4 : wrap w (limb h i - (limb h i + rr) / 2 ^ k * 2 ^ k) =
          limb h i - (limb h i + rr) / 2 ^ k * 2 ^ k :=
        fits_wrap hw c8 (by rw [hx]; omega) (by rw [hx]; omega)
      have hset : limb (h.set j (limb h j + (limb h i + rr) / 2 ^ k * m)) i = limb h i := by
        rw [limb_set _ _ _ _ (by rw [hB.1]; exact c2), if_neg (by omega)]
      refine ⟨?_, ?_, by simp⟩
      · unfold LOp.run LOp.runX sar
        simp only [hrr, e0, e1, e2, e3, hset, e4]
      · unfold LOp.runX
        simp only [hrr]
        refine InB.set (hB.set c2 (by omega) (by omega)) (by simpa using c1) ?_ ?_
        · rw [hx]; omega
        · rw [hx]; omega
    · cases hb
  | fold i tgt =>
    unfold LOp.bnd at hb
    simp only at hb
    split at hb
    · rename_i c1
      rw [Option.map_eq_some_iff] at hb
      obtain ⟨B1, hb1, rfl⟩ := hb
      obtain ⟨r1, r2, r3, r4⟩ := fold_sound w hw i (limb h i) (B.getD i (0, 0)) (hB.2 i c1) tgt h B B1 hB hb1
      refine ⟨?_, ?_, by simp [r3]⟩
      · simp only [LOp.run, LOp.runX, r1]
      · unfold LOp.runX
        exact r2.set (by omega) le_rfl le_rfl
    · cases hb

theorem runOps_sound (w : Nat) (hw : 0 < w) (ops : List LOp) (h : List Int) (B B' : List (Int × Int))
    (hB : InB h B) (hb : bndOps w ops B = some B') :
    runOps w ops h = runOpsX ops h ∧ InB (runOpsX ops h) B' := by
  induction ops generalizing h B with
  | nil =>
    simp only [bndOps, List.foldlM_nil, Option.pure_def, Option.some.injEq] at hb
    subst hb
    exact ⟨rfl, hB⟩
  | cons o ops ih =>
    unfold bndOps at hb
    rw [List.foldlM_cons, Option.bind_eq_bind, Option.bind_eq_some_iff] at hb
    obtain ⟨B1, hb1, hb2⟩ := hb
    obtain ⟨r1, r2, -⟩ := LOp.sound w hw o h B B1 hB hb1
    obtain ⟨s1, s2⟩ := ih (o.runX h) B1 r2 hb2
    refine ⟨?_, s2⟩
    show runOps w ops (o.run w h) = runOpsX ops (o.runX h)
    rw [r1, s1]

/-! ## Values -/

variable {R : Type} [CommRing R]

/-- The number that limbs stand for, with the given weights. -/
def dot : List R → List Int → R
  | w :: ws, x :: xs => w * (x : R) + dot ws xs
  | _, _ => 0

theorem dot_set (W : List R) (h : List Int) (i : Nat) (x : Int) (hi : i < h.length) (hl : W.length = h.length) :
    dot W (h.set i x) = dot W h + W.getD i 0 * ((x : R) - (limb h i : R)) := by
  induction h generalizing W i with
  | nil => simp at hi
  | cons y h ih =>
    cases W with
    | nil => simp at hl
    | cons u W =>
      cases i with
      | zero => simp only [List.set_cons_zero, dot, limb, List.getD_cons_zero]; ring
      | succ i =>
        have := ih W i (by simpa using hi) (by simpa using hl)
        simp only [List.set_cons_succ, dot, List.getD_cons_succ, limb] at this ⊢
        rw [this]; ring

/-- What the weights must satisfy for a statement group to keep the value. -/
def LOp.keeps (W : List R) : LOp → Prop
  | .carry i j k m _ => W.getD j 0 * (m : R) = W.getD i 0 * 2 ^ k
  | .fold i tgt => (tgt.map (fun e => W.getD e.1 0 * (e.2 : R))).sum = W.getD i 0

theorem fold_value (W : List R) (i : Nat) (x : Int) (tgt : List (Nat × Int)) (h : List Int)
    (hl : W.length = h.length) (hto : ∀ e ∈ tgt, e.1 < h.length ∧ e.1 ≠ i) :
    dot W (tgt.foldl (fun h' e => h'.set e.1 (limb h' e.1 + x * e.2)) h) =
      dot W h + (x : R) * (tgt.map (fun e => W.getD e.1 0 * (e.2 : R))).sum ∧
    limb (tgt.foldl (fun h' e => h'.set e.1 (limb h' e.1 + x * e.2)) h) i = limb h i ∧
    (tgt.foldl (fun h' e => h'.set e.1 (limb h' e.1 + x * e.2)) h).length = h.length := by
  induction tgt generalizing h with
  | nil => simp
  | cons e tgt ih =>
    have he := hto e (by simp)
    have hlen : (h.set e.1 (limb h e.1 + x * e.2)).length = h.length := by simp
    obtain ⟨i1, i2, i3⟩ := ih (h.set e.1 (limb h e.1 + x * e.2)) (by simpa using hl)
      (fun e' he' => by rw [hlen]; exact hto e' (by simp [he']))
    rw [List.foldl_cons]
    refine ⟨?_, ?_, by rw [i3, hlen]⟩
    · rw [i1, dot_set W h e.1 _ he.1 hl, List.map_cons, List.sum_cons]
      push_cast
      ring
    · rw [i2, limb_set _ _ _ _ he.1, if_neg he.2]

theorem LOp.value (W : List R) (w : Nat) (o : LOp) (h : List Int) (B B' : List (Int × Int)) (hw : 0 < w)
    (hB : InB h B) (hb : o.bnd w B = some B') (hl : W.length = h.length) (hk : o.keeps W) :
    dot W (o.runX h) = dot W h := by
  cases o with
  | carry i j k m r =>
    unfold LOp.bnd at hb
    simp only at hb
    generalize hrr : (if r = true then (2 : Int) ^ (k - 1) else 0) = rr at *
    split at hb
    · rename_i hc
      obtain ⟨c1, c2, c3, -⟩ := hc
      rw [← hB.1] at c1 c2
      unfold LOp.runX
      simp only [hrr]
      unfold LOp.keeps at hk
      rw [dot_set _ _ _ _ (by simpa using c1) (by simpa using hl), dot_set _ _ _ _ c2 hl,
        limb_set _ _ _ _ c2, if_neg (by omega)]
      push_cast
      linear_combination (((limb h i + rr) / 2 ^ k : Int) : R) * hk
    · cases hb
  | fold i tgt =>
    unfold LOp.bnd at hb
    simp only at hb
    split at hb
    · rename_i c1
      rw [Option.map_eq_some_iff] at hb
      obtain ⟨B1, hb1, rfl⟩ := hb
      obtain ⟨-, -, -, r4⟩ := fold_sound w hw i (limb h i) (B.getD i (0, 0)) (hB.2 i c1) tgt h B B1 hB hb1
      rw [← hB.1] at c1 r4
      obtain ⟨v1, v2, v3⟩ := fold_value W i (limb h i) tgt h hl r4
      unfold LOp.runX
      rw [dot_set _ _ _ _ (by rw [v3]; exact c1) (by rw [v3]; exact hl), v1, v2]
      unfold LOp.keeps at hk
      rw [hk]
      push_cast
      ring
    · cases hb

/-- The value of the limbs is kept by a program that passes the interval analysis. -/
theorem runOps_value (W : List R) (w : Nat) (hw : 0 < w) (ops : List LOp) (h : List Int)
    (B B' : List (Int × Int)) (hB : InB h B) (hb : bndOps w ops B = some B')
    (hl : W.length = h.length) (hk : ∀ o ∈ ops, o.keeps W) :
    dot W (runOps w ops h) = dot W h := by
  rw [(runOps_sound w hw ops h B B' hB hb).1]
  induction ops generalizing h B with
  | nil => rfl
  | cons o ops ih =>
    unfold bndOps at hb
    rw [List.foldlM_cons, Option.bind_eq_bind, Option.bind_eq_some_iff] at hb
    obtain ⟨B1, hb1, hb2⟩ := hb
    obtain ⟨-, r2, r3⟩ := LOp.sound w hw o h B B1 hB hb1
    show dot W (runOpsX ops (o.runX h)) = _
    rw [ih (o.runX h) B1 r2 hb2 (by rw [r2.1, r3, ← hB.1, hl]) (fun o' ho' => hk o' (by simp [ho'])),
      LOp.value W w o h B B1 hw hB hb1 hl (hk o (by simp))]

theorem InB.mono {h : List Int} {B B' : List (Int × Int)} (hB : InB h B) (hl : B.length = B'.length)
    (hle : ∀ i < B.length, (B'.getD i (0, 0)).1 ≤ (B.getD i (0, 0)).1 ∧
      (B.getD i (0, 0)).2 ≤ (B'.getD i (0, 0)).2) : InB h B' := by
  refine ⟨hB.1.trans hl, fun i hi => ?_⟩
  have := hB.2 i (by omega)
  have := hle i (by omega)
  omega

/-! ## Loading -/

theorem getD_toNat (b : Bytes) (k : Nat) : (b.getD k 0).toNat = leNat b / 256 ^ k % 256 := by
  induction b generalizing k with
  | nil => simp [leNat]
  | cons x b ih =>
    have hx : x.toNat < 256 := x.toNat_lt
    cases k with
    | zero =>
      simp only [List.getD_cons_zero, leNat, pow_zero, Nat.div_one]
      omega
    | succ k =>
      rw [List.getD_cons_succ, ih, leNat, pow_succ, Nat.mul_comm (256 ^ k), ← Nat.div_div_eq_div_mul,
        Nat.add_mul_div_left _ _ (by norm_num), Nat.div_eq_of_lt hx, Nat.zero_add]

theorem or_shift (a b k : Nat) (h : a < 2 ^ k) : a ||| b <<< k = a + 2 ^ k * b := by
  rw [Nat.or_comm, Nat.shiftLeft_eq, Nat.mul_comm b, ← Nat.two_pow_add_eq_or_of_lt h]
  ring

theorem load3_eq (b : Bytes) (k : Nat) : load3 b k = leNat b / 256 ^ k % 2 ^ 24 := by
  unfold load3
  have h0 := getD_toNat b k
  have h1 := getD_toNat b (k + 1)
  have h2 := getD_toNat b (k + 2)
  rw [h0, h1, h2, or_shift _ _ 8 (by omega), or_shift _ _ 16 (by omega)]
  rw [pow_add, pow_add, ← Nat.div_div_eq_div_mul, ← Nat.div_div_eq_div_mul]
  generalize leNat b / 256 ^ k = n
  omega

theorem load4_eq (b : Bytes) (k : Nat) : load4 b k = leNat b / 256 ^ k % 2 ^ 32 := by
  unfold load4
  have h0 := getD_toNat b k
  have h1 := getD_toNat b (k + 1)
  have h2 := getD_toNat b (k + 2)
  have h3 := getD_toNat b (k + 3)
  rw [h0, h1, h2, h3, or_shift _ _ 8 (by omega), or_shift _ _ 16 (by omega), or_shift _ _ 24 (by omega)]
  rw [pow_add, pow_add, pow_add, ← Nat.div_div_eq_div_mul, ← Nat.div_div_eq_div_mul,
    ← Nat.div_div_eq_div_mul]
  generalize leNat b / 256 ^ k = n
  omega

end Kyber.Ed
