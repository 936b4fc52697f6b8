/-
Points in projective coordinates over numbers modulo `2^255 - 19`, for facts about the base point
that are evaluated by the kernel: its order and the table of its multiples.
-/
import Verif.Lemmas.Ed.Ge

namespace Kyber.Ed

open Kyber Kyber.ModInt

/-- Projective coordinates, numbers below `P`. -/
structure NPt where
  x : Nat
  y : Nat
  z : Nat
  deriving DecidableEq

/-- `k n`, written such that `n` is evaluated first. -/
def force {α : Type} (n : Nat) (k : Nat → α) : α := Nat.rec (k 0) (fun m _ => k (m + 1)) n

theorem force_eq {α : Type} (n : Nat) (k : Nat → α) : force n k = k n := by
  cases n <;> rfl

def mk3 (x y z : Nat) : NPt := force (x % P) fun a => force (y % P) fun b => force (z % P) fun c => ⟨a, b, c⟩

/-- Addition of points. -/
def nAdd (p q : NPt) : NPt :=
  force (p.z * q.z % P) fun a =>
  force (dN * (p.x * q.x % P) % P * (p.y * q.y % P) % P) fun e =>
  force ((a * a + (P - e)) % P) fun f =>
  force ((a * a + e) % P) fun g =>
  mk3 (a * f * (p.x * q.y + q.x * p.y)) (a * g * (p.y * q.y + p.x * q.x)) (f * g)

/-- Multiples by the `f` low bits of a number. -/
def nMul : Nat → Nat → NPt → NPt
  | 0, _, _ => ⟨0, 1, 1⟩
  | f + 1, k, p =>
    let q := nMul f (k / 2) p
    let q2 := nAdd q q
    if k % 2 = 1 then nAdd q2 p else q2

structure NPt.Rep (s : NPt) (p : EdPt) : Prop where
  z : (s.z : Fp) ≠ 0
  hx : (s.x : Fp) = p.x * s.z
  hy : (s.y : Fp) = p.y * s.z

theorem cast_mod (n : Nat) : ((n % P : Nat) : Fp) = n := ZMod.natCast_mod n P

theorem nAdd_rep {s u : NPt} {p q : EdPt} (h : s.Rep p) (g : u.Rep q) : (nAdd s u).Rep (p + q) := by
  have dp := den_plus p.on q.on
  have dm := den_minus p.on q.on
  have ax := add_x_mul p q
  have ay := add_y_mul p q
  have hz := mul_ne_zero h.z g.z
  have hle : dN * (s.x * u.x % P) % P * (s.y * u.y % P) % P ≤ P := (Nat.mod_lt _ (by decide)).le
  have eF : (((s.z * u.z % P * (s.z * u.z % P) + (P - dN * (s.x * u.x % P) % P * (s.y * u.y % P) % P)) % P : Nat) : Fp)
      = (1 - dC * p.x * q.x * p.y * q.y) * ((s.z : Fp) * u.z) ^ 2 := by
    rw [cast_mod, Nat.cast_add, Nat.cast_sub hle, ZMod.natCast_self]
    simp only [Nat.cast_mul, cast_mod, h.hx, h.hy, g.hx, g.hy, show (dN : Fp) = dC from rfl]
    ring
  have eG : (((s.z * u.z % P * (s.z * u.z % P) + dN * (s.x * u.x % P) % P * (s.y * u.y % P) % P) % P : Nat) : Fp)
      = (1 + dC * p.x * q.x * p.y * q.y) * ((s.z : Fp) * u.z) ^ 2 := by
    rw [cast_mod, Nat.cast_add]
    simp only [Nat.cast_mul, cast_mod, h.hx, h.hy, g.hx, g.hy, show (dN : Fp) = dC from rfl]
    ring
  have ez : ((nAdd s u).z : Fp) = (1 - dC * p.x * q.x * p.y * q.y) * (1 + dC * p.x * q.x * p.y * q.y) *
      ((s.z : Fp) * u.z) ^ 4 := by
    simp only [nAdd, mk3, force_eq]
    rw [cast_mod, Nat.cast_mul, eF, eG]
    ring
  refine ⟨?_, ?_, ?_⟩
  · rw [ez]
    exact mul_ne_zero (mul_ne_zero dm dp) (pow_ne_zero _ hz)
  · rw [ez]
    simp only [nAdd, mk3, force_eq]
    rw [cast_mod, Nat.cast_mul, Nat.cast_mul, eF]
    simp only [Nat.cast_mul, Nat.cast_add, cast_mod, h.hx, h.hy, g.hx, g.hy]
    linear_combination -(1 - dC * p.x * q.x * p.y * q.y) * ((s.z : Fp) * u.z) ^ 4 * ax
  · rw [ez]
    simp only [nAdd, mk3, force_eq]
    rw [cast_mod, Nat.cast_mul, Nat.cast_mul, eG]
    simp only [Nat.cast_mul, Nat.cast_add, cast_mod, h.hx, h.hy, g.hx, g.hy]
    linear_combination -(1 + dC * p.x * q.x * p.y * q.y) * ((s.z : Fp) * u.z) ^ 4 * ay

theorem nZero_rep : (⟨0, 1, 1⟩ : NPt).Rep 0 := by
  refine ⟨?_, ?_, ?_⟩ <;> simp [zero_x, zero_y]

theorem nMul_rep {s : NPt} {p : EdPt} (h : s.Rep p) (f k : Nat) (hk : k < 2 ^ f) : (nMul f k s).Rep (k • p) := by
  induction f generalizing k with
  | zero =>
    have : k = 0 := by simpa using hk
    rw [this, zero_smul]
    exact nZero_rep
  | succ f ih =>
    have h2 := ih (k / 2) (by rw [pow_succ] at hk; omega)
    have h3 := nAdd_rep h2 h2
    simp only [nMul]
    split
    next h1 =>
      have := nAdd_rep h3 h
      convert this using 1
      conv_lhs => rw [show k = k / 2 + k / 2 + 1 by omega]
      rw [add_smul, add_smul, one_smul]
    next h1 =>
      convert h3 using 1
      conv_lhs => rw [show k = k / 2 + k / 2 by omega]
      rw [add_smul]

/-- Two representations give the same point when they agree up to the factor `z`. -/
theorem NPt.Rep.eq {s u : NPt} {p q : EdPt} (h : s.Rep p) (g : u.Rep q)
    (hx : s.x * u.z % P = u.x * s.z % P) (hy : s.y * u.z % P = u.y * s.z % P) : p = q := by
  have ex : ((s.x * u.z : Nat) : Fp) = ((u.x * s.z : Nat) : Fp) := by
    rw [ZMod.natCast_eq_natCast_iff']; exact hx
  have ey : ((s.y * u.z : Nat) : Fp) = ((u.y * s.z : Nat) : Fp) := by
    rw [ZMod.natCast_eq_natCast_iff']; exact hy
  rw [Nat.cast_mul, Nat.cast_mul, h.hx, g.hx] at ex
  rw [Nat.cast_mul, Nat.cast_mul, h.hy, g.hy] at ey
  have hz := mul_ne_zero h.z g.z
  ext
  · apply mul_right_cancel₀ hz
    linear_combination ex
  · apply mul_right_cancel₀ hz
    linear_combination ey

theorem NPt.Rep.eq_zero_iff {s : NPt} {p : EdPt} (h : s.Rep p) :
    p = 0 ↔ s.x % P = 0 ∧ s.y % P = s.z % P := by
  constructor
  · intro h0
    have hx := h.hx
    have hy := h.hy
    rw [h0, zero_x, zero_mul, ZMod.natCast_eq_zero_iff] at hx
    rw [h0, zero_y, one_mul, ZMod.natCast_eq_natCast_iff'] at hy
    exact ⟨Nat.mod_eq_zero_of_dvd hx, hy⟩
  · rintro ⟨hx, hy⟩
    apply h.eq nZero_rep
    · simpa using hx
    · simpa using hy

/-! ## The base point -/

/-- The coordinates of the base point: `y = 4/5` and `x` even. -/
def bN : NPt :=
  ⟨15112221349535400772501151409588531511454012693041857206046113283949847762202,
   46316835694926478169428394003475163141307993866256225615783033603165251855960, 1⟩

theorem basePt_on : On dC (bN.x : Fp) (bN.y : Fp) := by
  have h : ((bN.y ^ 2 : Nat) : Fp) = ((1 + dN * bN.x ^ 2 * bN.y ^ 2 + bN.x ^ 2 : Nat) : Fp) := by
    rw [ZMod.natCast_eq_natCast_iff']
    decide +kernel
  simp only [Nat.cast_add, Nat.cast_mul, Nat.cast_pow, Nat.cast_one, show (dN : Fp) = dC from rfl] at h
  unfold On
  linear_combination h

/-- The base point. -/
def basePt : EdPt := ⟨bN.x, bN.y, basePt_on⟩

theorem bN_rep : bN.Rep basePt := by
  refine ⟨?_, ?_, ?_⟩ <;> simp [bN, basePt]

theorem basePt_y : 5 * basePt.y = 4 := by
  have h : ((5 * bN.y : Nat) : Fp) = ((4 : Nat) : Fp) := by
    rw [ZMod.natCast_eq_natCast_iff']
    decide +kernel
  rw [Nat.cast_mul, Nat.cast_ofNat, Nat.cast_ofNat] at h
  exact h

theorem basePt_x : basePt.x.val % 2 = 0 := by
  show (bN.x : Fp).val % 2 = 0
  rw [ZMod.val_natCast]
  decide +kernel

theorem eq_of_check {f g h : Fe} (hc : (feInt f - feInt g * feInt h) % (P : Int) = 0) : feVal f = feVal g * feVal h := by
  rw [feVal_eq, feVal_eq g, feVal_eq h, ← Int.cast_mul, ← sub_eq_zero, ← Int.cast_sub]
  exact (ZMod.intCast_zmod_eq_zero_iff_dvd _ _).2 (Int.dvd_of_emod_eq_zero hc)

theorem baseExt_rep : baseExt.Rep basePt := by
  have ez := feVal_eq baseExt.z
  have cst : ∀ {f : Fe} {n : Nat}, (feInt f - n * feInt baseExt.z) % (P : Int) = 0 →
      feVal f = (n : Fp) * feVal baseExt.z := by
    intro f n h
    rw [feVal_of_check (n := n * feInt baseExt.z) h, ez]
    push_cast
    rfl
  refine ⟨tight_of_check (by decide), tight_of_check (by decide), tight_of_check (by decide),
    tight_of_check (by decide), ?_, cst (by decide +kernel), cst (by decide +kernel), ?_⟩
  · rw [feVal_eq]
    intro h
    have := (ZMod.intCast_zmod_eq_zero_iff_dvd _ _).1 h
    revert this
    decide +kernel
  · have := cst (f := baseExt.t) (n := bN.x * bN.y) (by decide +kernel)
    rw [Nat.cast_mul] at this
    exact this

/-! ## The table -/

/-- `z (y+x)`, `z (y-x)`, `z^2 2dxy` agree with the entry. -/
def checkPre (q : NPt) (e : Pre) : Bool :=
  ((feInt e.yPlusX * q.z - (q.y + q.x)) % (P : Int) == 0) &&
  ((feInt e.yMinusX * q.z - (q.y - q.x)) % (P : Int) == 0) &&
  ((feInt e.xy2d * q.z * q.z - 2 * dN * q.x * q.y) % (P : Int) == 0) &&
  [e.yPlusX, e.yMinusX, e.xy2d].all (fun f => f.length == 10 && (List.range 10).all
    (fun i => decide (|limb f i| ≤ tightA.getD i 0)))

theorem band_left {a b : Bool} (h : (a && b) = true) : a = true := by cases a <;> simp_all
theorem band_right {a b : Bool} (h : (a && b) = true) : b = true := by cases a <;> simp_all

theorem cast_of_check {a b : Int} (h : ((a - b) % (P : Int) == 0) = true) : (a : Fp) = b := by
  rw [← sub_eq_zero, ← Int.cast_sub]
  exact (ZMod.intCast_zmod_eq_zero_iff_dvd _ _).2 (Int.dvd_of_emod_eq_zero (by simpa using h))

theorem checkPre_rep {q : NPt} {e : Pre} {p : EdPt} (h : q.Rep p) (hc : checkPre q e = true) : e.Rep p := by
  unfold checkPre at hc
  simp only [Bool.and_eq_true] at hc
  obtain ⟨⟨⟨c1, c2⟩, c3⟩, c4⟩ := hc
  simp only [List.all_cons, List.all_nil, Bool.and_true] at c4
  have d1 := cast_of_check c1
  have d2 := cast_of_check c2
  have d3 := cast_of_check c3
  simp only [Int.cast_mul, Int.cast_add, Int.cast_sub, Int.cast_natCast, Int.cast_ofNat, ← feVal_eq] at d1 d2 d3
  rw [h.hx, h.hy] at d1 d2 d3
  refine ⟨tight_of_check (band_left c4), tight_of_check (band_left (band_right c4)),
    tight_of_check (band_right (band_right c4)), ?_, ?_, ?_⟩
  · apply mul_right_cancel₀ h.z; linear_combination d1
  · apply mul_right_cancel₀ h.z; linear_combination d2
  · apply mul_right_cancel₀ (mul_ne_zero h.z h.z)
    rw [show (dN : Fp) = dC from rfl] at d3
    linear_combination d3

def checkRow (q0 : NPt) : NPt → List Pre → Bool
  | _, [] => true
  | q, e :: es => checkPre q e && checkRow q0 (nAdd q q0) es

theorem checkRow_rep {q0 : NPt} {p : EdPt} (h0 : q0.Rep p) (row : List Pre) (q : NPt) (k : Nat)
    (hq : q.Rep (k • p)) (hc : checkRow q0 q row = true) :
    ∀ i < row.length, (row.getD i preZero).Rep ((k + i) • p) := by
  induction row generalizing q k with
  | nil => intro i hi; simp at hi
  | cons e es ih =>
    simp only [checkRow, Bool.and_eq_true] at hc
    intro i hi
    cases i with
    | zero => exact checkPre_rep hq hc.1
    | succ i =>
      have h1 : (nAdd q q0).Rep ((k + 1) • p) := by
        rw [add_smul, one_smul]
        exact nAdd_rep hq h0
      have := ih _ (k + 1) h1 hc.2 i (by simpa using hi)
      rw [List.getD_cons_succ, show k + (i + 1) = k + 1 + i by omega]
      exact this

def checkTable : NPt → List (List Pre) → Bool
  | _, [] => true
  | q, row :: rows => (row.length == 8) && checkRow q q row && checkTable (nMul 9 256 q) rows

theorem checkTable_rep {q : NPt} {p : EdPt} (h : q.Rep p) (tbl : List (List Pre)) (hc : checkTable q tbl = true) :
    ∀ r < tbl.length, ∀ i < 8, ((tbl.getD r []).getD i preZero).Rep ((i + 1) • (256 ^ r • p)) := by
  induction tbl generalizing q p with
  | nil => intro r hr; simp at hr
  | cons row rows ih =>
    simp only [checkTable, Bool.and_eq_true, beq_iff_eq] at hc
    intro r hr i hi
    cases r with
    | zero =>
      have := checkRow_rep h row q 1 (by rw [one_smul]; exact h) hc.1.2 i (by omega)
      rw [pow_zero, one_smul, add_comm i 1]
      exact this
    | succ r =>
      have := ih (nMul_rep h 9 256 (by decide)) hc.2 r (by simpa using hr) i hi
      rw [← mul_smul (256 ^ r), ← pow_succ] at this
      exact this

theorem checkTable_base : checkTable bN base = true := by decide +kernel

/-- The entry `BASE[r][i]` is `(i + 1) 256^r B`. -/
theorem base_rep (r : Nat) (hr : r < 32) (i : Nat) (hi : i < 8) :
    ((base.getD r []).getD i preZero).Rep ((i + 1) • (256 ^ r • basePt)) :=
  checkTable_rep bN_rep base checkTable_base r hr i hi

end Kyber.Ed
