/-
Signed digits of a scalar, and multiplication of points by scalars.
-/
import Verif.Lemmas.Ed.Num

namespace Kyber.Ed

open Kyber Kyber.ModInt

/-- The number with the given digits to base 16. -/
def val16 : List Int → Int
  | [] => 0
  | x :: xs => x + 16 * val16 xs

theorem val16_append (a b : List Int) : val16 (a ++ b) = val16 a + 16 ^ a.length * val16 b := by
  induction a with
  | nil => simp [val16]
  | cons x xs ih =>
    rw [List.cons_append, val16, val16, ih, List.length_cons, pow_succ]
    ring

theorem nibble_val (v : UInt8) :
    ((v &&& 15).toNat : Int) = (v.toNat % 16 : Nat) ∧ (((v >>> 4) &&& 15).toNat : Int) = (v.toNat / 16 : Nat) := by
  have h : ∀ n < 256, (((UInt8.ofNat n) &&& 15).toNat : Int) = ((UInt8.ofNat n).toNat % 16 : Nat) ∧
      ((((UInt8.ofNat n) >>> 4) &&& 15).toNat : Int) = ((UInt8.ofNat n).toNat / 16 : Nat) := by decide +kernel
  have := h v.toNat v.toNat_lt
  rwa [UInt8.ofNat_toNat] at this

theorem nibbles_cons (v : UInt8) (a : Bytes) :
    nibbles (v :: a) = ((v.toNat % 16 : Nat) : Int) :: ((v.toNat / 16 : Nat) : Int) :: nibbles a := by
  unfold nibbles
  rw [List.flatMap_cons, (nibble_val v).1, (nibble_val v).2]
  rfl

theorem length_nibbles (a : Bytes) : (nibbles a).length = 2 * a.length := by
  induction a with
  | nil => rfl
  | cons v a ih => rw [nibbles_cons, List.length_cons, List.length_cons, ih, List.length_cons]; ring

theorem val16_nibbles (a : Bytes) : val16 (nibbles a) = leNat a := by
  induction a with
  | nil => rfl
  | cons v a ih =>
    rw [nibbles_cons, val16, val16, ih, leNat]
    push_cast
    omega

theorem nibbles_range (a : Bytes) : ∀ x ∈ nibbles a, 0 ≤ x ∧ x ≤ 15 := by
  induction a with
  | nil => intro x hx; simp [nibbles] at hx
  | cons v a ih =>
    intro x hx
    rw [nibbles_cons] at hx
    have := v.toNat_lt
    rcases List.mem_cons.1 hx with h | h
    · omega
    · rcases List.mem_cons.1 h with h | h
      · omega
      · exact ih x h

theorem wrap8_of {x : Int} (h1 : -128 ≤ x) (h2 : x < 128) : wrap 8 x = x := by
  unfold wrap
  apply Int.bmod_eq_of_le <;> omega

theorem length_recode (c : Int) (l : List Int) : (recode c l).length = l.length := by
  induction l generalizing c with
  | nil => rfl
  | cons x xs ih =>
    cases xs with
    | nil => rfl
    | cons y ys =>
      simp only [recode, List.length_cons] at ih ⊢
      rw [ih]

/-- The recoded digits have the same value; all but the top one lie between -8 and 7, and the top one
is the nibble or one more. -/
theorem recode_spec (l : List Int) (hl : ∀ x ∈ l, 0 ≤ x ∧ x ≤ 15) (c : Int) (hc : c = 0 ∨ c = 1)
    (hne : l ≠ []) :
    val16 (recode c l) = val16 l + c ∧
      (∀ i, i + 1 < l.length → -8 ≤ (recode c l).getD i 0 ∧ (recode c l).getD i 0 ≤ 7) ∧
      (recode c l).getD (l.length - 1) 0 - l.getD (l.length - 1) 0 ∈ ({0, 1} : Set Int) := by
  induction l generalizing c with
  | nil => exact absurd rfl hne
  | cons x xs ih =>
    have hx := hl x List.mem_cons_self
    cases xs with
    | nil =>
      rw [recode, wrap8_of (by omega) (by omega)]
      refine ⟨by simp only [val16]; ring, ?_, ?_⟩
      · intro i hi
        simp at hi
      · rcases hc with rfl | rfl <;> simp
    | cons y ys =>
      have ih := ih (fun z hz => hl z (List.mem_cons_of_mem _ hz))
      rw [recode]
      rw [wrap8_of (x := x + c) (by omega) (by omega), wrap8_of (x := x + c + 8) (by omega) (by omega)]
      have hs : sar (x + c + 8) 4 = 0 ∧ x + c ≤ 7 ∨ sar (x + c + 8) 4 = 1 ∧ 8 ≤ x + c := by
        unfold sar
        omega
      generalize sar (x + c + 8) 4 = s at hs ⊢
      rw [wrap8_of (x := s * 2 ^ 4) (by omega) (by omega), wrap8_of (by omega) (by omega)]
      obtain ⟨i1, i2, i3⟩ := ih s (by omega) (by simp)
      refine ⟨?_, ?_, ?_⟩
      · show x + c - s * 2 ^ 4 + 16 * val16 (recode s (y :: ys)) = x + 16 * val16 (y :: ys) + c
        rw [i1]
        ring
      · intro i hi
        cases i with
        | zero =>
          rw [List.getD_cons_zero]
          omega
        | succ i =>
          rw [List.getD_cons_succ]
          exact i2 i (by simpa using hi)
      · simp only [List.length_cons, Nat.add_sub_cancel] at i3 ⊢
        rw [List.getD_cons_succ, List.getD_cons_succ]
        exact i3

theorem length_digits (a : Bytes) : (digits a).length = 2 * a.length := by
  unfold digits
  rw [length_recode, length_nibbles]

theorem nibbles_ne {a : Bytes} (ha : a.length = 32) : nibbles a ≠ [] := by
  intro h
  have := congrArg List.length h
  rw [length_nibbles, ha] at this
  simp at this

theorem val16_digits {a : Bytes} (ha : a.length = 32) : val16 (digits a) = leNat a := by
  unfold digits
  rw [(recode_spec _ (nibbles_range a) 0 (Or.inl rfl) (nibbles_ne ha)).1, val16_nibbles, add_zero]

theorem split_last {a : Bytes} (ha : a.length = 32) : ∃ i v, a = i ++ [v] ∧ i.length = 31 := by
  rcases List.eq_nil_or_concat a with h | ⟨i, v, h⟩
  · rw [h] at ha; simp at ha
  · rw [List.concat_eq_append] at h
    exact ⟨i, v, h, by rw [h] at ha; simpa using ha⟩

theorem leNat_top {a : Bytes} (ha : a.length = 32) : (leNat a < 2 ^ 255) ↔ (a.getD 31 0).toNat < 128 := by
  obtain ⟨i, v, rfl, hi⟩ := split_last ha
  rw [leNat_append, hi, List.getD_eq_getElem?_getD, List.getElem?_append_right (by omega), hi]
  have h1 := leNat_lt i
  rw [hi] at h1
  simp only [leNat, Nat.sub_self, List.getElem?_cons_zero, Option.getD_some, Nat.mul_zero, Nat.add_zero]
  omega

theorem nibbles_top {a : Bytes} (ha : a.length = 32) : (nibbles a).getD 63 0 = ((a.getD 31 0).toNat / 16 : Nat) := by
  obtain ⟨i, v, rfl, hi⟩ := split_last ha
  unfold nibbles
  rw [List.flatMap_append, List.flatMap_singleton, (nibble_val v).2, List.getD_eq_getElem?_getD, List.getD_eq_getElem?_getD,
    List.getElem?_append_right (by have := length_nibbles i; unfold nibbles at this; omega),
    List.getElem?_append_right (by omega), hi]
  have := length_nibbles i
  unfold nibbles at this
  rw [this, hi]
  rfl

/-- All digits but the top one. -/
theorem digits_low {a : Bytes} (ha : a.length = 32) (i : Nat) (hi : i < 63) :
    -8 ≤ (digits a).getD i 0 ∧ (digits a).getD i 0 ≤ 7 := by
  have hn : (nibbles a).length = 64 := by rw [length_nibbles, ha]
  exact (recode_spec _ (nibbles_range a) 0 (Or.inl rfl) (nibbles_ne ha)).2.1 i (by omega)

/-- The top digit. -/
theorem digits_top {a : Bytes} (ha : a.length = 32) :
    (digits a).getD 63 0 = ((a.getD 31 0).toNat / 16 : Nat) ∨ (digits a).getD 63 0 = ((a.getD 31 0).toNat / 16 : Nat) + 1 := by
  have hn : (nibbles a).length = 64 := by rw [length_nibbles, ha]
  have h := (recode_spec _ (nibbles_range a) 0 (Or.inl rfl) (nibbles_ne ha)).2.2
  rw [hn, show 64 - 1 = 63 from rfl, nibbles_top ha] at h
  rcases h with h | h
  · left; unfold digits; omega
  · right; unfold digits; rw [Set.mem_singleton_iff] at h; omega

theorem digits_top_range {a : Bytes} (ha : a.length = 32) :
    0 ≤ (digits a).getD 63 0 ∧ (digits a).getD 63 0 ≤ 16 := by
  have := (a.getD 31 0).toNat_lt
  rcases digits_top ha with h | h <;> omega

theorem digits_range {a : Bytes} (ha : a.length = 32) (h : leNat a < 2 ^ 255) (i : Nat) :
    -8 ≤ (digits a).getD i 0 ∧ (digits a).getD i 0 ≤ 8 := by
  rw [leNat_top ha] at h
  by_cases h1 : i < 63
  · have := digits_low ha i h1
    omega
  · by_cases h2 : i = 63
    · rw [h2]
      rcases digits_top ha with h | h <;> omega
    · rw [List.getD_eq_getElem?_getD, List.getElem?_eq_none (by rw [length_digits]; omega)]
      simp

/-! ## The generic routine -/

theorem Comp.Rep.congr {c : Comp} {p q : EdPt} (h : c.Rep p) (e : p = q) : c.Rep q := e ▸ h
theorem Ext.Rep.congr {c : Ext} {p q : EdPt} (h : c.Rep p) (e : p = q) : c.Rep q := e ▸ h

theorem multiples_rep {s : Ext} {p : EdPt} (h : s.Rep p) (n : Nat) (c : Cached) (k : Nat) (hc : c.Rep (k • p)) :
    ∀ i < n + 1, ((multiples s n c).getD i cachedZero).Rep ((k + i) • p) := by
  induction n generalizing c k with
  | zero =>
    intro i hi
    rw [show i = 0 by omega]
    exact hc
  | succ n ih =>
    intro i hi
    rw [multiples]
    cases i with
    | zero => exact hc
    | succ i =>
      have h1 : (compAdd s c).toExt.toCached.Rep ((k + 1) • p) := by
        rw [add_smul, one_smul, add_comm]
        exact (compAdd_rep h hc).toExt.toCached
      have := ih _ (k + 1) h1 i (by omega)
      rw [List.getD_cons_succ, show k + (i + 1) = k + 1 + i by omega]
      exact this

theorem multRound_rep {ai : List Cached} {p : EdPt} (hai : ∀ i < 8, (ai.getD i cachedZero).Rep ((i + 1) • p))
    {t : Comp} {m : Int} (ht : t.Rep (m • p)) (d : Int) (h1 : -8 ≤ d) (h2 : d ≤ 8) :
    (multRound ai t d).Rep ((d + 16 * m) • p) := by
  have h := compAdd_rep ht.toProj.double.toProj.double.toProj.double.toProj.double.toExt (selectCached_rep hai d h1 h2)
  refine h.congr ?_
  rw [← add_smul, ← add_smul, ← add_smul, ← add_smul, ← add_smul]
  congr 1
  ring

theorem multLoop_rep {ai : List Cached} {p : EdPt} (hai : ∀ i < 8, (ai.getD i cachedZero).Rep ((i + 1) • p))
    (ds : List Int) (hd : ∀ d ∈ ds, -8 ≤ d ∧ d ≤ 8) {t : Comp} {m : Int} (ht : t.Rep (m • p)) :
    (ds.reverse.foldl (multRound ai) t).Rep ((val16 ds + 16 ^ ds.length * m) • p) := by
  induction ds with
  | nil => simpa [val16] using ht
  | cons d ds ih =>
    have ih := ih (fun x hx => hd x (List.mem_cons_of_mem _ hx))
    have hx := hd d List.mem_cons_self
    rw [List.reverse_cons, List.foldl_append]
    refine (multRound_rep hai ih d hx.1 hx.2).congr ?_
    congr 1
    rw [val16, List.length_cons, pow_succ]
    ring

theorem map_getD_range (e : List Int) (n : Nat) (h : n ≤ e.length) : (List.range n).map (fun i => e.getD i 0) = e.take n := by
  apply List.ext_getElem?
  intro i
  by_cases hi : i < n
  · rw [List.getElem?_map, List.getElem?_range hi, List.getElem?_take_of_lt hi, Option.map_some,
      List.getD_eq_getElem?_getD, List.getElem?_eq_getElem (by omega)]
    rfl
  · rw [List.getElem?_eq_none (by simp; omega), List.getElem?_eq_none (by simp; omega)]

/-- The multiplication for an arbitrary string of 32 bytes: a top digit above 8 is lost. -/
theorem scalarMult_gen {s : Ext} {p : EdPt} (h : s.Rep p) {a : Bytes} (ha : a.length = 32) :
    (scalarMult a s).Rep
      (((leNat a : Int) - (if (digits a).getD 63 0 ≤ 8 then 0 else 16 ^ 63 * (digits a).getD 63 0)) • p) := by
  have hai : ∀ i < 8, ((multiples s 7 s.toCached).getD i cachedZero).Rep ((i + 1) • p) := by
    intro i hi
    rw [add_comm i 1]
    exact multiples_rep h 7 _ 1 (by rw [one_smul]; exact h.toCached) i hi
  have hlen : (digits a).length = 64 := by rw [length_digits, ha]
  have h0 := digits_top_range ha
  have ht : (compAdd extZero (selectCached (multiples s 7 s.toCached) ((digits a).getD 63 0))).Rep
      ((if (digits a).getD 63 0 ≤ 8 then (digits a).getD 63 0 else 0) • p) := by
    have := compAdd_rep extZero_rep (selectCached_gen hai ((digits a).getD 63 0) (by omega) (by omega))
    rwa [zero_add] at this
  have hl := multLoop_rep hai ((digits a).take 63) (fun d hd => by
    obtain ⟨i, hi, rfl⟩ := List.getElem_of_mem hd
    have hr := digits_low ha i (by simp at hi; omega)
    rw [List.getElem_take]
    rw [List.getD_eq_getElem?_getD, List.getElem?_eq_getElem (by simp at hi; omega), Option.getD_some] at hr
    omega) ht
  have e1 : (digits a).take 63 ++ [(digits a).getD 63 0] = digits a := by
    conv_rhs => rw [← List.take_append_drop 63 (digits a)]
    congr 1
    rw [List.drop_eq_getElem_cons (by omega), List.drop_eq_nil_of_le (by omega), List.getD_eq_getElem?_getD,
      List.getElem?_eq_getElem (by omega)]
    rfl
  have e2 := val16_append ((digits a).take 63) [(digits a).getD 63 0]
  rw [e1, val16_digits ha] at e2
  have hfin := hl.toExt
  rw [show val16 [(digits a).getD 63 0] = (digits a).getD 63 0 by simp [val16]] at e2
  have e3 : scalarMult a s = (List.foldl (multRound (multiples s 7 s.toCached))
      (compAdd extZero (selectCached (multiples s 7 s.toCached) ((digits a).getD 63 0)))
      ((digits a).take 63).reverse).toExt := by
    unfold scalarMult
    simp only
    rw [← map_getD_range _ _ (by omega), ← List.map_reverse, List.foldl_map]
  rw [e3]
  refine hfin.congr ?_
  congr 1
  rw [e2]
  have hl63 : ((digits a).take 63).length = 63 := by simp [hlen]
  rw [hl63]
  split <;> ring

theorem scalarMult_rep {s : Ext} {p : EdPt} (h : s.Rep p) {a : Bytes} (ha : a.length = 32) (hlt : leNat a < 2 ^ 255) :
    (scalarMult a s).Rep (leNat a • p) := by
  have := scalarMult_gen h ha
  rwa [if_pos (digits_range ha hlt 63).2, sub_zero, natCast_zsmul] at this

/-! ## The routine for the base point -/

theorem baseLoop_rep {a : Bytes} (ha : a.length = 32) (is : List Nat)
    (hi : ∀ i ∈ is, i < 64) {h : Ext} {p : EdPt} (hp : h.Rep p) :
    (is.foldl (baseRound (digits a)) h).Rep
      (p + ((is.map (fun i => (if (digits a).getD i 0 ≤ 8 then (digits a).getD i 0 else 0) * 256 ^ (i / 2))).sum) • basePt) := by
  induction is generalizing h p with
  | nil => simpa using hp
  | cons i is ih =>
    have hlt64 := hi i List.mem_cons_self
    have hr : -8 ≤ (digits a).getD i 0 ∧ (digits a).getD i 0 ≤ 127 := by
      by_cases h63 : i < 63
      · have := digits_low ha i h63
        omega
      · have := digits_top_range ha
        rw [show i = 63 by omega]
        omega
    have hsel := selectPre_gen (fun j hj => base_rep (i / 2) (by omega) j hj) _ hr.1 hr.2
    have h1 := (mixedAdd_rep hp hsel).toExt
    have := ih (fun j hj => hi j (List.mem_cons_of_mem _ hj)) h1
    rw [List.foldl_cons]
    refine this.congr ?_
    rw [List.map_cons, List.sum_cons, add_smul, add_assoc, mul_smul]
    congr 2

theorem digit_sum (f : Nat → Int) (n : Nat) :
    16 * (((List.range (2 * n)).filter (fun i => i % 2 ≠ 0)).map (fun i => f i * 256 ^ (i / 2))).sum +
      (((List.range (2 * n)).filter (fun i => i % 2 = 0)).map (fun i => f i * 256 ^ (i / 2))).sum =
      val16 ((List.range (2 * n)).map f) := by
  induction n with
  | zero => rfl
  | succ n ih =>
    rw [show 2 * (n + 1) = 2 * n + 1 + 1 by ring, List.range_succ, List.range_succ]
    simp only [List.filter_append, List.map_append, List.sum_append, val16_append, List.length_append,
      List.length_map, List.length_range]
    rw [← ih]
    simp only [List.filter_cons, List.filter_nil, show (2 * n) % 2 = 0 by omega, show (2 * n + 1) % 2 = 1 by omega]
    simp only [ne_eq, not_true_eq_false, decide_false, Bool.false_eq_true, if_false, one_ne_zero,
      not_false_eq_true, decide_true, if_true, List.map_cons, List.map_nil, List.sum_cons, List.sum_nil, val16,
      show (2 * n) / 2 = n by omega, show (2 * n + 1) / 2 = n by omega, pow_succ, pow_mul, List.length_cons, List.length_nil]
    norm_num
    ring

theorem scalarMultBase_gen {a : Bytes} (ha : a.length = 32) :
    (scalarMultBase a).Rep
      (((leNat a : Int) - (if (digits a).getD 63 0 ≤ 8 then 0 else 16 ^ 63 * (digits a).getD 63 0)) • basePt) := by
  have h1 := baseLoop_rep ha ((List.range 64).filter (fun i => i % 2 ≠ 0))
    (fun i hi => List.mem_range.1 (List.mem_of_mem_filter hi)) extZero_rep
  have h2 := h1.double.toProj.double.toProj.double.toProj.double.toExt
  have h3 := baseLoop_rep ha ((List.range 64).filter (fun i => i % 2 = 0))
    (fun i hi => List.mem_range.1 (List.mem_of_mem_filter hi)) h2
  have hs := digit_sum (fun i => if (digits a).getD i 0 ≤ 8 then (digits a).getD i 0 else 0) 32
  have e1 : val16 ((List.range (2 * 32)).map (fun i => if (digits a).getD i 0 ≤ 8 then (digits a).getD i 0 else 0)) =
      (leNat a : Int) - (if (digits a).getD 63 0 ≤ 8 then 0 else 16 ^ 63 * (digits a).getD 63 0) := by
    have hd := map_getD_range (digits a) 64 (by rw [length_digits, ha])
    rw [List.take_of_length_le (by rw [length_digits, ha])] at hd
    have hv : (leNat a : Int) = val16 ((List.range (2 * 32)).map (fun i => (digits a).getD i 0)) := by
      rw [show 2 * 32 = 64 from rfl, hd, val16_digits ha]
    rw [hv]
    rw [show 2 * 32 = 63 + 1 from rfl, List.range_succ, List.map_append, List.map_append, val16_append, val16_append]
    have e2 : (List.range 63).map (fun i => if (digits a).getD i 0 ≤ 8 then (digits a).getD i 0 else 0) =
        (List.range 63).map (fun i => (digits a).getD i 0) := by
      apply List.map_congr_left
      intro i hi
      have := digits_low ha i (List.mem_range.1 hi)
      rw [if_pos (by omega)]
    rw [e2]
    simp only [List.map_cons, List.map_nil, val16, List.length_map, List.length_range]
    split <;> ring
  rw [e1] at hs
  refine h3.congr ?_
  rw [zero_add, ← hs, ← add_smul, ← add_smul, ← add_smul, ← add_smul, ← add_smul]
  congr 1
  ring

theorem scalarMultBase_rep {a : Bytes} (ha : a.length = 32) (hlt : leNat a < 2 ^ 255) :
    (scalarMultBase a).Rep (leNat a • basePt) := by
  have := scalarMultBase_gen ha
  rwa [if_pos (digits_range ha hlt 63).2, sub_zero, natCast_zsmul] at this

end Kyber.Ed
