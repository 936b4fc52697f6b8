/-
The digits of `slide`, and multiplication in variable time.
-/
import Verif.Model.Ed.Vartime
import Verif.Lemmas.Ed.Mult

namespace Kyber.Ed

open Kyber Kyber.ModInt

/-- The number with the given digits to base 2. -/
def val2 : List Int → Int
  | [] => 0
  | x :: xs => x + 2 * val2 xs

theorem val2_append (a b : List Int) : val2 (a ++ b) = val2 a + 2 ^ a.length * val2 b := by
  induction a with
  | nil => simp [val2]
  | cons x xs ih =>
    rw [List.cons_append, val2, val2, ih, List.length_cons, pow_succ]
    ring

/-- Zeros and ones. -/
def Bits (l : List Int) : Prop := ∀ x ∈ l, x = 0 ∨ x = 1

theorem Bits.head {x : Int} {l : List Int} (h : Bits (x :: l)) : x = 0 ∨ x = 1 := h x List.mem_cons_self
theorem Bits.tail {x : Int} {l : List Int} (h : Bits (x :: l)) : Bits l := fun y hy => h y (List.mem_cons_of_mem _ hy)
theorem bits_cons {x : Int} {l : List Int} (h : x = 0 ∨ x = 1) (hl : Bits l) : Bits (x :: l) := by
  intro y hy
  rcases List.mem_cons.1 hy with rfl | hy
  · exact h
  · exact hl y hy

theorem bits_limb {l : List Int} (h : Bits l) (i : Nat) : limb l i = 0 ∨ limb l i = 1 := by
  unfold limb
  by_cases hi : i < l.length
  · rw [List.getD_eq_getElem?_getD, List.getElem?_eq_getElem hi]
    exact h _ (List.getElem_mem hi)
  · rw [List.getD_eq_getElem?_getD, List.getElem?_eq_none (by omega)]
    exact Or.inl rfl

theorem val2_bits {l : List Int} (h : Bits l) : 0 ≤ val2 l ∧ val2 l < 2 ^ l.length := by
  induction l with
  | nil => simp [val2]
  | cons x l ih =>
    have := ih h.tail
    have := h.head
    rw [val2, List.length_cons, pow_succ]
    omega

theorem bits8_spec (v : UInt8) : Bits (bits8 v) ∧ (bits8 v).length = 8 ∧ val2 (bits8 v) = v.toNat := by
  have h : ∀ n < 256, (∀ x ∈ bits8 (UInt8.ofNat n), x = 0 ∨ x = 1) ∧ (bits8 (UInt8.ofNat n)).length = 8 ∧
      val2 (bits8 (UInt8.ofNat n)) = (UInt8.ofNat n).toNat := by decide +kernel
  have := h v.toNat v.toNat_lt
  rwa [UInt8.ofNat_toNat] at this

theorem explode_spec (a : Bytes) :
    Bits (explode a) ∧ (explode a).length = 8 * a.length ∧ val2 (explode a) = leNat a := by
  induction a with
  | nil => exact ⟨fun x hx => by simp [explode] at hx, rfl, rfl⟩
  | cons v a ih =>
    obtain ⟨h1, h2, h3⟩ := ih
    obtain ⟨g1, g2, g3⟩ := bits8_spec v
    have e : explode (v :: a) = bits8 v ++ explode a := by unfold explode; rw [List.flatMap_cons]
    rw [e]
    refine ⟨?_, ?_, ?_⟩
    · intro x hx
      rcases List.mem_append.1 hx with hx | hx
      · exact g1 x hx
      · exact h1 x hx
    · rw [List.length_append, g2, h2, List.length_cons]; ring
    · rw [val2_append, g2, g3, h3, leNat]
      push_cast
      ring

theorem length_carryUp (l : List Int) : (carryUp l).length = l.length := by
  induction l with
  | nil => rfl
  | cons x l ih =>
    rw [carryUp]
    split
    · rfl
    · rw [List.length_cons, ih, List.length_cons]

theorem bits_carryUp {l : List Int} (h : Bits l) : Bits (carryUp l) := by
  induction l with
  | nil => exact h
  | cons x l ih =>
    rw [carryUp]
    split
    · exact bits_cons (Or.inr rfl) h.tail
    · exact bits_cons (Or.inl rfl) (ih h.tail)

/-- Adding one, unless all digits are one. -/
theorem val2_carryUp {l : List Int} (h : Bits l) (hv : val2 l + 1 < 2 ^ l.length) : val2 (carryUp l) = val2 l + 1 := by
  induction l with
  | nil => simp [val2] at hv
  | cons x l ih =>
    rw [carryUp, val2]
    rw [val2, List.length_cons, pow_succ] at hv
    rcases h.head with rfl | rfl
    · rw [if_pos rfl, val2]; ring
    · rw [if_neg (by decide), val2, ih h.tail (by omega)]; ring

/-- After four further bits nothing is added to a digit. -/
theorem clump_five {t : List Int} (ht : Bits t) {x : Int} (h1 : -15 ≤ x) (h2 : x ≤ 15) : clump 2 5 x t = (x, t) := by
  rw [clump]
  split
  · rfl
  rcases bits_limb ht 4 with e | e
  · rw [show 5 - 1 = 4 from rfl, if_pos e, clump]
    split
    · rfl
    rcases bits_limb ht 5 with e | e
    · rw [show 5 + 1 - 1 = 5 from rfl, if_pos e, clump]
    · rw [show 5 + 1 - 1 = 5 from rfl, e, if_neg (by decide), show wrap 8 (1 * 2 ^ (5 + 1)) = 64 by decide,
        wrap8_of (by omega) (by omega), wrap8_of (by omega) (by omega), if_neg (by omega), if_neg (by omega)]
  · rw [show 5 - 1 = 4 from rfl, e, if_neg (by decide), show wrap 8 (1 * 2 ^ 5) = 32 by decide,
      wrap8_of (by omega) (by omega), wrap8_of (by omega) (by omega), if_neg (by omega), if_neg (by omega)]

theorem clump_succ (n b : Nat) (x : Int) (t : List Int) : clump (n + 1) b x t =
    if t.length < b then (x, t)
    else if limb t (b - 1) = 0 then clump n (b + 1) x t
    else if wrap 8 (x + wrap 8 (limb t (b - 1) * 2 ^ b)) ≤ 15 then
      clump n (b + 1) (wrap 8 (x + wrap 8 (limb t (b - 1) * 2 ^ b))) (t.set (b - 1) 0)
    else if -15 ≤ wrap 8 (x - wrap 8 (limb t (b - 1) * 2 ^ b)) then
      clump n (b + 1) (wrap 8 (x - wrap 8 (limb t (b - 1) * 2 ^ b)))
        (t.take (b - 1) ++ carryUp (t.drop (b - 1)))
    else (x, t) := rfl

/-- A digit with at least four bits after it. -/
theorem clump_long {b1 b2 b3 b4 : Int} {r : List Int} (h : Bits (b1 :: b2 :: b3 :: b4 :: r)) :
    clump 6 1 1 (b1 :: b2 :: b3 :: b4 :: r) =
      (if b4 = 0 then (1 + 2 * b1 + 4 * b2 + 8 * b3, 0 :: 0 :: 0 :: 0 :: r)
       else (1 + 2 * b1 + 4 * b2 + 8 * b3 - 16, 0 :: 0 :: 0 :: 0 :: carryUp r)) := by
  have z : (0 : Int) = 0 ∨ (0 : Int) = 1 := Or.inl rfl
  have hr := h.tail.tail.tail.tail
  have c1 : Bits (0 :: 0 :: 0 :: 0 :: r) := bits_cons z (bits_cons z (bits_cons z (bits_cons z hr)))
  have c2 : Bits (0 :: 0 :: 0 :: 0 :: carryUp r) :=
    bits_cons z (bits_cons z (bits_cons z (bits_cons z (bits_carryUp hr))))
  have l1 : ¬ r.length + 1 + 1 + 1 + 1 < 1 := by omega
  have l2 : ¬ r.length + 1 + 1 + 1 + 1 < 2 := by omega
  have l3 : ¬ r.length + 1 + 1 + 1 + 1 < 3 := by omega
  have l4 : ¬ r.length + 1 + 1 + 1 + 1 < 4 := by omega
  have e5 : ∀ x : Int, -15 ≤ x → x ≤ 15 → _ := fun x h1 h2 => clump_five (x := x) c1 h1 h2
  have e6 : ∀ x : Int, -15 ≤ x → x ≤ 15 → _ := fun x h1 h2 => clump_five (x := x) c2 h1 h2
  rcases h.head with rfl | rfl <;> rcases h.tail.head with rfl | rfl <;> rcases h.tail.tail.head with rfl | rfl <;>
    rcases h.tail.tail.tail.head with rfl | rfl <;>
    simp [clump_succ 5, clump_succ 4, clump_succ 3, clump_succ 2, limb, wrap, carryUp, e5, e6, l1, l2, l3, l4]

/-- A digit with fewer than four bits after it takes them all. -/
theorem clump_short {t : List Int} (h : Bits t) (hl : t.length < 4) :
    clump 6 1 1 t = (1 + 2 * val2 t, List.replicate t.length 0) := by
  match t, h, hl with
  | [], _, _ => decide
  | [_], h, _ => rcases h.head with rfl | rfl <;> decide
  | [_, _], h, _ => rcases h.head with rfl | rfl <;> rcases h.tail.head with rfl | rfl <;> decide
  | [_, _, _], h, _ =>
    rcases h.head with rfl | rfl <;> rcases h.tail.head with rfl | rfl <;>
      rcases h.tail.tail.head with rfl | rfl <;> decide

theorem bits_zeros (n : Nat) : Bits (List.replicate n 0) := fun _ hx => Or.inl (List.eq_of_mem_replicate hx)

theorem val2_zeros (n : Nat) : val2 (List.replicate n 0) = 0 := by
  induction n with
  | zero => rfl
  | succ n ih => rw [List.replicate_succ, val2, ih]; rfl

/-- One digit. The bound is the one that the remaining entries meet when the scalar is below
`2 ^ 255`; without it the carry may run over the end. -/
theorem clump_spec {t : List Int} (h : Bits t) (hv : 1 + 2 * val2 t ≤ 2 ^ t.length) :
    (clump 6 1 1 t).1 + 2 * val2 (clump 6 1 1 t).2 = 1 + 2 * val2 t ∧
      (-15 ≤ (clump 6 1 1 t).1 ∧ (clump 6 1 1 t).1 ≤ 15 ∧ (clump 6 1 1 t).1 % 2 = 1) ∧
      Bits (clump 6 1 1 t).2 ∧ (clump 6 1 1 t).2.length = t.length ∧
      2 * val2 (clump 6 1 1 t).2 ≤ 2 ^ t.length := by
  by_cases hl : t.length < 4
  · rw [clump_short h hl]
    have := val2_bits h
    have h8 : (2 : Int) ^ t.length ≤ 2 ^ 3 := pow_le_pow_right₀ (by norm_num) (by omega)
    refine ⟨?_, ⟨?_, ?_, ?_⟩, bits_zeros _, by simp, ?_⟩
    · simp only [val2_zeros]; ring
    · simp only; omega
    · simp only; omega
    · simp only; omega
    · simp only [val2_zeros]; positivity
  · match t, h, hv, hl with
    | b1 :: b2 :: b3 :: b4 :: r, h, hv, _ =>
      have hr := h.tail.tail.tail.tail
      have z : (0 : Int) = 0 ∨ (0 : Int) = 1 := Or.inl rfl
      have a1 := h.head
      have a2 := h.tail.head
      have a3 := h.tail.tail.head
      have a4 := h.tail.tail.tail.head
      have b := val2_bits hr
      rw [clump_long h]
      simp only [val2, List.length_cons, pow_succ] at hv ⊢
      split
      · rename_i h0
        refine ⟨?_, ⟨?_, ?_, ?_⟩, bits_cons z (bits_cons z (bits_cons z (bits_cons z hr))), rfl, ?_⟩ <;>
          simp only [val2] <;> omega
      · have h4 : b4 = 1 := by omega
        have hpos : r.length ≠ 0 := by
          intro h0
          rw [h0] at hv b
          simp only [pow_zero] at hv b
          omega
        obtain ⟨k, hk⟩ := Nat.exists_eq_succ_of_ne_zero hpos
        have hc : val2 r + 1 < 2 ^ r.length := by
          rw [hk, pow_succ] at hv b ⊢
          omega
        have hcv := val2_carryUp hr hc
        refine ⟨?_, ⟨?_, ?_, ?_⟩,
          bits_cons z (bits_cons z (bits_cons z (bits_cons z (bits_carryUp hr)))), ?_, ?_⟩ <;>
          simp only [val2, hcv, List.length_cons, length_carryUp] <;> rw [hk, pow_succ] at hv b hc <;>
          (try rw [hk, pow_succ]) <;> omega
    | [], _, _, hl => simp at hl
    | [_], _, _, hl => simp at hl
    | [_, _], _, _, hl => simp at hl
    | [_, _, _], _, _, hl => simp at hl

theorem length_clump (n b : Nat) (x : Int) (t : List Int) : (clump n b x t).2.length = t.length := by
  induction n generalizing b x t with
  | zero => rfl
  | succ n ih =>
    rw [clump]
    split
    · rfl
    split
    · exact ih _ _ _
    split
    · rw [ih, List.length_set]
    split
    · rw [ih, List.length_append, length_carryUp, ← List.length_append, List.take_append_drop]
    · rfl

/-- Whatever the bits are, a digit is odd and small. -/
theorem clump_range {t : List Int} (h : Bits t) :
    (-15 ≤ (clump 6 1 1 t).1 ∧ (clump 6 1 1 t).1 ≤ 15 ∧ (clump 6 1 1 t).1 % 2 = 1) ∧ Bits (clump 6 1 1 t).2 := by
  by_cases hl : t.length < 4
  · rw [clump_short h hl]
    have := val2_bits h
    have h8 : (2 : Int) ^ t.length ≤ 2 ^ 3 := pow_le_pow_right₀ (by norm_num) (by omega)
    refine ⟨⟨?_, ?_, ?_⟩, bits_zeros _⟩ <;> simp only <;> omega
  · match t, h, hl with
    | b1 :: b2 :: b3 :: b4 :: r, h, _ =>
      have hr := h.tail.tail.tail.tail
      have z : (0 : Int) = 0 ∨ (0 : Int) = 1 := Or.inl rfl
      have a1 := h.head
      have a2 := h.tail.head
      have a3 := h.tail.tail.head
      rw [clump_long h]
      split
      · refine ⟨⟨?_, ?_, ?_⟩, bits_cons z (bits_cons z (bits_cons z (bits_cons z hr)))⟩ <;> simp only <;> omega
      · refine ⟨⟨?_, ?_, ?_⟩, bits_cons z (bits_cons z (bits_cons z (bits_cons z (bits_carryUp hr))))⟩ <;>
          simp only <;> omega
    | [], _, hl => simp at hl
    | [_], _, hl => simp at hl
    | [_, _], _, hl => simp at hl
    | [_, _, _], _, hl => simp at hl

/-- What the table of odd multiples has an entry for. -/
def Digit (d : Int) : Prop := d = 0 ∨ (-15 ≤ d ∧ d ≤ 15 ∧ d % 2 = 1)

theorem slideLoop_range (n : Nat) (l : List Int) (h : Bits l) (hn : l.length ≤ n) : ∀ d ∈ slideLoop n l, Digit d := by
  induction n generalizing l with
  | zero =>
    have : l = [] := List.eq_nil_of_length_eq_zero (by omega)
    subst this
    intro d hd
    simp [slideLoop] at hd
  | succ n ih =>
    cases l with
    | nil => intro d hd; simp [slideLoop] at hd
    | cons x t =>
      rw [List.length_cons] at hn
      rw [slideLoop]
      rcases h.head with rfl | rfl
      · rw [if_pos rfl]
        intro d hd
        rcases List.mem_cons.1 hd with rfl | hd
        · exact Or.inl rfl
        · exact ih t h.tail (by omega) d hd
      · rw [if_neg (by decide)]
        obtain ⟨c1, c2⟩ := clump_range h.tail
        intro d hd
        rcases List.mem_cons.1 hd with rfl | hd
        · exact Or.inr c1
        · exact ih _ c2 (by rw [length_clump]; omega) d hd

/-- All digits. -/
theorem slideLoop_spec (n : Nat) (l : List Int) (h : Bits l) (hn : l.length ≤ n) (hv : 2 * val2 l ≤ 2 ^ l.length) :
    val2 (slideLoop n l) = val2 l ∧ (slideLoop n l).length = l.length ∧
      ∀ d ∈ slideLoop n l, Digit d := by
  induction n generalizing l with
  | zero =>
    have : l = [] := List.eq_nil_of_length_eq_zero (by omega)
    subst this
    exact ⟨rfl, rfl, fun d hd => by simp [slideLoop] at hd⟩
  | succ n ih =>
    cases l with
    | nil => exact ⟨rfl, rfl, fun d hd => by simp [slideLoop] at hd⟩
    | cons x t =>
      rw [List.length_cons] at hn
      rw [val2, List.length_cons, pow_succ] at hv
      rw [slideLoop]
      rcases h.head with rfl | rfl
      · rw [if_pos rfl]
        obtain ⟨i1, i2, i3⟩ := ih t h.tail (by omega) (by omega)
        refine ⟨by rw [val2, val2, i1], by rw [List.length_cons, i2, List.length_cons], ?_⟩
        intro d hd
        rcases List.mem_cons.1 hd with rfl | hd
        · exact Or.inl rfl
        · exact i3 d hd
      · rw [if_neg (by decide)]
        obtain ⟨c1, c2, c3, c4, c5⟩ := clump_spec h.tail (by omega)
        obtain ⟨i1, i2, i3⟩ := ih _ c3 (by omega) (by rw [c4]; exact c5)
        refine ⟨by rw [val2, val2, i1, c1], by rw [List.length_cons, i2, c4, List.length_cons], ?_⟩
        intro d hd
        rcases List.mem_cons.1 hd with rfl | hd
        · exact Or.inr c2
        · exact i3 d hd

theorem slide_spec {a : Bytes} (ha : a.length = 32) (hlt : leNat a < 2 ^ 255) :
    val2 (slide a) = leNat a ∧ (slide a).length = 256 ∧
      ∀ d ∈ slide a, Digit d := by
  obtain ⟨h1, h2, h3⟩ := explode_spec a
  rw [ha] at h2
  have := slideLoop_spec 256 (explode a) h1 (by omega) (by
    rw [h3, h2]
    have : ((leNat a : Nat) : Int) < 2 ^ 255 := by exact_mod_cast hlt
    rw [show (2 : Int) ^ (8 * 32) = 2 * 2 ^ 255 by norm_num]
    omega)
  rw [h3, h2] at this
  exact this

/-! ## Multiplication -/

/-- The table of odd multiples. -/
theorem oddMultiples_rep {s : Ext} {p : EdPt} (h : s.Rep p) (n : Nat) (c : Cached) (k : Nat) (hc : c.Rep ((2 * k + 1) • p)) :
    (multiples s.double.toExt n c).length = n + 1 ∧
      ∀ i < n + 1, ∃ e, (multiples s.double.toExt n c)[i]? = some e ∧ e.Rep ((2 * (k + i) + 1) • p) := by
  induction n generalizing c k with
  | zero => exact ⟨rfl, fun i hi => ⟨c, by rw [show i = 0 by omega]; rfl, by rw [show i = 0 by omega]; exact hc⟩⟩
  | succ n ih =>
    have h1 : (compAdd s.double.toExt c).toExt.toCached.Rep ((2 * (k + 1) + 1) • p) := by
      have := (compAdd_rep h.double.toExt hc).toExt.toCached
      rw [show (2 * (k + 1) + 1) • p = p + p + (2 * k + 1) • p by
        rw [← two_nsmul, ← add_smul]; congr 1; ring]
      exact this
    obtain ⟨i1, i2⟩ := ih _ (k + 1) h1
    refine ⟨by rw [multiples, List.length_cons, i1], ?_⟩
    intro i hi
    cases i with
    | zero => exact ⟨c, rfl, hc⟩
    | succ i =>
      obtain ⟨e, e1, e2⟩ := i2 i (by omega)
      refine ⟨e, by rw [multiples, List.getElem?_cons_succ, e1], ?_⟩
      rw [show k + (i + 1) = k + 1 + i by omega]
      exact e2

/-- A digit adds its multiple. -/
theorem varDigit_rep {ai : List Cached} {p q : EdPt} (hai : ∀ i < 8, ∃ e, ai[i]? = some e ∧ e.Rep ((2 * i + 1) • p))
    {t : Comp} {u : Ext} (hu : u.Rep q) {d : Int} (ht : d = 0 → t.Rep q)
    (hd : Digit d) : ∃ r, varDigit ai t u d = .ok r ∧ r.Rep (q + d • p) := by
  unfold varDigit
  unfold Digit at hd
  by_cases hp : 0 < d
  · obtain ⟨e, e1, e2⟩ := hai (d / 2).toNat (by omega)
    refine ⟨compAdd u e, by rw [if_pos hp, e1], (compAdd_rep hu e2).congr ?_⟩
    rw [← natCast_zsmul]
    congr 2
    omega
  · rw [if_neg hp]
    by_cases hn : d < 0
    · obtain ⟨e, e1, e2⟩ := hai (-d / 2).toNat (by omega)
      refine ⟨compSub u e, by rw [if_pos hn, e1], (compSub_rep hu e2).congr ?_⟩
      rw [← natCast_zsmul, sub_eq_add_neg, ← neg_zsmul]
      congr 2
      omega
    · have : d = 0 := by omega
      subst this
      exact ⟨t, by rw [if_neg hn], by rw [zero_smul, add_zero]; exact ht rfl⟩

theorem varLoop_rep {ai : List Cached} {p : EdPt} (hai : ∀ i < 8, ∃ e, ai[i]? = some e ∧ e.Rep ((2 * i + 1) • p))
    (ds : List Int) (hd : ∀ d ∈ ds, Digit d) {t : Comp} {m : Int} (ht : t.Rep (m • p)) :
    ∃ r, varLoop ai ds t = .ok r ∧ r.Rep ((val2 ds.reverse + 2 ^ ds.length * m) • p) := by
  induction ds generalizing t m with
  | nil => exact ⟨t, rfl, by simpa [val2] using ht⟩
  | cons d ds ih =>
    have h2 := ht.toProj.double
    obtain ⟨r, r1, r2⟩ := varDigit_rep hai h2.toExt (fun _ => h2) (hd d List.mem_cons_self)
    have r3 : r.Rep ((2 * m + d) • p) := r2.congr (by rw [← add_smul, ← add_smul]; congr 1; ring)
    obtain ⟨r', q1, q2⟩ := ih (fun x hx => hd x (List.mem_cons_of_mem _ hx)) r3
    refine ⟨r', by rw [varLoop]; simp only [r1]; exact q1, q2.congr ?_⟩
    congr 1
    rw [List.reverse_cons, val2_append, List.length_reverse, List.length_cons, pow_succ]
    simp only [val2]
    ring

theorem val2_dropWhile (l : List Int) :
    val2 (l.dropWhile (fun d => d == 0)).reverse = val2 l.reverse := by
  induction l with
  | nil => rfl
  | cons x l ih =>
    rw [List.dropWhile_cons]
    split
    · rename_i hx
      have : x = 0 := by simpa using hx
      rw [ih, List.reverse_cons, val2_append, this]
      simp [val2]
    · rfl

theorem dropWhile_head {l : List Int} {d : Int} {ds : List Int} (h : l.dropWhile (fun d => d == 0) = d :: ds) : d ≠ 0 := by
  induction l with
  | nil => simp at h
  | cons x l ih =>
    rw [List.dropWhile_cons] at h
    split at h
    · exact ih h
    · rename_i hx
      have : d = x := by injection h with h; exact h.symm
      rw [this]
      simpa using hx

theorem slide_range {a : Bytes} (ha : a.length = 32) : ∀ d ∈ slide a, Digit d := by
  obtain ⟨h1, h2, _⟩ := explode_spec a
  exact slideLoop_range 256 (explode a) h1 (by omega)

/-- The multiplication for an arbitrary string of 32 bytes: by the number that the digits stand for. -/
theorem scalarMultVar_gen {s : Ext} {p : EdPt} (h : s.Rep p) {a : Bytes} (ha : a.length = 32) :
    ∃ r, scalarMultVar a s = .ok r ∧ r.Rep (val2 (slide a) • p) := by
  have v3 := slide_range ha
  have hai : ∀ i < 8, ∃ e, (multiples s.double.toExt 7 s.toCached)[i]? = some e ∧ e.Rep ((2 * i + 1) • p) := by
    intro i hi
    have := (oddMultiples_rep h 7 s.toCached 0 (by rw [mul_zero, zero_add, one_smul]; exact h.toCached)).2 i hi
    rwa [zero_add] at this
  have hw := val2_dropWhile (slide a).reverse
  rw [List.reverse_reverse] at hw
  have hm : ∀ d ∈ (slide a).reverse.dropWhile (fun d => d == 0), Digit d := by
    intro d hd
    exact v3 d (List.mem_reverse.1 ((List.dropWhile_sublist _).subset hd))
  unfold scalarMultVar
  simp only
  have hne : ∀ d ds, (slide a).reverse.dropWhile (fun d => d == 0) = d :: ds → d ≠ 0 := fun d ds h => dropWhile_head h
  generalize (slide a).reverse.dropWhile (fun d => d == 0) = l at hw hm hne ⊢
  rw [← hw]
  cases l with
  | nil => exact ⟨extZero, rfl, by simpa [val2] using extZero_rep⟩
  | cons d ds =>
    obtain ⟨r, r1, r2⟩ := varDigit_rep (t := ⟨feZero, feZero, feZero, feZero⟩) hai extZero_rep
      (fun h => absurd h (hne d ds rfl)) (hm d List.mem_cons_self)
    rw [zero_add] at r2
    obtain ⟨r', q1, q2⟩ := varLoop_rep hai ds (fun x hx => hm x (List.mem_cons_of_mem _ hx)) r2
    refine ⟨r'.toExt, by simp only [r1]; show (do let t ← varLoop _ ds r; Res.ok t.toExt) = _; rw [q1]; rfl, q2.toExt.congr ?_⟩
    congr 1
    rw [List.reverse_cons, val2_append, List.length_reverse]
    simp [val2]

theorem scalarMultVar_rep {s : Ext} {p : EdPt} (h : s.Rep p) {a : Bytes} (ha : a.length = 32) (hlt : leNat a < 2 ^ 255) :
    ∃ r, scalarMultVar a s = .ok r ∧ r.Rep (leNat a • p) := by
  obtain ⟨r, h1, h2⟩ := scalarMultVar_gen h ha
  refine ⟨r, h1, ?_⟩
  rwa [(slide_spec ha hlt).1, natCast_zsmul] at h2

end Kyber.Ed
