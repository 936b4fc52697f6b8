/-
C125: the canonicity and small order tests in a build with overflow checks.
-/
import Verif.Model.Ed.Checked
import Verif.Props.EdSig
import Verif.Lemmas.Ed.Point
import Verif.Lemmas.Ed.ScalarOps

namespace Kyber.Ed

open Kyber Kyber.ModInt Kyber.Schnorr

theorem subChk_one (c : UInt8) :
    subChk c.toUInt16 1 = if c = 0 then .panic else .ok (c.toUInt16 - 1) := by
  unfold subChk
  have h : ∀ n < 256, ((UInt8.ofNat n).toUInt16 < 1 ↔ UInt8.ofNat n = 0) := by decide +kernel
  have := h c.toNat c.toNat_lt
  rw [UInt8.ofNat_toNat] at this
  simp only [this]

theorem weakLoopChk_eq (s : Bytes) (ws : List Bytes) (k : UInt16) :
    weakLoopChk s ws k = if ∃ w ∈ ws, weakDiff s w = 0 then .panic else
      .ok (ws.foldl (fun (k : UInt16) w => k ||| ((weakDiff s w).toUInt16 - 1)) k) := by
  induction ws generalizing k with
  | nil => simp [weakLoopChk]
  | cons w ws ih =>
    rw [weakLoopChk, subChk_one]
    by_cases h : weakDiff s w = 0
    · rw [if_pos h, if_pos ⟨w, by simp, h⟩]; rfl
    · rw [if_neg h, Res.bind_ok, ih]
      simp only [List.mem_cons, exists_eq_or_imp, h, false_or, List.foldl_cons]

theorem hasSmallOrder_iff_diff (p : Ext) :
    hasSmallOrder p = true ↔ ∃ w ∈ weakKeys, weakDiff (ptMarshal p) w = 0 := by
  unfold hasSmallOrder
  simp only
  rw [decide_eq_true_iff, bit8_test, weak_fold]
  have h0 : ((0 : UInt16).toNat.testBit 8 = true) ↔ False := by decide
  rw [h0, false_or]

/-- `has_small_order` never answers `true`: where it would, it panics. -/
theorem C125_small_order (p : Ext) :
    hasSmallOrderChk p = if hasSmallOrder p = true then .panic else .ok false := by
  have h := hasSmallOrder_iff_diff p
  unfold hasSmallOrderChk
  rw [weakLoopChk_eq]
  by_cases hd : ∃ w ∈ weakKeys, weakDiff (ptMarshal p) w = 0
  · rw [if_pos hd, if_pos (h.2 hd)]; rfl
  · rw [if_neg hd, if_neg (fun e => hd (h.1 e)), Res.bind_ok]
    have : hasSmallOrder p = false := by rw [← Bool.not_eq_true]; exact fun e => hd (h.1 e)
    unfold hasSmallOrder at this
    simp only at this
    rw [this]

/-- On a point of the curve it panics exactly for the points of order 1, 2, 4 and 8. -/
theorem C125_small_order_point (s : Ext) (h : s.Valid) :
    hasSmallOrderChk s = .panic ↔ 8 • h.pt = 0 := by
  rw [C125_small_order, ← C54_small_order s h]
  split <;> simp_all

example : hasSmallOrderChk baseExt = .ok false ∧ hasSmallOrderChk extZero = .panic := by
  rw [C125_small_order, C125_small_order, C54_base_null.1, C54_base_null.2]
  exact ⟨rfl, rfl⟩

/-- The bytes that `is_canonical` compares with those of `p`. -/
theorem canonFold_zero {b : Bytes} (hb : b.length = 32) :
    ((List.range 30).map (fun i => 30 - i)).foldl (fun c i => c ||| (b.getD i 0 ^^^ 0xff))
      ((b.getD 31 0 &&& 0x7f) ^^^ 0x7f) = 0 ↔ 2 ^ 255 - 256 ≤ leNat b % 2 ^ 255 := by
  obtain ⟨v, m, w, rfl, hm⟩ := split_ends hb
  have h31 : (v :: (m ++ [w])).getD 31 0 = w := by
    rw [List.getD_cons_succ, List.getD_eq_getElem?_getD, List.getElem?_append_right (by omega), hm]; rfl
  have hmid : ∀ i < 30, (v :: (m ++ [w])).getD (i + 1) 0 = m.getD i 0 := by
    intro i hi
    rw [List.getD_cons_succ, List.getD_eq_getElem?_getD, List.getElem?_append_left (by omega),
      List.getD_eq_getElem?_getD]
  rw [h31]
  have hfold : ∀ c : UInt8, ((List.range 30).map (fun i => 30 - i)).foldl
      (fun c i => c ||| ((v :: (m ++ [w])).getD i 0 ^^^ 0xff)) c = 0 ↔ c = 0 ∧ ∀ x ∈ m, x = 0xff := by
    intro c
    have := foldl_or_zero (((List.range 30).map (fun i => 30 - i)).map (fun i => (v :: (m ++ [w])).getD i 0 ^^^ 0xff)) c
    rw [List.foldl_map] at this
    rw [this]
    constructor
    · rintro ⟨hc, hall⟩
      refine ⟨hc, ?_⟩
      intro x hx
      obtain ⟨i, hi, rfl⟩ := List.getElem_of_mem hx
      have := hall ((v :: (m ++ [w])).getD (i + 1) 0 ^^^ 0xff)
        (List.mem_map_of_mem (List.mem_map.2 ⟨29 - i, by simp; omega, by omega⟩))
      rw [hmid i (by omega), xor_ff, List.getD_eq_getElem?_getD, List.getElem?_eq_getElem hi] at this
      exact this
    · rintro ⟨hc, hall⟩
      refine ⟨hc, ?_⟩
      intro x hx
      obtain ⟨i, hi, rfl⟩ := List.mem_map.1 hx
      obtain ⟨j, hj, rfl⟩ := List.mem_map.1 hi
      have hj' := List.mem_range.1 hj
      rw [show 30 - j = (29 - j) + 1 by omega, hmid _ (by omega), xor_ff]
      rw [List.getD_eq_getElem?_getD, List.getElem?_eq_getElem (by omega)]
      exact hall _ (List.getElem_mem _)
  have hnat : leNat (v :: (m ++ [w])) = v.toNat + 256 * (leNat m + 256 ^ 30 * w.toNat) := by
    rw [leNat, leNat_append, hm, leNat, leNat]; ring
  have hmax := leNat_max m
  rw [hm] at hmax
  have hl := leNat_lt m
  rw [hm] at hl
  have hv := v.toNat_lt
  have hw := w.toNat_lt
  have key : (v.toNat + 256 * (leNat m + 256 ^ 30 * w.toNat)) % 2 ^ 255 =
      v.toNat + 256 * (leNat m + 256 ^ 30 * (w.toNat % 128)) := by
    omega
  rw [hfold, mask_7f w, ← hmax, hnat, key]
  omega

/-- `Point::is_canonical` on 32 bytes never answers `false`: it panics exactly if the bytes, without the
top bit, are one of the 256 numbers from `2^255 - 256` on, 237 of them canonical. -/
theorem C125_point_canonical (b : Bytes) :
    ptIsCanonicalChk b = if b.length ≠ 32 then .ok false
      else if 2 ^ 255 - 256 ≤ leNat b % 2 ^ 255 then .panic else .ok true := by
  unfold ptIsCanonicalChk
  by_cases hb : b.length = 32
  · rw [if_neg (by simp [hb]), if_neg (by simp [hb])]
    simp only
    rw [subChk_one]
    by_cases h : 2 ^ 255 - 256 ≤ leNat b % 2 ^ 255
    · rw [if_pos ((canonFold_zero hb).2 h), if_pos h]; rfl
    · have h0 := fun e => h ((canonFold_zero hb).1 e)
      rw [if_neg h0, if_neg h, Res.bind_ok, canon_c, if_neg h0]
      simp
  · rw [if_pos hb, if_pos hb]

example : ptIsCanonicalChk (leBytes 32 (P - 1)) = .panic ∧ ptIsCanonicalChk (leBytes 32 5) = .ok true ∧
    ptIsCanonicalChk (leBytes 32 (P - 237)) = .panic ∧ ptIsCanonicalChk (leBytes 32 (P - 238)) = .ok true ∧
    ptIsCanonicalChk (leBytes 31 5) = .ok false := by decide +kernel

theorem canonLoopChk_eq (l : List (UInt8 × UInt8)) (n : UInt8) :
    (if ∀ p ∈ l, p.2.toNat < p.1.toNat then ∃ n', canonLoopChk l 0 n = .ok (0, n')
      else canonLoopChk l 0 n = .panic) := by
  induction l generalizing n with
  | nil => simp [canonLoopChk]
  | cons p l ih =>
    obtain ⟨x, y⟩ := p
    have hlt : x.toUInt16 < y.toUInt16 ↔ x.toNat < y.toNat := by
      rw [UInt16.lt_iff_toNat_lt]; simp
    have hx0 : (x.toUInt16 ^^^ y.toUInt16) < 1 ↔ x.toNat = y.toNat := by
      rw [UInt16.lt_iff_toNat_lt, UInt16.toNat_xor]
      simp only [UInt8.toNat_toUInt16]
      rw [show (1 : UInt16).toNat = 1 from rfl, Nat.lt_one_iff]
      constructor
      · intro h0
        have := Nat.xor_assoc x.toNat y.toNat y.toNat
        rw [h0, Nat.zero_xor, Nat.xor_self, Nat.xor_zero] at this
        exact this.symm
      · intro h; rw [h, Nat.xor_self]
    rw [canonLoopChk]
    unfold subChk
    by_cases h1 : x.toNat < y.toNat
    · rw [if_pos (hlt.2 h1), if_neg (fun h => absurd (h (x, y) (by simp)) (by simp; omega))]
      rfl
    · rw [if_neg (fun e => h1 (hlt.1 e)), Res.bind_ok]
      by_cases h2 : x.toNat = y.toNat
      · rw [if_pos (hx0.2 h2), if_neg (fun h => absurd (h (x, y) (by simp)) (by simp; omega))]
        rfl
      · rw [if_neg (fun e => h2 (hx0.1 e)), Res.bind_ok, sub_shift, if_neg h1]
        have e0 : (0 : UInt8) ||| 0 &&& n = 0 := by simp
        rw [e0]
        have := ih (n &&& (((x.toUInt16 ^^^ y.toUInt16) - 1) >>> 8).toUInt8)
        have hc : (∀ p ∈ ((x, y) :: l), p.2.toNat < p.1.toNat) ↔ ∀ p ∈ l, p.2.toNat < p.1.toNat := by
          simp only [List.mem_cons, forall_eq_or_imp]
          exact ⟨fun h => h.2, fun h => ⟨by omega, h⟩⟩
        simp only [hc]
        exact this

theorem top_nibble {sb : Bytes} (hl : sb.length = 32) : sb.getD 31 0 &&& 0xf0 = 0 ↔ leNat sb < 2 ^ 252 := by
  have h15 : ∀ n < 256, (UInt8.ofNat n &&& 0xf0 = 0 ↔ n < 16) := by decide +kernel
  have h16 := h15 (sb.getD 31 0).toNat (UInt8.toNat_lt _)
  rw [UInt8.ofNat_toNat] at h16
  have hsplit : sb = sb.take 31 ++ [sb.getD 31 0] := by
    have h31 : sb.drop 31 = [sb.getD 31 0] := by
      rw [List.drop_eq_getElem_cons (by omega), List.drop_of_length_le (by omega),
        List.getD_eq_getElem?_getD, List.getElem?_eq_getElem (by omega)]
      rfl
    rw [← h31, List.take_append_drop]
  have ht : (sb.take 31).length = 31 := by simp [hl]
  have h1 := leNat_lt (sb.take 31)
  rw [ht] at h1
  have hn : leNat sb = leNat (sb.take 31) + 256 ^ 31 * (sb.getD 31 0).toNat := by
    conv_lhs => rw [hsplit, leNat_append, ht]
    simp [leNat]
  rw [h16, hn]
  norm_num only at h1 ⊢
  omega

/-- `Scalar::is_canonical` on 32 bytes answers `true` below `2^252`. From there on it panics unless each
byte is greater than the byte of the order at its place, in particular for all canonical scalars from
`2^252` on. -/
theorem C125_scalar_canonical (sb : Bytes) :
    scIsCanonicalChk sb = if sb.length ≠ 32 then .ok false
      else if leNat sb < 2 ^ 252 then .ok true
      else if ∀ i : Fin 32, (leBytes 32 L).getD i 0 < sb.getD i 0 then .ok false else .panic := by
  unfold scIsCanonicalChk
  by_cases hb : sb.length = 32
  · rw [if_neg (not_not.2 hb), if_neg (not_not.2 hb)]
    by_cases ht : leNat sb < 2 ^ 252
    · rw [if_pos ((top_nibble hb).2 ht), if_pos ht]
    · rw [if_neg (fun e => ht ((top_nibble hb).1 e)), if_neg ht]
      have hL : toBytesLE L = leBytes 32 L := by decide +kernel
      have hLl : (leBytes 32 L).length = 32 := by simp
      have := canonLoopChk_eq (sb.zip (toBytesLE L)).reverse 1
      have hc : (∀ p ∈ (sb.zip (toBytesLE L)).reverse, p.2.toNat < p.1.toNat) ↔
          ∀ i : Fin 32, (leBytes 32 L).getD i 0 < sb.getD i 0 := by
        rw [hL]
        generalize leBytes 32 L = l at hLl
        constructor
        · rintro h ⟨i, hi⟩
          have := h (sb[i], l[i]) (List.mem_reverse.2 (List.mem_iff_getElem.2 ⟨i, by simp [hb, hLl, hi], by simp⟩))
          rw [List.getD_eq_getElem?_getD, List.getElem?_eq_getElem (by omega), List.getD_eq_getElem?_getD,
            List.getElem?_eq_getElem (by omega)]
          exact UInt8.lt_iff_toNat_lt.2 this
        · intro h p hp
          obtain ⟨i, hi, rfl⟩ := List.mem_iff_getElem.1 (List.mem_reverse.1 hp)
          have hi' : i < 32 := by simp [hb, hLl] at hi; exact hi
          have := h ⟨i, hi'⟩
          simp only at this
          rw [List.getD_eq_getElem?_getD, List.getElem?_eq_getElem (by omega), List.getD_eq_getElem?_getD,
            List.getElem?_eq_getElem (by omega)] at this
          simpa using UInt8.lt_iff_toNat_lt.1 this
      simp only [hc] at this
      split at this
      · rename_i h
        obtain ⟨n', e⟩ := this
        rw [e, if_pos h]; rfl
      · rename_i h
        rw [this, if_neg h]; rfl
  · rw [if_pos hb, if_pos hb]

/-- So every canonical scalar from `2^252` on panics. -/
theorem C125_scalar_canonical_panics (sb : Bytes) (h : scIsCanonical sb = true) (h' : 2 ^ 252 ≤ leNat sb) :
    scIsCanonicalChk sb = .panic := by
  obtain ⟨h1, h2⟩ := (scIsCanonical_iff sb).1 h
  rw [C125_scalar_canonical, if_neg (by simp [h1]), if_neg (by omega), if_neg]
  intro hall
  have := hall ⟨31, by omega⟩
  simp only at this
  have e : (leBytes 32 L).getD 31 0 = 0x10 := by decide +kernel
  rw [e, UInt8.lt_iff_toNat_lt, show (0x10 : UInt8).toNat = 16 from rfl] at this
  have hsplit : sb = sb.take 31 ++ [sb.getD 31 0] := by
    have h31 : sb.drop 31 = [sb.getD 31 0] := by
      rw [List.drop_eq_getElem_cons (by omega), List.drop_of_length_le (by omega),
        List.getD_eq_getElem?_getD, List.getElem?_eq_getElem (by omega)]
      rfl
    rw [← h31, List.take_append_drop]
  have ht : (sb.take 31).length = 31 := by simp [h1]
  have hn : leNat sb = leNat (sb.take 31) + 256 ^ 31 * (sb.getD 31 0).toNat := by
    conv_lhs => rw [hsplit, leNat_append, ht]
    simp [leNat]
  rw [L_eq] at h2
  norm_num only at h2 hn
  omega

example : scIsCanonicalChk (leBytes 32 (L - 1)) = .panic ∧ scIsCanonicalChk (leBytes 32 (2 ^ 252 - 1)) = .ok true ∧
    scIsCanonicalChk (List.replicate 32 0xff) = .ok false ∧ scIsCanonicalChk (leBytes 32 (L + 1)) = .panic := by
  decide +kernel

theorem smallChk (p : Ext) : hasSmallOrderChk p = .ok (hasSmallOrder p) ∨ hasSmallOrderChk p = .panic := by
  rw [C125_small_order]
  split
  · exact Or.inr rfl
  · rename_i h
    rw [Bool.not_eq_true] at h
    rw [h]; exact Or.inl rfl

theorem ptCanonChk (b : Bytes) : ptIsCanonicalChk b = .ok (ptIsCanonical b) ∨ ptIsCanonicalChk b = .panic := by
  rw [C125_point_canonical]
  have h := ptIsCanonical_iff b
  split
  · left
    have : ptIsCanonical b = false := by rw [← Bool.not_eq_true, h]; tauto
    rw [this]
  · split
    · exact Or.inr rfl
    · left
      have : ptIsCanonical b = true := by rw [h]; omega
      rw [this]

theorem scCanonChk (b : Bytes) : scIsCanonicalChk b = .ok (scIsCanonical b) ∨ scIsCanonicalChk b = .panic := by
  by_cases hp : scIsCanonicalChk b = .panic
  · exact Or.inr hp
  · left
    have h := scIsCanonical_iff b
    by_cases hc : scIsCanonical b = true
    · obtain ⟨h1, h2⟩ := h.1 hc
      have hlt : leNat b < 2 ^ 252 := by
        by_contra hge
        exact hp (C125_scalar_canonical_panics b hc (by omega))
      rw [C125_scalar_canonical, if_neg (not_not.2 h1), if_pos hlt, hc]
    · rw [C125_scalar_canonical] at hp ⊢
      split
      · rw [(Bool.not_eq_true _).mp hc]
      · rename_i hl
        rw [if_neg hl] at hp
        split
        · rename_i hlt
          exact absurd (h.2 ⟨not_not.1 hl, hlt.trans (by rw [L_eq]; omega)⟩) hc
        · rename_i hlt
          rw [if_neg hlt] at hp
          split
          · rw [(Bool.not_eq_true _).mp hc]
          · rename_i ha
            rw [if_neg ha] at hp
            exact absurd rfl hp

/-- In a build with overflow checks verification gives the same answer or panics. -/
theorem C125_verify_refines (sha : Bytes → Bytes) (pubb msg sig : Bytes) :
    (eddsaVerifyChk sha pubb msg sig = eddsaVerify sha pubb msg sig ∨ eddsaVerifyChk sha pubb msg sig = .panic) ∧
    (schnorrVerifyChk sha pubb msg sig = schnorrVerify sha pubb msg sig ∨
      schnorrVerifyChk sha pubb msg sig = .panic) := by
  constructor
  · unfold eddsaVerifyChk eddsaVerify
    split
    · exact Or.inl rfl
    rcases scCanonChk (sig.drop 32) with e | e <;> rw [e]
    swap
    · exact Or.inr rfl
    rw [Res.bind_ok]
    split
    · exact Or.inl rfl
    rcases ptCanonChk (sig.take 32) with e | e <;> rw [e]
    swap
    · exact Or.inr rfl
    rw [Res.bind_ok]
    split
    · exact Or.inl rfl
    cases decodePt (sig.take 32) with
    | err e => exact Or.inl rfl
    | panic => exact Or.inl rfl
    | ok r =>
      rw [Res.bind_ok, Res.bind_ok]
      rcases smallChk r with e | e <;> rw [e]
      swap
      · exact Or.inr rfl
      rw [Res.bind_ok]
      split
      · exact Or.inl rfl
      simp only
      rcases ptCanonChk pubb with e | e <;> rw [e]
      swap
      · exact Or.inr rfl
      rw [Res.bind_ok]
      split
      · exact Or.inl rfl
      cases decodePt pubb with
      | err e => exact Or.inl rfl
      | panic => exact Or.inl rfl
      | ok q =>
        rw [Res.bind_ok, Res.bind_ok]
        rcases smallChk q with e | e <;> rw [e]
        swap
        · exact Or.inr rfl
        exact Or.inl rfl
  · unfold schnorrVerifyChk schnorrVerify
    split
    · exact Or.inl rfl
    cases decodePt (sig.take 32) with
    | err e => exact Or.inl rfl
    | panic => exact Or.inl rfl
    | ok r =>
      rw [Res.bind_ok, Res.bind_ok]
      rcases ptCanonChk (sig.take 32) with e | e <;> rw [e]
      swap
      · exact Or.inr rfl
      rw [Res.bind_ok]
      split
      · exact Or.inl rfl
      rcases smallChk r with e | e <;> rw [e]
      swap
      · exact Or.inr rfl
      rw [Res.bind_ok]
      split
      · exact Or.inl rfl
      rcases scCanonChk (sig.drop 32) with e | e <;> rw [e]
      swap
      · exact Or.inr rfl
      rw [Res.bind_ok]
      split
      · exact Or.inl rfl
      simp only
      cases decodePt pubb with
      | err e => exact Or.inl rfl
      | panic => exact Or.inl rfl
      | ok q =>
        rw [Res.bind_ok, Res.bind_ok]
        rcases ptCanonChk pubb with e | e <;> rw [e]
        swap
        · exact Or.inr rfl
        rw [Res.bind_ok]
        split
        · exact Or.inl rfl
        rcases smallChk q with e | e <;> rw [e]
        swap
        · exact Or.inr rfl
        exact Or.inl rfl

theorem scChk_true {b : Bytes} : scIsCanonicalChk b = .ok true ↔ b.length = 32 ∧ leNat b < 2 ^ 252 := by
  rw [C125_scalar_canonical]
  split
  · simp_all
  · split
    · simp_all
    · split <;> simp_all

theorem ptChk_true {b : Bytes} :
    ptIsCanonicalChk b = .ok true ↔ b.length = 32 ∧ leNat b % 2 ^ 255 < 2 ^ 255 - 256 := by
  rw [C125_point_canonical]
  split
  · simp_all
  · split
    · simp only [reduceCtorEq, false_iff]; omega
    · simp only [true_iff]; omega

theorem smallChk_false {p : Ext} : hasSmallOrderChk p = .ok false ↔ hasSmallOrder p = false := by
  rw [C125_small_order]
  split <;> simp_all

/-- What the checking build accepts: what the other accepts, except for responses from `2^252` on and
points `R` and keys whose `y` is `2^255 - 256` or more. -/
def Unaffected (pubb sig : Bytes) : Prop :=
  leNat (sig.drop 32) < 2 ^ 252 ∧ leNat (sig.take 32) % 2 ^ 255 < 2 ^ 255 - 256 ∧
    leNat pubb % 2 ^ 255 < 2 ^ 255 - 256

theorem C125_accepts (sha : Bytes → Bytes) (pubb msg sig : Bytes) :
    (eddsaVerifyChk sha pubb msg sig = .ok () ↔
      eddsaVerify sha pubb msg sig = .ok () ∧ Unaffected pubb sig) ∧
    (schnorrVerifyChk sha pubb msg sig = .ok () ↔
      schnorrVerify sha pubb msg sig = .ok () ∧ Unaffected pubb sig) := by
  constructor
  · constructor
    · intro h
      refine ⟨?_, ?_⟩
      · rcases (C125_verify_refines sha pubb msg sig).1 with e | e
        · rw [← e, h]
        · rw [e] at h; cases h
      · unfold eddsaVerifyChk at h
        simp only [Res.ite_err_eq_ok, Res.bind_eq_ok, Bool.not_eq_false, Bool.not_eq_true] at h
        obtain ⟨h1, c1, e1, rfl, c2, e2, rfl, r, hr, o1, e3, rfl, c3, e4, rfl, -⟩ := h
        exact ⟨(scChk_true.1 e1).2, (ptChk_true.1 e2).2, (ptChk_true.1 e4).2⟩
    · rintro ⟨h, u1, u2, u3⟩
      have hv := h
      unfold eddsaVerify at h
      simp only [Res.ite_err_eq_ok, Res.bind_eq_ok, Bool.not_eq_false, Bool.not_eq_true] at h
      obtain ⟨h1, h2, h3, r, hr, h4, h5, pub, hp, h6, -⟩ := h
      have e1 := scChk_true.2 ⟨((scIsCanonical_iff _).1 h2).1, u1⟩
      have e2 := ptChk_true.2 ⟨((ptIsCanonical_iff _).1 h3).1, u2⟩
      have e3 := ptChk_true.2 ⟨((ptIsCanonical_iff _).1 h5).1, u3⟩
      have e4 := smallChk_false.2 h4
      have e5 := smallChk_false.2 h6
      rw [← hv]
      unfold eddsaVerifyChk eddsaVerify
      rw [if_neg h1, if_neg h1]
      simp only [e1, e2, e3, h2, h3, h5, hr, hp, Res.bind_ok, e4, e5, h4, h6]
  · constructor
    · intro h
      refine ⟨?_, ?_⟩
      · rcases (C125_verify_refines sha pubb msg sig).2 with e | e
        · rw [← e, h]
        · rw [e] at h; cases h
      · unfold schnorrVerifyChk at h
        simp only [Res.ite_err_eq_ok, Res.bind_eq_ok, Bool.not_eq_false, Bool.not_eq_true] at h
        obtain ⟨h1, r, hr, c1, e1, rfl, o1, e2, rfl, c2, e3, rfl, pub, hp, c3, e4, rfl, -⟩ := h
        exact ⟨(scChk_true.1 e3).2, (ptChk_true.1 e1).2, (ptChk_true.1 e4).2⟩
    · rintro ⟨h, u1, u2, u3⟩
      have hv := h
      unfold schnorrVerify at h
      simp only [Res.ite_err_eq_ok, Res.bind_eq_ok, Bool.not_eq_false, Bool.not_eq_true] at h
      obtain ⟨h1, r, hr, h3, h4, h2, pub, hp, h5, h6, -⟩ := h
      have e1 := scChk_true.2 ⟨((scIsCanonical_iff _).1 h2).1, u1⟩
      have e2 := ptChk_true.2 ⟨((ptIsCanonical_iff _).1 h3).1, u2⟩
      have e3 := ptChk_true.2 ⟨((ptIsCanonical_iff _).1 h5).1, u3⟩
      have e4 := smallChk_false.2 h4
      have e5 := smallChk_false.2 h6
      rw [← hv]
      unfold schnorrVerifyChk schnorrVerify
      rw [if_neg h1, if_neg h1]
      simp only [e1, e2, e3, h2, h3, h5, hr, hp, Res.bind_ok, e4, e5, h4, h6]

/-- The errors that the checking build does not report for a 32-byte key. -/
def Lost (pubb : Bytes) (e : SigError) : Prop :=
  e = .rNotCanonical ∨ e = .rSmallOrder ∨ e = .publicKeySmallOrder ∨
    (e = .publicKeyNotCanonical ∧ pubb.length = 32)

theorem ptChk_false {b : Bytes} : ptIsCanonicalChk b = .ok false ↔ b.length ≠ 32 := by
  rw [C125_point_canonical]
  split
  · simp_all
  · split <;> simp_all

theorem small_ne_true (p : Ext) : hasSmallOrderChk p ≠ .ok true := by
  rw [C125_small_order]
  split <;> simp

theorem tail_err {c : Bool} {e : SigError} (h : (if c = false then Res.err .invalidSignature else Res.ok ()) = .err e) :
    e = .invalidSignature := by
  cases c <;> simp_all

/-- Where verification refuses a point of small order or one that is not canonical, the checking build
panics instead. -/
theorem C125_rejections (sha : Bytes → Bytes) (pubb msg sig : Bytes) (e : SigError) (he : Lost pubb e) :
    (eddsaVerify sha pubb msg sig = .err e → eddsaVerifyChk sha pubb msg sig = .panic) ∧
    (schnorrVerify sha pubb msg sig = .err e → schnorrVerifyChk sha pubb msg sig = .panic) := by
  constructor
  · intro hv
    rcases (C125_verify_refines sha pubb msg sig).1 with h | h
    swap
    · exact h
    exfalso
    rw [hv] at h
    clear hv
    unfold eddsaVerifyChk at h
    split at h
    · cases h; simp [Lost] at he
    rename_i hlen
    have h32 : (sig.take 32).length = 32 := by rw [List.length_take]; omega
    cases h1 : scIsCanonicalChk (sig.drop 32) with
    | err e => rcases scCanonChk (sig.drop 32) with q | q <;> rw [h1] at q <;> cases q
    | panic => rw [h1] at h; cases h
    | ok c =>
      rw [h1, Res.bind_ok] at h
      split at h
      · cases h; simp [Lost] at he
      cases h2 : ptIsCanonicalChk (sig.take 32) with
      | err e => rcases ptCanonChk (sig.take 32) with q | q <;> rw [h2] at q <;> cases q
      | panic => rw [h2] at h; cases h
      | ok c =>
        rw [h2, Res.bind_ok] at h
        split at h
        · rename_i hc
          rw [hc, ptChk_false] at h2
          exact h2 h32
        cases h3 : decodePt (sig.take 32) with
        | err e' =>
          rw [h3] at h
          unfold decodePt at h3
          split at h3 <;> cases h3
          cases h; simp [Lost] at he
        | panic => rw [h3] at h; cases h
        | ok r =>
          rw [h3, Res.bind_ok] at h
          cases h4 : hasSmallOrderChk r with
          | err e => rcases smallChk r with q | q <;> rw [h4] at q <;> cases q
          | panic => rw [h4] at h; cases h
          | ok o =>
            rw [h4, Res.bind_ok] at h
            split at h
            · rename_i ho
              rw [ho] at h4
              exact small_ne_true r h4
            simp only at h
            cases h5 : ptIsCanonicalChk pubb with
            | err e => rcases ptCanonChk pubb with q | q <;> rw [h5] at q <;> cases q
            | panic => rw [h5] at h; cases h
            | ok c =>
              rw [h5, Res.bind_ok] at h
              split at h
              · rename_i hc
                rw [hc, ptChk_false] at h5
                cases h
                simp [Lost] at he
                exact h5 he
              cases h6 : decodePt pubb with
              | err e' =>
                rw [h6] at h
                unfold decodePt at h6
                split at h6 <;> cases h6
                cases h; simp [Lost] at he
              | panic => rw [h6] at h; cases h
              | ok q =>
                rw [h6, Res.bind_ok] at h
                cases h7 : hasSmallOrderChk q with
                | err e => rcases smallChk q with q | q <;> rw [h7] at q <;> cases q
                | panic => rw [h7] at h; cases h
                | ok o =>
                  rw [h7, Res.bind_ok] at h
                  split at h
                  · rename_i ho
                    rw [ho] at h7
                    exact small_ne_true q h7
                  obtain ⟨d, hd, _⟩ := fromDigest (sha (sig.take 32 ++ pubb ++ msg))
                  rw [hd, Res.bind_ok] at h
                  have := tail_err h
                  rw [this] at he
                  simp [Lost] at he
  · intro hv
    rcases (C125_verify_refines sha pubb msg sig).2 with h | h
    swap
    · exact h
    exfalso
    rw [hv] at h
    clear hv
    unfold schnorrVerifyChk at h
    split at h
    · cases h; simp [Lost] at he
    rename_i hlen
    have h32 : (sig.take 32).length = 32 := by rw [List.length_take]; omega
    cases h3 : decodePt (sig.take 32) with
    | err e' =>
      rw [h3] at h
      unfold decodePt at h3
      split at h3 <;> cases h3
      cases h; simp [Lost] at he
    | panic => rw [h3] at h; cases h
    | ok r =>
      rw [h3, Res.bind_ok] at h
      cases h2 : ptIsCanonicalChk (sig.take 32) with
      | err e => rcases ptCanonChk (sig.take 32) with q | q <;> rw [h2] at q <;> cases q
      | panic => rw [h2] at h; cases h
      | ok c =>
        rw [h2, Res.bind_ok] at h
        split at h
        · rename_i hc
          rw [hc, ptChk_false] at h2
          exact h2 h32
        cases h4 : hasSmallOrderChk r with
        | err e => rcases smallChk r with q | q <;> rw [h4] at q <;> cases q
        | panic => rw [h4] at h; cases h
        | ok o =>
          rw [h4, Res.bind_ok] at h
          split at h
          · rename_i ho
            rw [ho] at h4
            exact small_ne_true r h4
          cases h1 : scIsCanonicalChk (sig.drop 32) with
          | err e => rcases scCanonChk (sig.drop 32) with q | q <;> rw [h1] at q <;> cases q
          | panic => rw [h1] at h; cases h
          | ok c =>
            rw [h1, Res.bind_ok] at h
            split at h
            · cases h; simp [Lost] at he
            simp only at h
            cases h6 : decodePt pubb with
            | err e' =>
              rw [h6] at h
              unfold decodePt at h6
              split at h6 <;> cases h6
              cases h; simp [Lost] at he
            | panic => rw [h6] at h; cases h
            | ok q =>
              rw [h6, Res.bind_ok] at h
              cases h5 : ptIsCanonicalChk pubb with
              | err e => rcases ptCanonChk pubb with q | q <;> rw [h5] at q <;> cases q
              | panic => rw [h5] at h; cases h
              | ok c =>
                rw [h5, Res.bind_ok] at h
                split at h
                · rename_i hc
                  rw [hc, ptChk_false] at h5
                  cases h
                  simp [Lost] at he
                  exact h5 he
                cases h7 : hasSmallOrderChk q with
                | err e => rcases smallChk q with q | q <;> rw [h7] at q <;> cases q
                | panic => rw [h7] at h; cases h
                | ok o =>
                  rw [h7, Res.bind_ok] at h
                  split at h
                  · rename_i ho
                    rw [ho] at h7
                    exact small_ne_true q h7
                  unfold schnorrHash at h
                  obtain ⟨d, hd, _⟩ := fromDigest (sha (ptMarshal r ++ ptMarshal q ++ msg))
                  rw [hd, Res.bind_ok] at h
                  have := tail_err h
                  rw [this] at he
                  simp [Lost] at he

/-- The signature whose `R` is the neutral element and whose response is zero. -/
def nullSig : Bytes := 1 :: List.replicate 63 0

theorem decode_one : ∃ r, decodePt (nullSig.take 32) = .ok r ∧ hasSmallOrder r = true := by
  have hl : (nullSig.take 32).length = 32 := by decide
  have h1 : leNat (nullSig.take 32) = 1 := by decide
  have hy : ((leNat (nullSig.take 32) % 2 ^ 255 : Nat) : Fp) = 1 := by
    rw [h1, Nat.mod_eq_of_lt (by decide)]; simp
  have hok := (setBytes_spec extDefault hl).1.2 ⟨0, by rw [hy]; exact zero_y⟩
  obtain ⟨q, hq, qy, -⟩ := (setBytes_spec extDefault hl).2 hok
  refine ⟨_, decodePt_of hok, ?_⟩
  rw [hasSmallOrder_iff hq, qy, hy]
  refine ⟨1 :: List.replicate 31 0, by decide +kernel, ?_⟩
  rw [ZMod.val_one'' (by decide +kernel)]
  decide

/-- One fixed signature makes verification panic, whatever the key and the message. -/
theorem C125_null_signature (sha : Bytes → Bytes) (pubb msg : Bytes) :
    eddsaVerifyChk sha pubb msg nullSig = .panic ∧ schnorrVerifyChk sha pubb msg nullSig = .panic := by
  obtain ⟨r, h1, h2⟩ := decode_one
  have h3 : hasSmallOrderChk r = .panic := by rw [C125_small_order, if_pos h2]
  have e1 : scIsCanonicalChk (nullSig.drop 32) = .ok true := by decide +kernel
  have e2 : ptIsCanonicalChk (nullSig.take 32) = .ok true := by decide +kernel
  have hl : ¬ nullSig.length ≠ 64 := by decide
  constructor
  · unfold eddsaVerifyChk
    rw [if_neg hl, e1, e2, h1]
    simp only [Res.bind_ok, h3, reduceCtorEq, if_false]
    rfl
  · unfold schnorrVerifyChk
    rw [if_neg hl, e2, h1]
    simp only [Res.bind_ok, h3, reduceCtorEq, if_false]
    rfl

/-- The builds without the checks refuse it. -/
theorem C125_null_signature_wrapping (sha : Bytes → Bytes) (pubb msg : Bytes) :
    eddsaVerify sha pubb msg nullSig = .err .rSmallOrder ∧
    schnorrVerify sha pubb msg nullSig = .err .rSmallOrder := by
  obtain ⟨r, h1, h2⟩ := decode_one
  have e1 : scIsCanonical (nullSig.drop 32) = true := by decide +kernel
  have e2 : ptIsCanonical (nullSig.take 32) = true := by decide +kernel
  have hl : ¬ nullSig.length ≠ 64 := by decide
  constructor
  · unfold eddsaVerify
    rw [if_neg hl, e1, e2, h1]
    simp only [Res.bind_ok, h2, reduceCtorEq, if_false, if_true]
  · unfold schnorrVerify
    rw [if_neg hl, e2, h1]
    simp only [Res.bind_ok, h2, reduceCtorEq, if_false, if_true]

/-- The full claim: verification returns on every input, whatever the build. -/
def C125_statement : Prop := ∀ (sha : Bytes → Bytes) (pubb msg sig : Bytes),
  eddsaVerifyChk sha pubb msg sig ≠ .panic ∧ schnorrVerifyChk sha pubb msg sig ≠ .panic

theorem C125_violated : ¬ C125_statement := fun h =>
  (h (fun b => b) [] [] nullSig).1 (C125_null_signature _ _ _).1

/-- What remains: a signature that the library accepts is accepted by the checking build unless its
response or one of its points is in the small ranges named, and nothing else is accepted. -/
theorem C125_accepts_partial (sha : Bytes → Bytes) (pubb msg sig : Bytes) (hu : Unaffected pubb sig) :
    (eddsaVerifyChk sha pubb msg sig = .ok () ↔ SigOk sha pubb msg sig) ∧
    (schnorrVerifyChk sha pubb msg sig = .ok () ↔ SigOk sha pubb msg sig) := by
  obtain ⟨h1, h2⟩ := C125_accepts sha pubb msg sig
  rw [h1, h2, eddsaVerify_iff, schnorrVerify_iff]
  exact ⟨⟨fun h => h.1, fun h => ⟨h, hu⟩⟩, ⟨fun h => h.1, fun h => ⟨h, hu⟩⟩⟩

/-- A signature of an honest signer with the nonce `k` and the key `x`: the checking build accepts it
exactly if neither is a multiple of the order, their points have a `y` below `2^255 - 256` and the response
is below `2^252`. -/
theorem C125_honest_partial (sha : Bytes → Bytes) (k x msg : Bytes) (hk : k.length = 32) (hx : x.length = 32)
    (hk2 : leNat k < 2 ^ 255) (hx2 : leNat x < 2 ^ 255) :
    ∃ sig, schnorrSign sha k x msg = .ok sig ∧
      (schnorrVerifyChk sha (ptMarshal (ptMul x none)) msg sig = .ok () ↔
        (¬ L ∣ leNat k ∧ (leNat k • basePt).y.val < 2 ^ 255 - 256) ∧
        (¬ L ∣ leNat x ∧ (leNat x • basePt).y.val < 2 ^ 255 - 256) ∧
        (leNat k + leNat x * leNat (sha (ptMarshal (ptMul k none) ++ ptMarshal (ptMul x none) ++ msg))) % L
          < 2 ^ 252) := by
  obtain ⟨sig, h1, h2⟩ := C86_verifies_partial sha k x msg hk hx hk2 hx2
  refine ⟨sig, h1, ?_⟩
  rw [(C125_accepts sha _ msg sig).2, h2]
  rw [schnorrSign_eq sha k x msg hk hx hk2 hx2] at h1
  cases h1
  unfold Unaffected
  rw [marshal_rep (mulBase hx hx2), marshal_rep (mulBase hk hk2), take_enc, drop_enc, leNat_leBytes_mod,
    enc_mod, enc_mod]
  have hP : P - 217 = 2 ^ 255 - 236 := P_sub
  constructor
  · rintro ⟨⟨⟨a1, -⟩, a2, -⟩, a3, a4, a5⟩
    exact ⟨⟨a1, a4⟩, ⟨a2, a5⟩, a3⟩
  · rintro ⟨⟨a1, a4⟩, ⟨a2, a5⟩, a3⟩
    exact ⟨⟨⟨a1, by omega⟩, a2, by omega⟩, a3, a4, a5⟩

theorem one_facts : leNat (leBytes 32 1) = 1 ∧ ¬ L ∣ 1 ∧ basePt.y.val < 2 ^ 255 - 256 := by
  refine ⟨by decide +kernel, by decide +kernel, ?_⟩
  show ((46316835694926478169428394003475163141307993866256225615783033603165251855960 : Nat) : Fp).val < _
  rw [ZMod.val_natCast]
  decide +kernel

/-- Nonce 1, key 1, challenge 5: accepted. -/
example (msg : Bytes) : ∃ sig, schnorrSign (fun _ => leBytes 64 5) (leBytes 32 1) (leBytes 32 1) msg = .ok sig ∧
    schnorrVerifyChk (fun _ => leBytes 64 5) (ptMarshal (ptMul (leBytes 32 1) none)) msg sig = .ok () := by
  obtain ⟨sig, h1, h2⟩ := C125_honest_partial (fun _ => leBytes 64 5) (leBytes 32 1) (leBytes 32 1) msg
    (length_leBytes _ _) (length_leBytes _ _) (by decide +kernel) (by decide +kernel)
  obtain ⟨e1, e2, e3⟩ := one_facts
  refine ⟨sig, h1, h2.2 ?_⟩
  rw [e1, one_smul]
  exact ⟨⟨e2, e3⟩, ⟨e2, e3⟩, by decide +kernel⟩

/-- A correct signature whose response is at least `2^252`: accepted by the builds without the checks, a
panic in the others. -/
theorem C125_violated_honest (msg : Bytes) : ∃ (sha : Bytes → Bytes) (k x sig : Bytes),
    schnorrSign sha k x msg = .ok sig ∧ schnorrVerify sha (ptMarshal (ptMul x none)) msg sig = .ok () ∧
    schnorrVerifyChk sha (ptMarshal (ptMul x none)) msg sig = .panic := by
  obtain ⟨sig, h1, h2⟩ := sample_accepted (fun _ => leBytes 64 (L - 2)) msg
  refine ⟨_, _, _, sig, h1, h2, ?_⟩
  obtain ⟨sig', h1', h3⟩ := C125_honest_partial (fun _ => leBytes 64 (L - 2)) (leBytes 32 1) (leBytes 32 1) msg
    (length_leBytes _ _) (length_leBytes _ _) (by decide +kernel) (by decide +kernel)
  rw [h1] at h1'
  cases h1'
  rcases (C125_verify_refines (fun _ => leBytes 64 (L - 2)) (ptMarshal (ptMul (leBytes 32 1) none)) msg sig).2 with e | e
  · rw [e, h2] at h3
    have := (h3.1 rfl).2.2
    rw [one_facts.1] at this
    exact absurd this (by decide +kernel)
  · exact e

end Kyber.Ed
