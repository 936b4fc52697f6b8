/-
The tests for canonical encodings and for small order, and the embedding of data.
-/
import Verif.Lemmas.Ed.Order
import Verif.Lemmas.Ed.ScalarOps

namespace Kyber.Ed

open Kyber Kyber.ModInt

/-! ## Canonical encodings -/

theorem xor_ff (v : UInt8) : v ^^^ 0xff = 0 ↔ v = 0xff := by
  have h : ∀ n < 256, UInt8.ofNat n ^^^ 0xff = 0 ↔ UInt8.ofNat n = 0xff := by decide +kernel
  have := h v.toNat v.toNat_lt
  rwa [UInt8.ofNat_toNat] at this

theorem mask_7f (v : UInt8) : (v &&& 0x7f) ^^^ 0x7f = 0 ↔ v.toNat % 128 = 127 := by
  have h : ∀ n < 256, (UInt8.ofNat n &&& 0x7f) ^^^ 0x7f = 0 ↔ (UInt8.ofNat n).toNat % 128 = 127 := by decide +kernel
  have := h v.toNat v.toNat_lt
  rwa [UInt8.ofNat_toNat] at this

theorem canon_c (c : UInt8) : ((c.toUInt16 - 1) >>> 8).toUInt8 = if c = 0 then 0xff else 0 := by
  have h : ∀ n < 256, (((UInt8.ofNat n).toUInt16 - 1) >>> 8).toUInt8 = if UInt8.ofNat n = 0 then 0xff else 0 := by
    decide +kernel
  have := h c.toNat c.toNat_lt
  rwa [UInt8.ofNat_toNat] at this

theorem canon_d (b : UInt8) :
    (((0xED : UInt16) - (1 - b.toUInt16)) >>> 8).toUInt8 = if 20 ≤ b.toNat then 1 else 0 := by
  have h : ∀ n < 256, (((0xED : UInt16) - (1 - (UInt8.ofNat n).toUInt16)) >>> 8).toUInt8 =
      if 20 ≤ (UInt8.ofNat n).toNat then 1 else 0 := by
    decide +kernel
  have := h b.toNat b.toNat_lt
  rwa [UInt8.ofNat_toNat] at this

theorem leNat_max (l : Bytes) : leNat l + 1 = 256 ^ l.length ↔ ∀ x ∈ l, x = 0xff := by
  induction l with
  | nil => simp [leNat]
  | cons v l ih =>
    rw [leNat, List.length_cons, pow_succ]
    have h1 := leNat_lt l
    have h2 := v.toNat_lt
    have hv : v = 0xff ↔ v.toNat = 255 := by
      constructor
      · rintro rfl; rfl
      · intro h; rw [← UInt8.ofNat_toNat (x := v), h]; rfl
    constructor
    · intro h
      have hl : leNat l + 1 = 256 ^ l.length := by omega
      intro x hx
      rcases List.mem_cons.1 hx with e | e
      · rw [e, hv]; omega
      · exact ih.1 hl x e
    · intro h
      have hl := ih.2 (fun x hx => h x (List.mem_cons_of_mem _ hx))
      have := hv.1 (h v List.mem_cons_self)
      omega

theorem split_ends {b : Bytes} (hb : b.length = 32) : ∃ v m w, b = v :: (m ++ [w]) ∧ m.length = 30 := by
  obtain ⟨i, w, rfl, hi⟩ := split_last hb
  cases i with
  | nil => simp at hi
  | cons v m => exact ⟨v, m, w, rfl, by simpa using hi⟩

/-- What `is_canonical` decides. -/
theorem ptIsCanonical_iff (b : Bytes) :
    ptIsCanonical b = true ↔ b.length = 32 ∧ leNat b % 2 ^ 255 < 2 ^ 255 - 236 := by
  unfold ptIsCanonical
  by_cases hb : b.length = 32
  · rw [if_neg (by simp [hb])]
    simp only
    rw [canon_c, canon_d]
    obtain ⟨v, m, w, rfl, hm⟩ := split_ends hb
    have h0 : (v :: (m ++ [w])).getD 0 0 = v := rfl
    have h31 : (v :: (m ++ [w])).getD 31 0 = w := by
      rw [List.getD_cons_succ, List.getD_eq_getElem?_getD, List.getElem?_append_right (by omega), hm]; rfl
    have hmid : ∀ i < 30, (v :: (m ++ [w])).getD (i + 1) 0 = m.getD i 0 := by
      intro i hi
      rw [List.getD_cons_succ, List.getD_eq_getElem?_getD, List.getElem?_append_left (by omega),
        List.getD_eq_getElem?_getD]
    rw [h0, h31]
    have hfold : ∀ c : UInt8, ((List.range 30).map (fun i => 30 - i)).foldl
        (fun c i => c ||| ((v :: (m ++ [w])).getD i 0 ^^^ 0xff)) c = 0 ↔ c = 0 ∧ ∀ x ∈ m, x = 0xff := by
      intro c
      have := foldl_or_zero (((List.range 30).map (fun i => 30 - i)).map (fun i => (v :: (m ++ [w])).getD i 0 ^^^ 0xff)) c
      rw [List.foldl_map] at this
      rw [this]
      constructor
      · rintro ⟨hc, hall⟩
        refine ⟨hc, ?_⟩
        intro x hx
        obtain ⟨i, hi, rfl⟩ := List.getElem_of_mem hx
        have := hall ((v :: (m ++ [w])).getD (i + 1) 0 ^^^ 0xff)
          (List.mem_map_of_mem (List.mem_map.2 ⟨29 - i, by simp; omega, by omega⟩))
        rw [hmid i (by omega), xor_ff, List.getD_eq_getElem?_getD, List.getElem?_eq_getElem hi] at this
        exact this
      · rintro ⟨hc, hall⟩
        refine ⟨hc, ?_⟩
        intro x hx
        obtain ⟨i, hi, rfl⟩ := List.mem_map.1 hx
        obtain ⟨j, hj, rfl⟩ := List.mem_map.1 hi
        have hj' := List.mem_range.1 hj
        rw [show 30 - j = (29 - j) + 1 by omega, hmid _ (by omega), xor_ff]
        rw [List.getD_eq_getElem?_getD, List.getElem?_eq_getElem (by omega)]
        exact hall _ (List.getElem_mem _)
    have hnat : leNat (v :: (m ++ [w])) = v.toNat + 256 * (leNat m + 256 ^ 30 * w.toNat) := by
      rw [leNat, leNat_append, hm, leNat, leNat]; ring
    rw [hnat]
    have hmax := leNat_max m
    rw [hm] at hmax
    have hl := leNat_lt m
    rw [hm] at hl
    have hv := v.toNat_lt
    have hw := w.toNat_lt
    have hmask := mask_7f w
    have key : (v.toNat + 256 * (leNat m + 256 ^ 30 * w.toNat)) % 2 ^ 255 =
        v.toNat + 256 * (leNat m + 256 ^ 30 * (w.toNat % 128)) := by
      omega
    rw [key]
    by_cases h1 : ((List.range 30).map (fun i => 30 - i)).foldl
        (fun c i => c ||| ((v :: (m ++ [w])).getD i 0 ^^^ 0xff)) ((w &&& 0x7f) ^^^ 0x7f) = 0
    · rw [if_pos h1]
      rw [hfold, hmask, ← hmax] at h1
      by_cases h2 : 20 ≤ v.toNat
      · rw [if_pos h2]
        constructor
        · intro h; exact absurd h (by decide)
        · rintro ⟨_, h⟩; omega
      · rw [if_neg h2]
        constructor
        · intro _
          refine ⟨by simp [hm], ?_⟩
          omega
        · intro _; decide
    · rw [if_neg h1]
      rw [hfold, hmask, ← hmax] at h1
      constructor
      · intro _
        refine ⟨by simp [hm], ?_⟩
        omega
      · intro _; simp
  · rw [if_pos (by simpa using hb)]
    simp [hb]

/-! ## Small order -/

theorem xor_eq_zero (a b : UInt8) : a ^^^ b = 0 ↔ a = b := UInt8.xor_eq_zero_iff

theorem mask_val (v : UInt8) : (v &&& 0x7f).toNat = v.toNat % 128 := by
  have h : ∀ n < 256, (UInt8.ofNat n &&& 0x7f).toNat = (UInt8.ofNat n).toNat % 128 := by decide +kernel
  have := h v.toNat v.toNat_lt
  rwa [UInt8.ofNat_toNat] at this

theorem weakDiff_iff {s w : Bytes} (hs : s.length = 32) (hw : w.length = 32) (hlt : leNat w < 2 ^ 255) :
    weakDiff s w = 0 ↔ leNat s % 2 ^ 255 = leNat w := by
  obtain ⟨i, v, rfl, hi⟩ := split_last hs
  obtain ⟨j, u, rfl, hj⟩ := split_last hw
  rw [leNat_top hw] at hlt
  have g1 : (i ++ [v]).getD 31 0 = v := by
    rw [List.getD_eq_getElem?_getD, List.getElem?_append_right (by omega), hi]; rfl
  have g2 : (j ++ [u]).getD 31 0 = u := by
    rw [List.getD_eq_getElem?_getD, List.getElem?_append_right (by omega), hj]; rfl
  rw [g2] at hlt
  unfold weakDiff
  simp only
  rw [g1, g2]
  have hf := foldl_or_zero ((List.range 31).map (fun k => (i ++ [v]).getD k 0 ^^^ (j ++ [u]).getD k 0)) 0
  rw [List.foldl_map] at hf
  have hor : ∀ a b : UInt8, a ||| b = 0 ↔ a = 0 ∧ b = 0 := fun a b => UInt8.or_eq_zero_iff
  rw [hor, hf, xor_eq_zero]
  have hall : (∀ b ∈ (List.range 31).map (fun k => (i ++ [v]).getD k 0 ^^^ (j ++ [u]).getD k 0), b = 0) ↔ i = j := by
    constructor
    · intro h
      apply List.ext_getElem (by omega)
      intro k h1 h2
      have := h _ (List.mem_map_of_mem (List.mem_range.2 (show k < 31 by omega)))
      rw [xor_eq_zero, List.getD_eq_getElem?_getD, List.getD_eq_getElem?_getD, List.getElem?_append_left h1,
        List.getElem?_append_left h2, List.getElem?_eq_getElem h1, List.getElem?_eq_getElem h2] at this
      exact this
    · rintro rfl b hb
      obtain ⟨k, hk, rfl⟩ := List.mem_map.1 hb
      have hk' := List.mem_range.1 hk
      rw [xor_eq_zero, List.getD_eq_getElem?_getD, List.getD_eq_getElem?_getD, List.getElem?_append_left (by omega),
        List.getElem?_append_left (by omega)]
  rw [hall, leNat_append, leNat_append, hi, hj]
  have l1 := leNat_lt i
  have l2 := leNat_lt j
  rw [hi] at l1
  rw [hj] at l2
  have hv := v.toNat_lt
  simp only [leNat, Nat.mul_zero, Nat.add_zero]
  have hvu : (v &&& 0x7f) = u ↔ v.toNat % 128 = u.toNat := by
    rw [← mask_val, UInt8.toNat_inj]
  rw [hvu]
  have hmod : (leNat i + 256 ^ 31 * v.toNat) % 2 ^ 255 = leNat i + 256 ^ 31 * (v.toNat % 128) := by omega
  rw [hmod]
  constructor
  · rintro ⟨⟨_, rfl⟩, h⟩
    rw [h]
  · intro h
    refine ⟨⟨trivial, ?_⟩, by omega⟩
    exact leNat_inj (by omega) (by omega)

theorem bit8_minus (c : UInt8) : (c.toUInt16 - 1).toNat.testBit 8 = decide (c = 0) := by
  have h : ∀ n < 256, ((UInt8.ofNat n).toUInt16 - 1).toNat.testBit 8 = decide (UInt8.ofNat n = 0) := by decide +kernel
  have := h c.toNat c.toNat_lt
  rwa [UInt8.ofNat_toNat] at this

theorem bit8_test (k : UInt16) : ((k >>> 8) &&& 1 > 0) ↔ k.toNat.testBit 8 = true := by
  rw [gt_iff_lt, UInt16.lt_iff_toNat_lt, UInt16.toNat_and, UInt16.toNat_shiftRight]
  have h1 : (8 : UInt16).toNat % 16 = 8 := by decide
  have h2 : (1 : UInt16).toNat = 1 := by decide
  have h3 : (0 : UInt16).toNat = 0 := by decide
  rw [h1, h2, h3, Nat.testBit, Nat.and_comm 1]
  rw [bne_iff_ne, Nat.pos_iff_ne_zero]

theorem weak_fold (s : Bytes) (ws : List Bytes) (k : UInt16) :
    (ws.foldl (fun (k : UInt16) w => k ||| ((weakDiff s w).toUInt16 - 1)) k).toNat.testBit 8 = true ↔
      k.toNat.testBit 8 = true ∨ ∃ w ∈ ws, weakDiff s w = 0 := by
  induction ws generalizing k with
  | nil => simp
  | cons w ws ih =>
    rw [List.foldl_cons, ih, UInt16.toNat_or, Nat.testBit_or, bit8_minus]
    simp only [Bool.or_eq_true, decide_eq_true_eq, List.mem_cons, exists_eq_or_imp, or_assoc]

theorem weakKeys_len : ∀ w ∈ weakKeys, w.length = 32 ∧ leNat w < 2 ^ 255 := by decide +kernel

/-- What `has_small_order` decides: the encoding without its top bit is listed. -/
theorem hasSmallOrder_iff {s : Ext} {p : EdPt} (h : s.Rep p) :
    hasSmallOrder s = true ↔ ∃ w ∈ weakKeys, p.y.val = leNat w := by
  unfold hasSmallOrder ptMarshal
  simp only
  rw [decide_eq_true_iff, bit8_test, weak_fold, bytes_eq h]
  have h0 : ((0 : UInt16).toNat.testBit 8 = true) ↔ False := by decide
  rw [h0, false_or]
  apply exists_congr
  intro w
  apply and_congr_right
  intro hw
  obtain ⟨l1, l2⟩ := weakKeys_len w hw
  rw [weakDiff_iff (length_ptEnc p) l1 l2, leNat_ptEnc]
  have := val_lt_pow p.y
  rw [Nat.add_mul_mod_self_left, Nat.mod_eq_of_lt this]

theorem torsion_y : ∀ k < 8, ∃ w ∈ weakKeys, (nMul 4 k tN).y % P = leNat w * (nMul 4 k tN).z % P := by decide +kernel

theorem torsion_y' : ∀ w ∈ weakKeys, ∃ k < 8, (nMul 4 k tN).y % P = leNat w * (nMul 4 k tN).z % P := by decide +kernel

theorem weak_lt : ∀ w ∈ weakKeys, leNat w < P := by decide +kernel

theorem rep_y {s : NPt} {p : EdPt} (h : s.Rep p) {n : Nat} (e : s.y % P = n * s.z % P) : p.y = (n : Fp) := by
  have h1 : ((s.y : Nat) : Fp) = ((n * s.z : Nat) : Fp) := by
    rw [ZMod.natCast_eq_natCast_iff']; exact e
  rw [h.hy, Nat.cast_mul] at h1
  exact mul_right_cancel₀ h.z h1

theorem weak_iff (p : EdPt) : (∃ w ∈ weakKeys, p.y.val = leNat w) ↔ 8 • p = 0 := by
  rw [eight_torsion]
  constructor
  · rintro ⟨w, hw, he⟩
    obtain ⟨k, hk, e⟩ := torsion_y' w hw
    have hy := rep_y (nMul_rep tN_rep 4 k (by omega)) e
    have hpy : p.y = (leNat w : Fp) := by rw [← he, ZMod.natCast_zmod_val]
    have h8 : 8 • (k • tPt) = 0 := (eight_torsion _).2 ⟨k, hk, rfl⟩
    rcases x_eq_or (hpy.trans hy.symm) with e | e
    · exact ⟨k, hk, e⟩
    · exact (eight_torsion p).1 (by rw [e, smul_neg, h8, neg_zero])
  · rintro ⟨k, hk, rfl⟩
    obtain ⟨w, hw, e⟩ := torsion_y k hk
    refine ⟨w, hw, ?_⟩
    rw [rep_y (nMul_rep tN_rep 4 k (by omega)) e, ZMod.val_natCast, Nat.mod_eq_of_lt (weak_lt w hw)]

/-! ## Embedding -/

theorem length_xor32 : (List.replicate 32 (0 : UInt8)).length = 32 := rfl

theorem leNat_primeOrder : leNat primeOrderScalar = L := by
  unfold primeOrderScalar
  rw [leNat_leBytes]
  decide +kernel

theorem leNat_cofactor : leNat cofactorScalar = 8 := by decide

theorem mulL_rep {s : Ext} {p : EdPt} (h : s.Rep p) : (ptMul primeOrderScalar (some s)).Rep (L • p) := by
  have hl : leNat primeOrderScalar < 2 ^ 255 := by rw [leNat_primeOrder]; decide +kernel
  have := scalarMult_rep h (a := primeOrderScalar) (length_leBytes _ _) hl
  rwa [leNat_primeOrder] at this

theorem mul8_rep {s : Ext} {p : EdPt} (h : s.Rep p) : (ptMul cofactorScalar (some s)).Rep (8 • p) := by
  have hl : leNat cofactorScalar < 2 ^ 255 := by rw [leNat_cofactor]; decide
  have := scalarMult_rep h (a := cofactorScalar) rfl hl
  rwa [leNat_cofactor] at this

theorem setBytes_len {self : Ext} {s : Bytes} (h : (self.setBytes s).2 = true) : s.length = 32 := by
  by_contra hc
  unfold Ext.setBytes at h
  rw [if_pos hc] at h
  exact absurd h (by simp)

/-- A round of `embed` that succeeds. -/
theorem embedRound_some {data : Bytes} {self s : Ext} {b : Bytes} (h : embedRound (some data) self b = (s, true)) :
    ∃ p : EdPt, s.Rep p ∧ p ∈ Sub ∧ (embedBytes (some data) b).length = 32 ∧
      p.y = ((leNat (embedBytes (some data) b) % 2 ^ 255 : Nat) : Fp) := by
  unfold embedRound at h
  cases hs : self.setBytes (embedBytes (some data) b) with
  | mk u ok =>
    rw [hs] at h
    cases ok with
    | false => simp at h
    | true =>
      simp only [Prod.mk.injEq] at h
      obtain ⟨rfl, hq⟩ := h
      have hlen := setBytes_len (self := self) (s := embedBytes (some data) b) (by rw [hs])
      obtain ⟨p, hp, hy, _⟩ := (setBytes_spec self hlen).2 (by rw [hs])
      rw [hs] at hp
      refine ⟨p, hp, ?_, hlen, hy⟩
      rw [mem_Sub_iff]
      exact (ptEq_iff (mulL_rep hp) extZero_rep).1 hq

theorem embedRound_none {self s : Ext} {b : Bytes} (h : embedRound none self b = (s, true)) :
    ∃ p : EdPt, s.Rep p ∧ p ∈ Sub ∧ p ≠ 0 := by
  unfold embedRound at h
  cases hs : self.setBytes (embedBytes none b) with
  | mk u ok =>
    rw [hs] at h
    cases ok with
    | false => simp at h
    | true =>
      simp only [Prod.mk.injEq] at h
      obtain ⟨rfl, hq⟩ := h
      have hlen := setBytes_len (self := self) (s := embedBytes none b) (by rw [hs])
      obtain ⟨p, hp, hy, _⟩ := (setBytes_spec self hlen).2 (by rw [hs])
      rw [hs] at hp
      refine ⟨8 • p, mul8_rep hp, eight_smul_mem p, ?_⟩
      intro h0
      rw [(ptEq_iff (mul8_rep hp) extZero_rep).2 h0] at hq
      simp at hq

/-- Every point returned by `embed` comes from a successful round. -/
theorem embed_round {σ : Type} {S : Rand.Stream σ} {data : Option Bytes} (fuel : Nat) (self : Ext) (st : σ) {s : Ext}
    (h : embed S data fuel self st = some (.ok s)) : ∃ self' b, embedRound data self' b = (s, true) := by
  induction fuel generalizing self st with
  | zero => simp [embed] at h
  | succ fuel ih =>
    rw [embed] at h
    split at h
    next st' b hx =>
      split at h
      next s' hr =>
        simp only [Option.some.injEq, Res.ok.injEq] at h
        subst h
        exact ⟨self, b, hr⟩
      next s' hr => exact ih _ _ h
    next => simp at h

/-- The bytes below the top one of an encoding of a point with small low byte are those that were
decoded. -/
theorem low_bytes {b : Bytes} (hb : b.length = 32) (h0 : (b.getD 0 0).toNat < 237) {p : EdPt}
    (hy : p.y = ((leNat b % 2 ^ 255 : Nat) : Fp)) : (ptEnc p).take 31 = b.take 31 := by
  have hlt : leNat b % 2 ^ 255 < P := by
    obtain ⟨v, m, w, rfl, hm⟩ := split_ends hb
    have hnat : leNat (v :: (m ++ [w])) = v.toNat + 256 * (leNat m + 256 ^ 30 * w.toNat) := by
      rw [leNat, leNat_append, hm, leNat, leNat]; ring
    rw [hnat]
    have h0' : v.toNat < 237 := h0
    have hl := leNat_lt m
    rw [hm] at hl
    have hw := w.toNat_lt
    have key : (v.toNat + 256 * (leNat m + 256 ^ 30 * w.toNat)) % 2 ^ 255 =
        v.toNat + 256 * (leNat m + 256 ^ 30 * (w.toNat % 128)) := by
      omega
    rw [key]
    unfold P
    omega
  have hval : p.y.val = leNat b % 2 ^ 255 := by
    rw [hy, ZMod.val_natCast, Nat.mod_eq_of_lt hlt]
  have hcut : ∀ l : Bytes, l.length = 32 → leNat (l.take 31) = leNat l % 256 ^ 31 := by
    intro l hl
    obtain ⟨i, v, rfl, hi⟩ := split_last hl
    rw [← hi, List.take_left, leNat_append]
    have := leNat_lt i
    rw [Nat.add_mul_mod_self_left, Nat.mod_eq_of_lt this]
  apply leNat_inj
  · rw [List.length_take, List.length_take, length_ptEnc, hb]
  · rw [hcut _ (length_ptEnc p), hcut _ hb, leNat_ptEnc, hval]
    omega

end Kyber.Ed
