/-
Lemmas about byte encodings of numbers and about the modular integers.
-/
import Verif.Model.Int
import Verif.Lemmas.Basic
import Mathlib.Tactic.Ring
import Mathlib.Tactic.Linarith
import Mathlib.Data.Int.ModEq

namespace Kyber.ModInt

open Kyber

/-! ## Bytes -/

theorem leNat_append (a b : Bytes) : leNat (a ++ b) = leNat a + 256 ^ a.length * leNat b := by
  induction a with
  | nil => simp [leNat]
  | cons x a ih => simp only [List.cons_append, leNat, ih, List.length_cons, pow_succ]; ring

theorem leNat_lt (b : Bytes) : leNat b < 256 ^ b.length := by
  induction b with
  | nil => simp [leNat]
  | cons x b ih =>
    have hx : x.toNat < 256 := x.toNat_lt
    simp only [leNat, List.length_cons, pow_succ]
    omega

theorem leNat_replicate_zero (n : Nat) : leNat (List.replicate n 0) = 0 := by
  induction n with
  | zero => rfl
  | succ n ih => simp [List.replicate_succ, leNat, ih]

@[simp] theorem length_leBytes (l n : Nat) : (leBytes l n).length = l := by
  induction l generalizing n with
  | zero => rfl
  | succ l ih => simp [leBytes, ih]

theorem leNat_leBytes (l n : Nat) : leNat (leBytes l n) = n % 256 ^ l := by
  induction l generalizing n with
  | zero => simp [leBytes, leNat, Nat.mod_one]
  | succ l ih =>
    have h1 : (UInt8.ofNat (n % 256)).toNat = n % 256 := by
      rw [UInt8.toNat_ofNat']
      omega
    rw [leBytes, leNat, ih, h1, pow_succ, mul_comm (256 ^ l), Nat.mod_mul]

theorem leBytes_leNat (b : Bytes) : leBytes b.length (leNat b) = b := by
  induction b with
  | nil => rfl
  | cons x b ih =>
    have hx : x.toNat < 256 := x.toNat_lt
    rw [List.length_cons, leBytes, leNat]
    congr 1
    · rw [Nat.add_mul_mod_self_left, Nat.mod_eq_of_lt hx, UInt8.ofNat_toNat]
    · rw [Nat.add_mul_div_left _ _ (by norm_num), Nat.div_eq_of_lt hx, zero_add, ih]

theorem leNat_inj {a b : Bytes} (hl : a.length = b.length) (h : leNat a = leNat b) : a = b := by
  rw [← leBytes_leNat a, ← leBytes_leNat b, hl, h]

theorem beNat_zeros_append (n : Nat) (b : Bytes) : beNat (List.replicate n 0 ++ b) = beNat b := by
  unfold beNat
  rw [List.reverse_append, leNat_append, List.reverse_replicate, leNat_replicate_zero]
  ring

theorem beNat_inj {a b : Bytes} (hl : a.length = b.length) (h : beNat a = beNat b) : a = b := by
  have := leNat_inj (a := a.reverse) (b := b.reverse) (by simpa using hl) h
  simpa using this

theorem beNat_lt (b : Bytes) : beNat b < 256 ^ b.length := by
  have := leNat_lt b.reverse
  simpa [beNat] using this

theorem lt_two_pow_bitLen (n : Nat) : n < 2 ^ bitLen n := by
  unfold bitLen
  split
  · simp_all
  · exact Nat.lt_log2_self

theorem two_pow_bitLen_le (n : Nat) (h : n ≠ 0) : 2 ^ (bitLen n - 1) ≤ n := by
  unfold bitLen
  rw [if_neg h, Nat.add_sub_cancel]
  exact Nat.log2_self_le h

theorem bitLen_mono {a b : Nat} (h : a ≤ b) : bitLen a ≤ bitLen b := by
  by_contra hc
  have ha : a ≠ 0 := by
    rintro rfl
    simp [bitLen] at hc
  have h1 := two_pow_bitLen_le a ha
  have h2 := lt_two_pow_bitLen b
  have h3 : 2 ^ bitLen b ≤ 2 ^ (bitLen a - 1) := Nat.pow_le_pow_right (by norm_num) (by omega)
  omega

/-- The number of bytes that `to_bytes_be` returns. -/
def byteLen (n : Nat) : Nat := if n = 0 then 1 else (bitLen n + 7) / 8

@[simp] theorem length_toBytesBE (n : Nat) : (toBytesBE n).length = byteLen n := by
  simp [toBytesBE, toBytesLE, byteLen]

theorem lt_pow_byteLen (n : Nat) : n < 256 ^ byteLen n := by
  unfold byteLen
  split
  · simp_all
  · refine lt_of_lt_of_le (lt_two_pow_bitLen n) ?_
    rw [show (256 : Nat) = 2 ^ 8 by norm_num, ← pow_mul]
    exact Nat.pow_le_pow_right (by norm_num) (by omega)

theorem leNat_toBytesLE (n : Nat) : leNat (toBytesLE n) = n := by
  unfold toBytesLE
  rw [leNat_leBytes]
  exact Nat.mod_eq_of_lt (lt_pow_byteLen n)

theorem beNat_toBytesBE (n : Nat) : beNat (toBytesBE n) = n := by
  rw [beNat, toBytesBE, List.reverse_reverse, leNat_toBytesLE]

theorem byteLen_le {v m : Nat} (h : v < m) : byteLen v ≤ (bitLen m + 7) / 8 := by
  unfold byteLen
  split
  · have : bitLen m ≠ 0 := by
      unfold bitLen
      rw [if_neg (by omega)]
      omega
    omega
  · have := bitLen_mono (le_of_lt h)
    omega

/-! ## `reverse` -/

theorem reverse_loop (src dst : Bytes) (hl : dst.length ≤ src.length) (k : Nat)
    (hk : k ≤ (dst.length + 1) / 2) :
    ∃ d', (List.range k).foldlM (reverseStep dst.length src) dst = (.ok d' : Res IntError Bytes) ∧
      d'.length = dst.length ∧
      ∀ p, p < dst.length → d'[p]? =
        if p < k ∨ dst.length - k ≤ p then src[dst.length - 1 - p]? else dst[p]? := by
  induction k with
  | zero =>
    refine ⟨dst, rfl, rfl, fun p hp => ?_⟩
    rw [if_neg (by omega)]
  | succ k ih =>
    obtain ⟨d, hd, hlen, hget⟩ := ih (by omega)
    have h1 : dst.length - 1 - k < src.length := by omega
    have h2 : k < src.length := by omega
    refine ⟨(d.set k src[dst.length - 1 - k]).set (dst.length - 1 - k) src[k], ?_, ?_, ?_⟩
    · rw [List.range_succ, List.foldlM_append, hd]
      simp only [Res.bind_ok, List.foldlM_cons, List.foldlM_nil, reverseStep]
      rw [List.getElem?_eq_getElem h1, List.getElem?_eq_getElem h2]
      rfl
    · simp [hlen]
    · intro p hp
      rw [List.getElem?_set, List.getElem?_set]
      have hp' := hget p hp
      by_cases e1 : dst.length - 1 - k = p
      · rw [if_pos e1, if_pos (by simp [hlen]; omega), if_pos (by omega)]
        rw [show dst.length - 1 - p = k by omega, List.getElem?_eq_getElem h2]
      · rw [if_neg e1]
        by_cases e2 : k = p
        · rw [if_pos e2, if_pos (by omega), if_pos (by omega)]
          subst e2
          rw [List.getElem?_eq_getElem h1]
        · rw [if_neg e2, hp']
          by_cases e3 : p < k ∨ dst.length - k ≤ p
          · rw [if_pos e3, if_pos (by omega)]
          · rw [if_neg e3, if_neg (by omega)]

/-- `reverse` copies backwards. -/
theorem reverse_eq (dst src : Bytes) (hl : dst.length ≤ src.length) :
    reverse dst src = .ok (src.take dst.length).reverse := by
  obtain ⟨d, hd, hlen, hget⟩ := reverse_loop src dst hl _ le_rfl
  unfold reverse
  rw [hd]
  congr 1
  apply List.ext_getElem?
  intro p
  by_cases hp : p < dst.length
  · rw [hget p hp, if_pos (by omega), List.getElem?_reverse (by simp; omega),
      List.getElem?_take, List.length_take, min_eq_left hl, if_pos (by omega)]
  · rw [List.getElem?_eq_none (by omega), List.getElem?_eq_none (by simp; omega)]

/-! ## Integers -/

theorem tmod_eq (a m : Int) (ha : 0 ≤ a) : a.tmod m = a % m :=
  Int.tmod_eq_emod_of_nonneg ha

theorem rem_eq {a m : Int} (hm : 0 < m) : rem a m = .ok (a.tmod m) := by
  unfold rem
  rw [if_neg (by omega)]

/-- `tmod` is congruent. -/
theorem tmod_modEq (a m : Int) : a.tmod m ≡ a [ZMOD m] := by
  have h := Int.mul_tdiv_add_tmod a m
  have : a - a.tmod m = m * a.tdiv m := by linarith
  exact (Int.modEq_iff_dvd.2 ⟨_, this⟩)

end Kyber.ModInt
