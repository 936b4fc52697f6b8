/-
The suite of `Spec/Ed/Suite.lean` is the code: encodings, action, signatures.
-/
import Verif.Spec.Ed.Suite
import Verif.Lemmas.Schnorr
import Verif.Lemmas.Lin
import Mathlib.Algebra.GroupWithZero.Action.Defs

namespace Kyber.Ed

open Kyber Kyber.ModInt Kyber.Schnorr

theorem act_def (a : ZMod L) (p : EdPt) : a • p = a.val • p := rfl

/-- `Point::mul` of the model computes this action, for every reduced scalar and every representation of
the point. -/
theorem mul_model (a : ZMod L) {u : Ext} {p : EdPt} (hu : u.Rep p) :
    (ptMul (leBytes 32 a.val) (some u)).Rep (a • p) := by
  have hv : leNat (leBytes 32 a.val) = a.val := by
    rw [leNat_leBytes, Nat.mod_eq_of_lt]
    exact lt_of_lt_of_le (ZMod.val_lt a) (by decide +kernel)
  have := mulPt (a := leBytes 32 a.val) (length_leBytes _ _) (by rw [hv]; exact (ZMod.val_lt a).trans L_lt') hu
  rw [hv] at this
  exact this

theorem mul_base_model (a : ZMod L) : (ptMul (leBytes 32 a.val) none).Rep (a • basePt) := by
  have hv : leNat (leBytes 32 a.val) = a.val := by
    rw [leNat_leBytes, Nat.mod_eq_of_lt]
    exact lt_of_lt_of_le (ZMod.val_lt a) (by decide +kernel)
  have := mulBase (a := leBytes 32 a.val) (length_leBytes _ _) (by rw [hv]; exact (ZMod.val_lt a).trans L_lt')
  rw [hv] at this
  exact this

theorem extPt_rep {u : Ext} {p : EdPt} (h : u.Rep p) : extPt u = some p := by
  have hex : ∃ p, u.Rep p := ⟨p, h⟩
  unfold extPt
  rw [dif_pos hex]
  have h2 := hex.choose_spec
  rw [← h2.pt_eq, h.pt_eq]

theorem extPt_some {u : Ext} {p : EdPt} (h : extPt u = some p) : u.Rep p := by
  unfold extPt at h
  split at h
  · rename_i hex
    rw [Option.some.injEq] at h
    rw [← h]
    exact hex.choose_spec
  · cases h

theorem setBytes_enc (p : EdPt) :
    (extDefault.setBytes (ptEnc p)).2 = true ∧ (extDefault.setBytes (ptEnc p)).1.Rep p := by
  by_cases hpx : p.x = 0
  · have hl := length_ptEnc p
    have hok := (setBytes_spec extDefault hl).1.2 ⟨p, (enc_y p).symm⟩
    obtain ⟨q, hq, qy, qx⟩ := (setBytes_spec extDefault hl).2 hok
    rw [enc_y] at qy
    have hqp : q = p := by
      rcases x_eq_or qy with e | e
      · exact e
      · rw [e]
        apply EdPt.ext
        · rw [neg_x, hpx, neg_zero]
        · rfl
    rw [hqp] at hq
    exact ⟨hok, hq⟩
  · exact setBytes_of hpx

/-- Every decoded point is on the curve, so `decG` refuses only what the code refuses. -/
theorem decodePt_point {b : Bytes} {u : Ext} (h : decodePt b = .ok u) : ∃ p, u.Rep p := by
  unfold decodePt ptUnmarshal at h
  by_cases hl : b.length = 32
  · obtain ⟨s1, s2⟩ := setBytes_spec extDefault hl
    generalize extDefault.setBytes b = r at h s1 s2
    obtain ⟨w, ok⟩ := r
    cases ok with
    | false => cases h
    | true =>
      obtain ⟨q, hq, -⟩ := s2 rfl
      cases h
      exact ⟨q, hq⟩
  · unfold Ext.setBytes at h
    rw [if_pos (by simpa using hl)] at h
    cases h

theorem edDec_iff (b : Bytes) (p : EdPt) : edDec b = some p ↔ ∃ u, decodePt b = .ok u ∧ u.Rep p := by
  unfold edDec
  constructor
  · intro h
    split at h
    · rename_i u hu
      exact ⟨u, hu, extPt_some h⟩
    · cases h
  · rintro ⟨u, hu, hr⟩
    rw [hu]
    exact extPt_rep hr

theorem edDec_enc (p : EdPt) : edDec (ptEnc p) = some p := by
  obtain ⟨h1, h2⟩ := setBytes_enc p
  exact (edDec_iff _ _).2 ⟨_, decodePt_of h1, h2⟩

theorem edDec_none (b : Bytes) : edDec b = none ↔ ∀ u, decodePt b ≠ .ok u := by
  constructor
  · intro h u hu
    obtain ⟨p, hp⟩ := decodePt_point hu
    rw [(edDec_iff b p).2 ⟨u, hu, hp⟩] at h
    cases h
  · intro h
    cases hd : edDec b with
    | none => rfl
    | some p =>
      obtain ⟨u, hu, -⟩ := (edDec_iff b p).1 hd
      exact absurd hu (h u)

theorem val_natCast_L (n : Nat) : ((n : Nat) : ZMod L).val = n % L := ZMod.val_natCast _ _

/-- On points of the prime order subgroup the scalars act linearly. -/
theorem lin_of_order {p : EdPt} (h : L • p = 0) : Lin (ZMod L) p where
  add a b := by rw [act_def, act_def, act_def, ZMod.val_add, mod_smul h, add_smul]
  mul a b := by rw [act_def, act_def, act_def, ZMod.val_mul, mod_smul h, mul_smul]

/-- A scalar distributes over all points. -/
instance edDistrib : DistribSMul (ZMod L) EdPt where
  toSMul := edAct
  smul_zero a := smul_zero (M := Nat) a.val
  smul_add a p q := smul_add (M := Nat) a.val p q

theorem edSuite_lawful (sha hash : Bytes → Bytes) : (edSuite sha hash).Lawful where
  base_lin := lin_of_order L_smul_base
  encG_length P := length_ptEnc P
  encS_length s := length_leBytes _ _
  decG_encG := edDec_enc
  decS_encS s := by
    show (if (leBytes 32 s.val).length = 32 then some ((leNat (leBytes 32 s.val) : Nat) : ZMod L) else none) = some s
    rw [if_pos (length_leBytes _ _), leNat_leBytes, Nat.mod_eq_of_lt
      (lt_of_lt_of_le (ZMod.val_lt s) (by decide +kernel)), ZMod.natCast_zmod_val]
  canonS_encS s := by
    show scIsCanonical (leBytes 32 s.val) = true
    rw [scIsCanonical_iff, leNat_leBytes, Nat.mod_eq_of_lt
      (lt_of_lt_of_le (ZMod.val_lt s) (by decide +kernel))]
    exact ⟨length_leBytes _ _, ZMod.val_lt s⟩
  canonS_unique b s h1 h2 := by
    obtain ⟨hl, hlt⟩ := (scIsCanonical_iff b).1 h1
    have h2 : (if b.length = 32 then some ((leNat b : Nat) : ZMod L) else none) = some s := h2
    rw [if_pos hl, Option.some.injEq] at h2
    show b = leBytes 32 s.val
    rw [← h2, val_natCast_L, Nat.mod_eq_of_lt hlt, ← hl, leBytes_leNat]

/-- Elements of the subgroup: the action is that of the vector space. -/
theorem act_sub (a : ZMod L) (p : Sub) : ((a • p : Sub) : EdPt) = a • (p : EdPt) := by
  rw [act_def, ← AddSubgroup.coe_nsmul]
  conv_lhs => rw [← ZMod.natCast_zmod_val a]
  rw [Nat.cast_smul_eq_nsmul]

theorem act_mod {p : EdPt} (h : L • p = 0) (n : Nat) : ((n : Nat) : ZMod L) • p = n • p := by
  rw [act_def, val_natCast_L, mod_smul h]

theorem act_base (n : Nat) : ((n : Nat) : ZMod L) • basePt = n • basePt := act_mod L_smul_base n

end Kyber.Ed
