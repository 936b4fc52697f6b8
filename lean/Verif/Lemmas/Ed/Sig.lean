/-
Lemmas on the byte-level signatures: decoding with the library's checks, challenges, responses.
-/
import Verif.Model.Ed.Sig
import Verif.Props.EdPoint
import Verif.Props.EdScalar

namespace Kyber.Ed

open Kyber Kyber.ModInt Kyber.Schnorr

theorem two_smul_of_x {p : EdPt} (h : p.x = 0) : 2 • p = 0 := by
  have on := p.on
  unfold On at on
  rw [h] at on
  have hy : p.y * p.y = 1 := by linear_combination on
  rw [two_smul]
  ext
  · rw [add_x, h, zero_x]; simp
  · rw [add_y, h, zero_y, hy]; simp

theorem eight_smul_of_x {p : EdPt} (h : p.x = 0) : 8 • p = 0 := by
  rw [show (8 : Nat) = 4 * 2 by rfl, mul_smul, two_smul_of_x h, smul_zero]

/-- The points the library accepts in signatures: `y < p - 217`, and not of small order. -/
def Accepted (p : EdPt) : Prop := p.y.val < P - 217 ∧ 8 • p ≠ 0

theorem P_sub : P - 217 = 2 ^ 255 - 236 := by decide +kernel

theorem decode_ok {b : Bytes} {u : Ext} (h : decodePt b = .ok u) (hc : ptIsCanonical b = true)
    (hs : hasSmallOrder u = false) : ∃ p, u.Rep p ∧ ptEnc p = b ∧ Accepted p := by
  have hu : ptUnmarshal extDefault b = (u, true) := by
    unfold decodePt at h
    split at h
    next heq => cases h; exact heq
    next => cases h
  obtain ⟨hl, hv, hy, hx⟩ := C58_decode _ _ _ hu
  have hsm : ¬ 8 • hv.pt = 0 := by
    rw [← C54_small_order u hv, hs]; simp
  obtain ⟨hc1, hc2⟩ := (ptIsCanonical_iff b).1 hc
  have hlt : leNat b % 2 ^ 255 < P := by have : P = 2 ^ 255 - 19 := rfl; omega
  have hm : ptMarshal u = b := (C71_strict_partial _ _ _ hu).2
    ⟨hlt, fun h0 => absurd (eight_smul_of_x (p := hv.pt) h0) hsm⟩
  refine ⟨hv.pt, hv.rep, ?_, ?_, hsm⟩
  · rw [← hm]; unfold ptMarshal; rw [bytes_eq hv.rep]
  · show u.ay.val < _
    rw [hy, ZMod.val_natCast_of_lt hlt, P_sub]; exact hc2

theorem enc_mod (p : EdPt) : leNat (ptEnc p) % 2 ^ 255 = p.y.val := by
  rw [leNat_ptEnc p, Nat.add_mul_mod_self_left, Nat.mod_eq_of_lt (val_lt_pow p.y)]

theorem enc_div (p : EdPt) : leNat (ptEnc p) / 2 ^ 255 = p.x.val % 2 := by
  rw [leNat_ptEnc p, Nat.add_mul_div_left _ _ (Nat.two_pow_pos 255), Nat.div_eq_of_lt (val_lt_pow p.y), zero_add]

theorem enc_y (p : EdPt) : ((leNat (ptEnc p) % 2 ^ 255 : Nat) : Fp) = p.y := by
  rw [enc_mod, ZMod.natCast_zmod_val]

theorem canon_of {p : EdPt} (h : p.y.val < P - 217) : ptIsCanonical (ptEnc p) = true := by
  rw [ptIsCanonical_iff, enc_mod, ← P_sub]
  exact ⟨length_ptEnc p, h⟩

theorem setBytes_of {p : EdPt} (hpx : p.x ≠ 0) :
    (extDefault.setBytes (ptEnc p)).2 = true ∧ (extDefault.setBytes (ptEnc p)).1.Rep p := by
  have hl := length_ptEnc p
  have hok := (setBytes_spec extDefault hl).1.2 ⟨p, (enc_y p).symm⟩
  obtain ⟨q, hq, qy, qx⟩ := (setBytes_spec extDefault hl).2 hok
  rw [enc_y] at qy
  rw [enc_div] at qx
  have hqp : q = p := by
    rcases x_eq_or qy with e | e
    · exact e
    · have qx0 : q.x ≠ 0 := by rw [e, neg_x]; exact neg_ne_zero.2 hpx
      have := qx qx0
      rw [e, neg_x, neg_val_parity hpx] at this
      clear hq hok hl
      omega
  rw [hqp] at hq
  exact ⟨hok, hq⟩

theorem decodePt_of {b : Bytes} (h : (extDefault.setBytes b).2 = true) :
    decodePt b = .ok (extDefault.setBytes b).1 := by
  unfold decodePt ptUnmarshal
  generalize extDefault.setBytes b = r at *
  obtain ⟨u, c⟩ := r
  cases h
  rfl

theorem decode_of {p : EdPt} (h : Accepted p) :
    ∃ u, decodePt (ptEnc p) = .ok u ∧ u.Rep p ∧ ptIsCanonical (ptEnc p) = true ∧ hasSmallOrder u = false := by
  obtain ⟨h1, h2⟩ := setBytes_of (p := p) (fun h0 => h.2 (eight_smul_of_x h0))
  refine ⟨_, decodePt_of h1, h2, canon_of h.1, ?_⟩
  rw [← Bool.not_eq_true, C54_small_order _ h2.valid, h2.pt_eq]
  exact h.2

theorem fromDigest (d : Bytes) : ∃ h, scFromDigest d = .ok h ∧ h.length = 32 ∧ leNat h = leNat d % L := by
  obtain ⟨r, h1, h2, h3⟩ := C51_set_bytes_partial d
  exact ⟨r, by unfold scFromDigest; rw [h1]; rfl, h2, h3⟩

theorem lt255 (n : Nat) : n % L < 2 ^ 255 := (Nat.mod_lt _ L_pos).trans L_lt'

theorem mulBase {a : Bytes} (ha : a.length = 32) (h : leNat a < 2 ^ 255) :
    (ptMul a none).Rep (leNat a • basePt) := by
  have := scalarMultBase_rep ha h
  unfold ptMul
  exact this

theorem mulPt {a : Bytes} (ha : a.length = 32) (h : leNat a < 2 ^ 255) {u : Ext} {p : EdPt} (hu : u.Rep p) :
    (ptMul a (some u)).Rep (leNat a • p) := by
  have := scalarMult_rep hu ha h
  unfold ptMul
  exact this

theorem marshal_rep {u : Ext} {p : EdPt} (hu : u.Rep p) : ptMarshal u = ptEnc p := bytes_eq hu

theorem mod_smul_base (n : Nat) : (n % L) • basePt = n • basePt := by
  conv_rhs => rw [← Nat.mod_add_div n L]
  rw [add_smul, mul_comm L, mul_smul, L_smul_base, smul_zero, add_zero]

theorem mod_smul {p : EdPt} (h : L • p = 0) (n : Nat) : (n % L) • p = n • p := by
  conv_rhs => rw [← Nat.mod_add_div n L]
  rw [add_smul, mul_comm L, mul_smul, h, smul_zero, add_zero]

/-- The equation checked by both schemes. -/
def SigEq (sha : Bytes → Bytes) (pubb msg sig : Bytes) (R A : EdPt) : Prop :=
  leNat (sig.drop 32) • basePt = R + (leNat (sha (sig.take 32 ++ pubb ++ msg)) % L) • A

/-- What both schemes accept. -/
def SigOk (sha : Bytes → Bytes) (pubb msg sig : Bytes) : Prop :=
  sig.length = 64 ∧ ∃ R A : EdPt, ptEnc R = sig.take 32 ∧ ptEnc A = pubb ∧ Accepted R ∧ Accepted A ∧
    leNat (sig.drop 32) < L ∧ SigEq sha pubb msg sig R A

theorem eddsaVerify_iff (sha : Bytes → Bytes) (pubb msg sig : Bytes) :
    eddsaVerify sha pubb msg sig = .ok () ↔ SigOk sha pubb msg sig := by
  have hdl : sig.length = 64 → (sig.drop 32).length = 32 := fun h => by rw [List.length_drop]; omega
  constructor
  · intro h
    unfold eddsaVerify at h
    simp only [Res.ite_err_eq_ok, Res.bind_eq_ok, Bool.not_eq_false, Bool.not_eq_true] at h
    obtain ⟨h1, h2, h3, r, hr, h4, h5, pub, hp, h6, c, hc, h7, -⟩ := h
    push Not at h1
    obtain ⟨R, hR, eR, aR⟩ := decode_ok hr h3 h4
    obtain ⟨A, hA, eA, aA⟩ := decode_ok hp h5 h6
    obtain ⟨c', e1, e2, e3⟩ := fromDigest (sha (sig.take 32 ++ pubb ++ msg))
    rw [e1] at hc
    cases hc
    obtain ⟨_, hs⟩ := (scIsCanonical_iff _).1 h2
    have hsb : (scUnmarshal scZero (sig.drop 32)).1 = sig.drop 32 := by
      unfold scUnmarshal; rw [if_neg (by rw [hdl h1]; simp)]
    rw [hsb, ptEq_iff (ptAdd_rep hR (mulPt e2 (by rw [e3]; exact lt255 _) hA))
      (mulBase (hdl h1) (hs.trans L_lt'))] at h7
    refine ⟨h1, R, A, eR, eA, aR, aA, hs, ?_⟩
    unfold SigEq
    rw [← h7, e3]
  · rintro ⟨h1, R, A, eR, eA, aR, aA, hs, heq⟩
    obtain ⟨r, r1, r2, r3, r4⟩ := decode_of aR
    obtain ⟨q, q1, q2, q3, q4⟩ := decode_of aA
    rw [eR] at r1 r3
    rw [eA] at q1 q3
    obtain ⟨c, e1, e2, e3⟩ := fromDigest (sha (sig.take 32 ++ pubb ++ msg))
    have h2 := (scIsCanonical_iff (sig.drop 32)).2 ⟨hdl h1, hs⟩
    have hsb : (scUnmarshal scZero (sig.drop 32)).1 = sig.drop 32 := by
      unfold scUnmarshal; rw [if_neg (by rw [hdl h1]; simp)]
    unfold eddsaVerify
    rw [if_neg (by rw [h1]; simp), if_neg (by rw [h2]; simp), if_neg (by rw [r3]; simp), r1, Res.bind_ok,
      if_neg (by rw [r4]; simp)]
    simp only
    rw [if_neg (by rw [q3]; simp), q1, Res.bind_ok, if_neg (by rw [q4]; simp), e1, Res.bind_ok, hsb, if_neg]
    rw [Bool.not_eq_false, ptEq_iff (ptAdd_rep r2 (mulPt e2 (by rw [e3]; exact lt255 _) q2))
      (mulBase (hdl h1) (hs.trans L_lt')), e3]
    exact heq.symm

theorem schnorrVerify_iff (sha : Bytes → Bytes) (pubb msg sig : Bytes) :
    schnorrVerify sha pubb msg sig = .ok () ↔ SigOk sha pubb msg sig := by
  have hdl : sig.length = 64 → (sig.drop 32).length = 32 := fun h => by rw [List.length_drop]; omega
  constructor
  · intro h
    unfold schnorrVerify at h
    simp only [Res.ite_err_eq_ok, Res.bind_eq_ok, Bool.not_eq_false, Bool.not_eq_true] at h
    obtain ⟨h1, r, hr, h3, h4, h2, pub, hp, h5, h6, c, hc, h7, -⟩ := h
    push Not at h1
    obtain ⟨R, hR, eR, aR⟩ := decode_ok hr h3 h4
    obtain ⟨A, hA, eA, aA⟩ := decode_ok hp h5 h6
    unfold schnorrHash at hc
    rw [marshal_rep hR, marshal_rep hA, eR, eA] at hc
    obtain ⟨c', e1, e2, e3⟩ := fromDigest (sha (sig.take 32 ++ pubb ++ msg))
    rw [e1] at hc
    cases hc
    obtain ⟨_, hs⟩ := (scIsCanonical_iff _).1 h2
    have hsb : (scUnmarshal scZero (sig.drop 32)).1 = sig.drop 32 := by
      unfold scUnmarshal; rw [if_neg (by rw [hdl h1]; simp)]
    rw [hsb, ptEq_iff (mulBase (hdl h1) (hs.trans L_lt'))
      (ptAdd_rep hR (mulPt e2 (by rw [e3]; exact lt255 _) hA))] at h7
    refine ⟨h1, R, A, eR, eA, aR, aA, hs, ?_⟩
    unfold SigEq
    rw [h7, e3]
  · rintro ⟨h1, R, A, eR, eA, aR, aA, hs, heq⟩
    obtain ⟨r, r1, r2, r3, r4⟩ := decode_of aR
    obtain ⟨q, q1, q2, q3, q4⟩ := decode_of aA
    rw [eR] at r1 r3
    rw [eA] at q1 q3
    obtain ⟨c, e1, e2, e3⟩ := fromDigest (sha (sig.take 32 ++ pubb ++ msg))
    have h2 := (scIsCanonical_iff (sig.drop 32)).2 ⟨hdl h1, hs⟩
    have hsb : (scUnmarshal scZero (sig.drop 32)).1 = sig.drop 32 := by
      unfold scUnmarshal; rw [if_neg (by rw [hdl h1]; simp)]
    unfold schnorrVerify
    rw [if_neg (by rw [h1]; simp), r1, Res.bind_ok, if_neg (by rw [r3]; simp), if_neg (by rw [r4]; simp),
      if_neg (by rw [h2]; simp)]
    simp only
    rw [q1, Res.bind_ok, if_neg (by rw [q3]; simp), if_neg (by rw [q4]; simp)]
    unfold schnorrHash
    rw [marshal_rep r2, marshal_rep q2, eR, eA, e1, Res.bind_ok, hsb, if_neg]
    rw [Bool.not_eq_false, ptEq_iff (mulBase (hdl h1) (hs.trans L_lt'))
      (ptAdd_rep r2 (mulPt e2 (by rw [e3]; exact lt255 _) q2)), e3]
    exact heq

end Kyber.Ed
