/-
C130: the signatures accepted under a public key of edwards25519 are those its private key makes, each with
one nonce.
-/
import Verif.Props.EdSig

namespace Kyber.Ed

open Kyber Kyber.ModInt Kyber.Schnorr

/-- The conditions under which a nonce or a private key is usable: not a multiple of the order, and `y`
coordinate of the point below `p - 217` (C86). -/
def UsableKey (k : Nat) : Prop := ¬ L ∣ k ∧ (k • basePt).y.val < P - 217

theorem accepted_base (k : Nat) : Accepted (k • basePt) ↔ UsableKey k := by
  unfold Accepted UsableKey
  rw [Ne, small_base, and_comm]

theorem lt_pow {k : Nat} (h : k < L) : k < 2 ^ 255 := h.trans (by decide +kernel)

theorem base_inj' {a b : Nat} (ha : a < L) (hb : b < L) (h : a • basePt = b • basePt) : a = b :=
  nsmul_injOn_Iio_addOrderOf (x := basePt) (by rw [addOrderOf_base]; exact ha)
    (by rw [addOrderOf_base]; exact hb) h

theorem exists_dlog {R : EdPt} (hR : L • R = 0) : ∃ m < L, m • basePt = R := by
  obtain ⟨n, hn⟩ := AddSubgroup.mem_zmultiples_iff.1 ((mem_Sub_iff R).2 hR)
  have h0 : 0 ≤ n % (L : ℤ) := Int.emod_nonneg _ (by have := L_pos; omega)
  have h1 : n % (L : ℤ) < L := Int.emod_lt_of_pos _ (by have := L_pos; omega)
  refine ⟨(n % (L : ℤ)).toNat, by omega, ?_⟩
  rw [← hn, ← natCast_zsmul, Int.toNat_of_nonneg h0]
  conv_rhs => rw [← Int.emod_add_mul_ediv n L]
  rw [add_smul, mul_comm (L : ℤ), mul_smul, natCast_zsmul, L_smul_base, smul_zero, add_zero]

theorem sigOk_made {sha : Bytes → Bytes} {x : Nat} {msg sig : Bytes} (h : SigOk sha (ptEnc (x • basePt)) msg sig) :
    ∃ k < L, sig = ptEnc (k • basePt) ++ leBytes 32 ((k + x *
      leNat (sha (ptEnc (k • basePt) ++ ptEnc (x • basePt) ++ msg))) % L) := by
  obtain ⟨h1, R, A, h2, h3, -, -, h6, h7⟩ := h
  obtain rfl : A = x • basePt := ptEnc_inj h3
  unfold SigEq at h7
  rw [← h2] at h7
  have hd : (sig.drop 32).length = 32 := by rw [List.length_drop]; omega
  have hs := List.take_append_drop 32 sig
  rw [← h2] at hs
  generalize sig.drop 32 = s at *
  generalize hc : leNat (sha (ptEnc R ++ ptEnc (x • basePt) ++ msg)) = c at *
  have hLx : L • (x • basePt) = 0 := by rw [smul_comm, L_smul_base, smul_zero]
  rw [mod_smul hLx, smul_smul] at h7
  have hR : L • R = 0 := by
    have : R = leNat s • basePt - (c * x) • basePt := by rw [h7]; abel
    rw [this, smul_sub, smul_comm, L_smul_base, smul_comm, L_smul_base, smul_zero, smul_zero, sub_zero]
  obtain ⟨m, hm, rfl⟩ := exists_dlog hR
  refine ⟨m, hm, ?_⟩
  rw [hc, ← hs]
  congr 1
  have e : (m + x * c) % L = leNat s := base_inj' (Nat.mod_lt _ L_pos) h6 (by
    rw [mod_smul_base, add_smul, h7, mul_comm])
  rw [e, ← hd, leBytes_leNat]

/-- C130: under the public key of `x`, verification accepts exactly the signatures that `sign` makes with
`x`, and the nonce is determined by the signature. -/
theorem C130_only_signer (sha : Bytes → Bytes) (x msg sig : Bytes) (hx : x.length = 32) (hx2 : leNat x < 2 ^ 255) :
    schnorrVerify sha (ptMarshal (ptMul x none)) msg sig = .ok () ↔
      UsableKey (leNat x) ∧ ∃! k : Bytes, k.length = 32 ∧ leNat k < L ∧ UsableKey (leNat k) ∧
        schnorrSign sha k x msg = .ok sig := by
  rw [schnorrVerify_iff, marshal_rep (mulBase hx hx2)]
  constructor
  · intro h
    obtain ⟨m, hm, rfl⟩ := sigOk_made h
    obtain ⟨h4, h5⟩ := (sigOk_iff sha m (leNat x) msg).1 h
    have hk0 : leNat (leBytes 32 m) = m := by
      have := leNat_leBytes_mod m
      rwa [Nat.mod_eq_of_lt hm] at this
    refine ⟨(accepted_base _).1 h5, leBytes 32 m, ⟨length_leBytes _ _, ?_, ?_, ?_⟩, ?_⟩
    · rw [hk0]; exact hm
    · rw [hk0]; exact (accepted_base _).1 h4
    · rw [schnorrSign_eq sha _ x msg (length_leBytes _ _) hx (by rw [hk0]; exact lt_pow hm) hx2, hk0]
    · rintro k ⟨k1, k2, -, k4⟩
      rw [schnorrSign_eq sha k x msg k1 hx (lt_pow k2) hx2] at k4
      have e := congrArg (fun b => List.take 32 b) (Res.ok.inj k4)
      simp only [take_enc] at e
      rw [← base_inj' k2 hm (ptEnc_inj e), ← k1, leBytes_leNat]
  · rintro ⟨hxu, k, ⟨k1, k2, k3, k4⟩, -⟩
    rw [schnorrSign_eq sha k x msg k1 hx (lt_pow k2) hx2] at k4
    rw [← Res.ok.inj k4, sigOk_iff]
    exact ⟨(accepted_base _).2 k3, (accepted_base _).2 hxu⟩

/-- C130: the same for EdDSA verification. -/
theorem C130_only_signer_eddsa (sha : Bytes → Bytes) (x msg sig : Bytes) (hx : x.length = 32)
    (hx2 : leNat x < 2 ^ 255) :
    eddsaVerify sha (ptMarshal (ptMul x none)) msg sig = .ok () ↔
      UsableKey (leNat x) ∧ ∃! k : Bytes, k.length = 32 ∧ leNat k < L ∧ UsableKey (leNat k) ∧
        schnorrSign sha k x msg = .ok sig :=
  (C89_agree sha _ msg sig).symm.trans (C130_only_signer sha x msg sig hx hx2)


example (sha : Bytes → Bytes) (msg sig : Bytes) :=
  C130_only_signer_eddsa sha (leBytes 32 (2 ^ 254 + 8)) msg sig (length_leBytes _ _) (by decide +kernel)

/-- C130: a signature accepted for two messages under the same key means that the challenges are congruent
modulo the group order; and then it is accepted for both. -/
theorem C130_second_message (sha : Bytes → Bytes) (x msg msg' sig : Bytes) (hx : x.length = 32)
    (hx2 : leNat x < 2 ^ 255) (h : schnorrVerify sha (ptMarshal (ptMul x none)) msg sig = .ok ()) :
    schnorrVerify sha (ptMarshal (ptMul x none)) msg' sig = .ok () ↔
      leNat (sha (sig.take 32 ++ ptMarshal (ptMul x none) ++ msg)) % L =
        leNat (sha (sig.take 32 ++ ptMarshal (ptMul x none) ++ msg')) % L := by
  rw [schnorrVerify_iff] at h ⊢
  have hp := marshal_rep (mulBase hx hx2)
  rw [hp] at h ⊢
  obtain ⟨h1, R, A, h2, h3, h4, h5, h6, h7⟩ := h
  obtain rfl : A = leNat x • basePt := ptEnc_inj h3
  have hxL : ¬ L ∣ leNat x := ((accepted_base _).1 h5).1
  constructor
  · rintro ⟨-, R', A', b2, b3, -, -, -, b7⟩
    obtain rfl : R' = R := ptEnc_inj (b2.trans h2.symm)
    obtain rfl : A' = leNat x • basePt := ptEnc_inj b3
    unfold SigEq at h7 b7
    rw [h7] at b7
    have e := add_left_cancel b7
    have ho : addOrderOf (leNat x • basePt) = L := by
      refine addOrderOf_eq_prime (by rw [smul_comm, L_smul_base, smul_zero]) ?_
      intro h0
      apply hxL
      rw [← small_base, h0, smul_zero]
    exact nsmul_injOn_Iio_addOrderOf (x := leNat x • basePt) (by rw [ho]; exact Nat.mod_lt _ L_pos)
      (by rw [ho]; exact Nat.mod_lt _ L_pos) e
  · intro he
    refine ⟨h1, R, _, h2, h3, h4, h5, h6, ?_⟩
    unfold SigEq at h7 ⊢
    rw [h7, he]

/-- C130: under a usable key each message has as many accepted signatures as there are usable nonces, all but
at most 435 of the scalars. -/
theorem C130_count (sha : Bytes → Bytes) (x msg : Bytes) (hx : x.length = 32) (hx2 : leNat x < 2 ^ 255)
    (hu : UsableKey (leNat x)) :
    Nat.card {sig : Bytes // schnorrVerify sha (ptMarshal (ptMul x none)) msg sig = .ok ()} =
      Nat.card {k : Fin L // UsableKey k.val} ∧
    L ≤ Nat.card {k : Fin L // UsableKey k.val} + 435 := by
  constructor
  · symm
    refine Nat.card_congr (Equiv.ofBijective (fun k => ⟨ptEnc (k.1.val • basePt) ++ leBytes 32 ((k.1.val + leNat x *
      leNat (sha (ptEnc (k.1.val • basePt) ++ ptEnc (leNat x • basePt) ++ msg))) % L), ?_⟩) ⟨?_, ?_⟩)
    · rw [schnorrVerify_iff, marshal_rep (mulBase hx hx2), sigOk_iff]
      exact ⟨(accepted_base _).2 k.2, (accepted_base _).2 hu⟩
    · intro a b hab
      have e := congrArg (fun b => List.take 32 b) (Subtype.mk.inj hab)
      simp only [take_enc] at e
      exact Subtype.ext (Fin.ext (base_inj' a.1.isLt b.1.isLt (ptEnc_inj e)))
    · rintro ⟨sig, h⟩
      rw [schnorrVerify_iff, marshal_rep (mulBase hx hx2)] at h
      obtain ⟨m, hm, rfl⟩ := sigOk_made h
      exact ⟨⟨⟨m, hm⟩, (accepted_base _).1 ((sigOk_iff sha m (leNat x) msg).1 h).1⟩, rfl⟩
  · classical
    have h := C86_rare_partial
    have e : Nat.card {k : Fin L // UsableKey k.val} + Nat.card {k : Fin L // ¬ UsableKey k.val} = L := by
      rw [Nat.card_eq_fintype_card, Nat.card_eq_fintype_card, Fintype.card_subtype_compl, Fintype.card_fin]
      have := Fintype.card_subtype_le (fun k : Fin L => UsableKey k.val)
      rw [Fintype.card_fin] at this
      exact Nat.add_sub_of_le this
    have h' : Nat.card {k : Fin L // ¬ UsableKey k.val} ≤ 435 := h
    omega

/-- The private key 1 is usable. -/
theorem usable_one : UsableKey (leNat (leBytes 32 1)) := by
  have e : leNat (leBytes 32 1) = 1 := by decide +kernel
  rw [e]
  refine ⟨by decide +kernel, ?_⟩
  rw [one_smul]
  decide +kernel

/-- `C130_only_signer` for the key 1 and the nonce 1: the signature made is accepted, whatever the hash function. -/
example (sha : Bytes → Bytes) (msg : Bytes) : ∃ sig, schnorrSign sha (leBytes 32 1) (leBytes 32 1) msg = .ok sig ∧
    schnorrVerify sha (ptMarshal (ptMul (leBytes 32 1) none)) msg sig = .ok () := by
  have e : leNat (leBytes 32 1) = 1 := by decide +kernel
  obtain ⟨sig, h1, h2⟩ := C86_verifies_partial sha (leBytes 32 1) (leBytes 32 1) msg (length_leBytes _ _)
    (length_leBytes _ _) (by rw [e]; decide +kernel) (by rw [e]; decide +kernel)
  exact ⟨sig, h1, h2.2 ⟨usable_one, usable_one⟩⟩

/-- `C130_second_message`: if the hash function does not look at the message, a signature holds for all. -/
example (msg msg' : Bytes) : ∃ sig,
    schnorrVerify (fun _ => leBytes 64 5) (ptMarshal (ptMul (leBytes 32 1) none)) msg sig = .ok () ∧
    schnorrVerify (fun _ => leBytes 64 5) (ptMarshal (ptMul (leBytes 32 1) none)) msg' sig = .ok () := by
  obtain ⟨sig, -, h⟩ := sample_accepted (fun _ => leBytes 64 5) msg
  exact ⟨sig, h, (C130_second_message _ (leBytes 32 1) msg msg' sig (length_leBytes _ _) (by decide +kernel) h).2 rfl⟩

/-- `C130_count` for the key 1. -/
example (sha : Bytes → Bytes) (msg : Bytes) :
    L ≤ Nat.card {sig : Bytes // schnorrVerify sha (ptMarshal (ptMul (leBytes 32 1) none)) msg sig = .ok ()} + 435 := by
  have h := C130_count sha (leBytes 32 1) msg (length_leBytes _ _) (by decide +kernel)
    (by rw [show leNat (leBytes 32 1) = 1 by decide +kernel]; exact usable_one)
  rw [h.1]
  exact h.2

end Kyber.Ed
