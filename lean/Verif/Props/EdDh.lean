/-
C95: Diffie-Hellman and ECIES on edwards25519 with points of small order.
-/
import Verif.Props.EdRuns
import Verif.Props.Dh

namespace Kyber.Ed

open Kyber Kyber.ModInt Kyber.Schnorr Kyber.Dh Kyber.Props

/-- Different private keys derive different shared points from a received point. -/
def C95_statement : Prop :=
  ∀ (b : Bytes) (p : EdPt), edDec b = some p → ∀ x y : ZMod L, ptEnc (dhExchange x p) = ptEnc (dhExchange y p) → x = y

/-- The exact extent: it holds for the received points that `has_small_order` does not report. -/
theorem C95_exact_partial (p : EdPt) :
    (∀ x y : ZMod L, ptEnc (dhExchange x p) = ptEnc (dhExchange y p) → x = y) ↔ 8 • p ≠ 0 := by
  constructor
  · intro h h8
    have e : ptEnc (dhExchange (0 : ZMod L) p) = ptEnc (dhExchange (((8 : Nat)) : ZMod L) p) := by
      unfold dhExchange
      rw [act_def, act_def, ZMod.val_zero, zero_smul, val_natCast_L, Nat.mod_eq_of_lt (by decide +kernel), h8]
    have := congrArg ZMod.val (h _ _ e)
    rw [ZMod.val_zero, val_natCast_L, Nat.mod_eq_of_lt (by decide +kernel)] at this
    exact absurd this (by decide)
  · intro h8 x y e
    have e := ptEnc_inj e
    unfold dhExchange at e
    rw [act_def, act_def] at e
    have hL : L • (8 • p) = 0 := (mem_Sub_iff _).1 (eight_smul_mem p)
    have ho : addOrderOf (8 • p) = L := addOrderOf_eq_prime hL h8
    have e8 : x.val • (8 • p) = y.val • (8 • p) := by rw [smul_comm, e, smul_comm]
    have hm := (nsmul_eq_nsmul_iff_modEq).1 e8
    rw [ho] at hm
    have := Nat.ModEq.eq_of_lt_of_lt hm (ZMod.val_lt x) (ZMod.val_lt y)
    exact ZMod.val_injective L this

/-- On a point of small order the shared point depends on the private key modulo 8 only. -/
theorem C95_small_partial (p : EdPt) (h8 : 8 • p = 0) (x : ZMod L) : dhExchange x p = (x.val % 8) • p := by
  unfold dhExchange
  rw [act_def]
  conv_lhs => rw [← Nat.div_add_mod x.val 8, add_smul, mul_comm, mul_smul, h8, smul_zero, zero_add]

/-- One ciphertext, made without knowing any key, opens under every private key, to whatever message its
maker wants. -/
theorem C95_violated_ecies (P : Prims) (hP : P.Lawful) (sha hash : Bytes → Bytes) (msg : Bytes)
    (h1 : ∀ ikm info n, n ≤ 44 → ∃ out, P.hkdf ikm info n = some out)
    (h2 : ∀ key nonce data aad, key.length = 32 → nonce.length = 12 → ∃ c, P.gcmSeal key nonce data aad = some c) :
    ∃ ctx, ∀ x : ZMod L, eciesDecrypt P (edSuite sha hash) x ctx = .ok msg := by
  obtain ⟨c, hc⟩ := C19_encrypt_succeeds P hP (edSuite sha hash) 0 ((0 : ZMod L) • (edSuite sha hash).base) msg h1 h2
  refine ⟨c, fun x => ?_⟩
  have z0 : ∀ q : EdPt, (0 : ZMod L) • q = 0 := fun q => by rw [act_def, ZMod.val_zero, zero_smul]
  refine (C19_round_trip P hP (edSuite sha hash) (edSuite_lawful sha hash) x 0 msg c ?_).1
  rw [← hc]
  unfold eciesEncrypt
  rw [z0 (x • _), z0 ((0 : ZMod L) • _)]

/-- What is encrypted to the neutral element, which `unmarshal_binary` accepts as a public key, opens with
the private key 0, whatever the randomness. -/
theorem C95_violated_recipient (P : Prims) (hP : P.Lawful) (sha hash : Bytes → Bytes) (r : ZMod L) (msg c : Bytes)
    (h : eciesEncrypt P (edSuite sha hash) r (0 : EdPt) msg = .ok c) :
    eciesDecrypt P (edSuite sha hash) (0 : ZMod L) c = .ok msg := by
  refine (C19_round_trip P hP (edSuite sha hash) (edSuite_lawful sha hash) 0 r msg c ?_).1
  rw [← h]
  congr 1

theorem C95_violated : ¬ C95_statement := by
  intro h
  have := (C95_exact_partial 0).1 (h _ 0 (edDec_enc 0))
  exact this (smul_zero _)

/-- The premises on the primitives are met, and the base point is a point without the defect. -/
example (sha hash : Bytes → Bytes) : (∃ ctx, ∀ x : ZMod L, eciesDecrypt Toy.prims (edSuite sha hash) x ctx = .ok [1, 2]) ∧
    (∀ x y : ZMod L, ptEnc (dhExchange x basePt) = ptEnc (dhExchange y basePt) → x = y) :=
  ⟨C95_violated_ecies Toy.prims Toy.prims_lawful sha hash [1, 2] (fun _ _ _ _ => ⟨_, rfl⟩) (fun _ _ _ _ _ _ => ⟨_, rfl⟩),
    (C95_exact_partial basePt).2 RunsExample.accepted_base.2⟩

/-- `C95_small_partial` for the point of order 8. -/
example : dhExchange (5 : ZMod L) tPt = 5 • tPt := by
  have h := C95_small_partial tPt (by rw [← addOrderOf_tPt]; exact addOrderOf_nsmul_eq_zero _) 5
  rwa [show (5 : ZMod L).val = 5 from by decide +kernel] at h

end Kyber.Ed
