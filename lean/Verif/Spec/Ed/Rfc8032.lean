/-
Ed25519 as described in RFC 8032, section 5.1, over the group of points `EdPt` of the curve. SHA-512 is
a parameter. Nothing here refers to the code of the library.
-/
import Verif.Lemmas.Ed.Order

namespace Kyber.Rfc8032

open Kyber Kyber.ModInt Kyber.Ed

/-- 5.1.2: 255 bits of `y`, then the least significant bit of `x`. -/
def enc (p : EdPt) : Bytes := leBytes 32 (p.y.val + 2 ^ 255 * (p.x.val % 2))

/-- 5.1.3: `y` must be below `p`, there must be a point with this `y`, and the sign bit must be that
of `x` (so it must not be set if `x = 0`). -/
def Decodes (b : Bytes) (p : EdPt) : Prop :=
  b.length = 32 ∧ leNat b % 2 ^ 255 < P ∧ p.y = ((leNat b % 2 ^ 255 : Nat) : Fp) ∧
    p.x.val % 2 = leNat b / 2 ^ 255

/-- 5.1.5, steps 1 and 2: the lowest three bits of the first 32 bytes are cleared, the highest bit is
cleared, and the second highest is set. -/
def secret (sha : Bytes → Bytes) (seed : Bytes) : Nat :=
  2 ^ 254 + 8 * (leNat ((sha seed).take 32) / 8 % 2 ^ 251)

/-- 5.1.5, steps 3 and 4. -/
noncomputable def pubKey (sha : Bytes → Bytes) (seed : Bytes) : Bytes := enc (secret sha seed • basePt)

/-- 5.1.6. -/
noncomputable def sign (sha : Bytes → Bytes) (seed msg : Bytes) : Bytes :=
  let r := leNat (sha ((sha seed).drop 32 ++ msg))
  let rb := enc (r • basePt)
  let k := leNat (sha (rb ++ pubKey sha seed ++ msg))
  rb ++ leBytes 32 ((r + k * secret sha seed) % L)

/-- 5.1.7: the group equation is `[S]B = R + [k]A` if `cofactor = 1`, and the equation multiplied by 8 if
`cofactor = 8`. The RFC allows both. -/
def Verifies (sha : Bytes → Bytes) (cofactor : Nat) (pub msg sig : Bytes) : Prop :=
  sig.length = 64 ∧ ∃ R A : EdPt, Decodes (sig.take 32) R ∧ Decodes pub A ∧
    leNat (sig.drop 32) < L ∧
    cofactor • (leNat (sig.drop 32) • basePt) =
      cofactor • R + cofactor • (leNat (sha (sig.take 32 ++ pub ++ msg)) • A)

end Kyber.Rfc8032
