/-
The `Group`/`Suite` traits as seen by the protocol code, and byte strings.
-/
import Verif.Model.Basic

namespace Kyber

/-- `Vec<u8>` / `&[u8]`. -/
abbrev Bytes := List UInt8

/-- `u32::to_le_bytes(n as u32)`: four bytes, least significant first, truncated modulo 2^32. -/
def u32le (n : Nat) : Bytes :=
  [UInt8.ofNat (n % 256), UInt8.ofNat (n / 256 % 256), UInt8.ofNat (n / 65536 % 256),
    UInt8.ofNat (n / 16777216 % 256)]

/-- What the generic protocol code uses of a suite (`group.rs:22-226`, `share/vss/suite.rs`).
Field and group operations themselves come from the algebraic structure on `F` and `G`. -/
structure Suite (F G : Type) where
  /-- `Point::base`, group.rs:93 -/
  base : G
  /-- `BinaryMarshaler for POINT` -/
  encG : G → Bytes
  /-- `BinaryUnmarshaler for POINT`; `none` is `Err` -/
  decG : Bytes → Option G
  /-- `BinaryMarshaler for SCALAR` -/
  encS : F → Bytes
  /-- `BinaryUnmarshaler for SCALAR`; `none` is `Err` -/
  decS : Bytes → Option F
  /-- `PointCanCheckCanonicalAndSmallOrder::is_canonical`, group.rs:142-150 -/
  canonG : Bytes → Bool
  /-- `ScalarCanCheckCanonical::is_canonical`, group.rs:71-75 -/
  canonS : Bytes → Bool
  /-- `PointCanCheckCanonicalAndSmallOrder::has_small_order` -/
  small : G → Bool
  /-- `marshal_size` of a point (and `Group::point_len`) -/
  pointLen : Nat
  /-- `marshal_size` of a scalar -/
  scalarLen : Nat
  /-- the SHA-512 digest -/
  sha512 : Bytes → Bytes
  /-- `Scalar::set_bytes` on a fresh scalar -/
  setBytes : Bytes → F
  /-- `HashFactory::hash()` followed by `update`s of the concatenation and `finalize` -/
  hash : Bytes → Bytes

/-- The scalars act linearly on the multiples of a point. In a group of prime order every point is such
a point; on edwards25519 those of the prime order subgroup are (`C70_exact_partial`). -/
structure Lin (F : Type) {G : Type} [Add F] [Mul F] [Add G] [SMul F G] (B : G) : Prop where
  add : ∀ a b : F, (a + b) • B = a • B + b • B
  mul : ∀ a b : F, (a * b) • B = a • (b • B)

/-- The assumptions on the suite made by theorems about honest parties. -/
structure Suite.Lawful {F G : Type} [Add F] [Mul F] [Add G] [SMul F G] (S : Suite F G) : Prop where
  base_lin : Lin F S.base
  encG_length : ∀ P, (S.encG P).length = S.pointLen
  encS_length : ∀ s, (S.encS s).length = S.scalarLen
  decG_encG : ∀ P, S.decG (S.encG P) = some P
  decS_encS : ∀ s, S.decS (S.encS s) = some s
  canonS_encS : ∀ s, S.canonS (S.encS s) = true
  /-- an accepted scalar encoding is the encoding of its value -/
  canonS_unique : ∀ b s, S.canonS b = true → S.decS b = some s → b = S.encS s

end Kyber
