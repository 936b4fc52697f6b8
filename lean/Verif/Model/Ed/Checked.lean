/-
The tests of `src/group/edwards25519/{point,scalar}.rs` that subtract below zero on purpose, and the two
verification functions that call them, as they behave in a build with overflow checks.

`[profile.dev] overflow-checks = false` in the Cargo.toml of the crate (lines 9-10) holds for builds of
the crate itself. Cargo ignores the profiles of dependencies, so that the default of rustc for debug builds,
checks, holds when another crate that depends on this one is built for debugging. A checked subtraction
whose result is below zero panics. The arithmetic on limbs is that of `Model/Ed/Ge.lean`: it does not
overflow on the points that decoding returns (C46_mul_no_overflow, C49_no_overflow).
-/
import Verif.Model.Ed.Sig

namespace Kyber.Ed

open Kyber Kyber.ModInt Kyber.Schnorr

/-- `a - b` on `u16` values with overflow checks. -/
def subChk (a b : UInt16) : Res SigError UInt16 := if a < b then .panic else .ok (a - b)

/-- The loop that collects `k`, point.rs:303-307. -/
def weakLoopChk (s : Bytes) : List Bytes → UInt16 → Res SigError UInt16
  | [], k => .ok k
  | w :: ws, k => do
    let d ← subChk (weakDiff s w).toUInt16 1
    weakLoopChk s ws (k ||| d)

/-- `has_small_order`, point.rs:286-310. -/
def hasSmallOrderChk (p : Ext) : Res SigError Bool := do
  let k ← weakLoopChk (ptMarshal p) weakKeys 0
  .ok (decide ((k >>> 8) &&& 1 > 0))

/-- `Point::is_canonical`, point.rs:322-337; the subtractions for `d` are `wrapping_sub`, the last one
is from 1 of a bit. -/
def ptIsCanonicalChk (b : Bytes) : Res SigError Bool :=
  if b.length ≠ 32 then .ok false
  else do
    let c : UInt8 := (b.getD 31 0 &&& 0x7f) ^^^ 0x7f
    let c := ((List.range 30).map (fun i => 30 - i)).foldl (fun c i => c ||| (b.getD i 0 ^^^ 0xff)) c
    let c ← subChk c.toUInt16 1
    let c := (c >>> 8).toUInt8
    let d := (((0xED : UInt16) - (1 - (b.getD 0 0).toUInt16)) >>> 8).toUInt8
    .ok (1 - (c &&& d &&& 1) == 1)

/-- The loop of `Scalar::is_canonical`, scalar.rs:66-71, over the pairs of bytes from the last on. -/
def canonLoopChk : List (UInt8 × UInt8) → UInt8 → UInt8 → Res SigError (UInt8 × UInt8)
  | [], c, n => .ok (c, n)
  | (x, l) :: t, c, n => do
    let u ← subChk x.toUInt16 l.toUInt16
    let v ← subChk (x.toUInt16 ^^^ l.toUInt16) 1
    canonLoopChk t (c ||| (u >>> 8).toUInt8 &&& n) (n &&& (v >>> 8).toUInt8)

/-- `Scalar::is_canonical`, scalar.rs:54-75. -/
def scIsCanonicalChk (sb : Bytes) : Res SigError Bool :=
  if sb.length ≠ 32 then .ok false
  else if sb.getD 31 0 &&& 0xf0 = 0 then .ok true
  else do
    let r ← canonLoopChk (sb.zip (toBytesLE L)).reverse 0 1
    .ok (r.1 != 0)

/-- `verify_with_checks`, schnorr_sig.rs:53-110. -/
def schnorrVerifyChk (sha : Bytes → Bytes) (pubb msg sig : Bytes) : Res SigError Unit := do
  if sig.length ≠ 64 then .err .invalidSignatureLength else
  let r ← decodePt (sig.take 32)
  let c1 ← ptIsCanonicalChk (sig.take 32)
  if c1 = false then .err .rNotCanonical else
  let o1 ← hasSmallOrderChk r
  if o1 = true then .err .rSmallOrder else
  let c2 ← scIsCanonicalChk (sig.drop 32)
  if c2 = false then .err .signatureNotCanonical else
  let s := (scUnmarshal scZero (sig.drop 32)).1
  let pub ← decodePt pubb
  let c3 ← ptIsCanonicalChk pubb
  if c3 = false then .err .publicKeyNotCanonical else
  let o2 ← hasSmallOrderChk pub
  if o2 = true then .err .publicKeySmallOrder else
  let h ← schnorrHash sha pub r msg
  if ptEq (ptMul s none) (ptAdd r (ptMul h (some pub))) = false then .err .invalidSignature else
  .ok ()

/-- `verify_with_checks`, eddsa_sig.rs:159-212. -/
def eddsaVerifyChk (sha : Bytes → Bytes) (pubb msg sig : Bytes) : Res SigError Unit := do
  if sig.length ≠ 64 then .err .invalidSignatureLength else
  let c1 ← scIsCanonicalChk (sig.drop 32)
  if c1 = false then .err .signatureNotCanonical else
  let c2 ← ptIsCanonicalChk (sig.take 32)
  if c2 = false then .err .rNotCanonical else
  let r ← decodePt (sig.take 32)
  let o1 ← hasSmallOrderChk r
  if o1 = true then .err .rSmallOrder else
  let s := (scUnmarshal scZero (sig.drop 32)).1
  let c3 ← ptIsCanonicalChk pubb
  if c3 = false then .err .publicKeyNotCanonical else
  let pub ← decodePt pubb
  let o2 ← hasSmallOrderChk pub
  if o2 = true then .err .publicKeySmallOrder else
  let h ← scFromDigest (sha (sig.take 32 ++ pubb ++ msg))
  if ptEq (ptAdd r (ptMul h (some pub))) (ptMul s none) = false then .err .invalidSignature else
  .ok ()

end Kyber.Ed
