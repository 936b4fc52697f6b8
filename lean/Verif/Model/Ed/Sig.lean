/-
The signature schemes on edwards25519 at the level of bytes: `src/sign/schnorr/schnorr_sig.rs` with
the group `src/group/edwards25519`, and `src/sign/eddsa/eddsa_sig.rs`.

`Model/Schnorr.lean` and `Model/Eddsa.lean` model the same functions over an abstract group. Here the
scalars are the 32 bytes of `Scalar::v` and the points the extended coordinates of `Point::ge`, as
the code handles them. SHA-512 is a parameter.
-/
import Verif.Model.Ed.Ge
import Verif.Model.Schnorr

namespace Kyber.Ed

open Kyber Kyber.ModInt Kyber.Schnorr

/-- `let mut p = g.point(); p.unmarshal_binary(b)?`: a fresh point as receiver. -/
def decodePt (b : Bytes) : Res SigError Ext :=
  match ptUnmarshal extDefault b with
  | (u, true) => .ok u
  | (_, false) => .err .marshalling

/-- `g.scalar().set_bytes(digest)`: a fresh scalar as receiver. -/
def scFromDigest (d : Bytes) : Res SigError Bytes :=
  Res.mapErr (fun _ => SigError.marshalling) (scSetBytes scZero d)

/-- `hash`, schnorr_sig.rs:128-141. -/
def schnorrHash (sha : Bytes → Bytes) (pub r : Ext) (msg : Bytes) : Res SigError Bytes :=
  scFromDigest (sha (ptMarshal r ++ ptMarshal pub ++ msg))

/-- `sign`, schnorr_sig.rs:25-47; `k` is the scalar picked from the random stream. -/
def schnorrSign (sha : Bytes → Bytes) (k x msg : Bytes) : Res SigError Bytes := do
  let r := ptMul k none
  let pub := ptMul x none
  let h ← schnorrHash sha pub r msg
  let s := scAdd k (scMul x h)
  let sb ← Res.mapErr (fun _ => SigError.marshalling) (scMarshal s)
  .ok (ptMarshal r ++ sb)

/-- `verify_with_checks`, schnorr_sig.rs:53-110. -/
def schnorrVerify (sha : Bytes → Bytes) (pubb msg sig : Bytes) : Res SigError Unit := do
  if sig.length ≠ 64 then .err .invalidSignatureLength else
  let r ← decodePt (sig.take 32)
  if ptIsCanonical (sig.take 32) = false then .err .rNotCanonical else
  if hasSmallOrder r = true then .err .rSmallOrder else
  if scIsCanonical (sig.drop 32) = false then .err .signatureNotCanonical else
  let s := (scUnmarshal scZero (sig.drop 32)).1
  let pub ← decodePt pubb
  if ptIsCanonical pubb = false then .err .publicKeyNotCanonical else
  if hasSmallOrder pub = true then .err .publicKeySmallOrder else
  let h ← schnorrHash sha pub r msg
  if ptEq (ptMul s none) (ptAdd r (ptMul h (some pub))) = false then .err .invalidSignature else
  .ok ()

/-- `EdDSA<Curve>`, eddsa_sig.rs:18-26. -/
structure EdKey where
  secret : Bytes
  pub : Ext
  seed : Bytes
  prefix_ : Bytes

/-- `EdDSA::new`, eddsa_sig.rs:32-42, with the 32 bytes read from the stream; `clampKey` is
`new_key_and_seed_with_input`, curve.rs:74-87. -/
def edKeyNew (sha : Bytes → Bytes) (seed : Bytes) : EdKey :=
  let k := clampKey (sha seed)
  ⟨k.1, ptMul k.1 none, seed, k.2⟩

/-- `EdDSA::sign`, eddsa_sig.rs:120-152. The two `copy_from_slice` calls get 32 bytes each. -/
def eddsaSign (sha : Bytes → Bytes) (e : EdKey) (msg : Bytes) : Res SigError Bytes := do
  let r ← scFromDigest (sha (e.prefix_ ++ msg))
  let rb := ptMarshal (ptMul r none)
  let h ← scFromDigest (sha (rb ++ ptMarshal e.pub ++ msg))
  let s := scAdd r (scMul e.secret h)
  let sb ← Res.mapErr (fun _ => SigError.marshalling) (scMarshal s)
  if rb.length ≠ 32 then .panic else
  if sb.length ≠ 32 then .panic else
  .ok (rb ++ sb)

/-- `verify_with_checks`, eddsa_sig.rs:159-212. -/
def eddsaVerify (sha : Bytes → Bytes) (pubb msg sig : Bytes) : Res SigError Unit := do
  if sig.length ≠ 64 then .err .invalidSignatureLength else
  if scIsCanonical (sig.drop 32) = false then .err .signatureNotCanonical else
  if ptIsCanonical (sig.take 32) = false then .err .rNotCanonical else
  let r ← decodePt (sig.take 32)
  if hasSmallOrder r = true then .err .rSmallOrder else
  let s := (scUnmarshal scZero (sig.drop 32)).1
  if ptIsCanonical pubb = false then .err .publicKeyNotCanonical else
  let pub ← decodePt pubb
  if hasSmallOrder pub = true then .err .publicKeySmallOrder else
  let h ← scFromDigest (sha (sig.take 32 ++ pubb ++ msg))
  if ptEq (ptAdd r (ptMul h (some pub))) (ptMul s none) = false then .err .invalidSignature else
  .ok ()

end Kyber.Ed
