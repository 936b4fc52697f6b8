/-
Model of `src/sign/eddsa/eddsa_sig.rs` and of the key derivation in
`src/group/edwards25519/curve.rs:74-105`.

Simplification: the group is the abstract `F`-module `G`; the secret scalar is the value of the
clamped 32 bytes as an element of `F` (`leScalar`). The clamping itself is on bytes.
-/
import Verif.Model.Schnorr

namespace Kyber.Eddsa

open Kyber.Schnorr

/-- `EdDSA<GROUP>`, eddsa_sig.rs:18-26. -/
structure EdDSA (F G : Type) where
  secret : F
  pub : G
  seed : Bytes
  prefix_ : Bytes
  deriving DecidableEq, Repr

/-- Bit tweaks of the first half of the digest, curve.rs:79-81. -/
def clamp (digest : Bytes) : Bytes :=
  ((digest.set 0 (digest.getD 0 0 &&& 0xf8)).set 31
    ((digest.getD 31 0 &&& 0x7f) ||| 0x40))

variable {F G : Type} [Field F] [Add G] [SMul F G]

omit [Field F] [Add G] [SMul F G] in
/-- `new_key_and_seed_with_input`, curve.rs:74-87: secret and prefix. `leScalar` reads 32
little-endian bytes as a scalar. -/
def newKey (S : Suite F G) (leScalar : Bytes → F) (seed : Bytes) : F × Bytes :=
  let d := clamp (S.sha512 seed)
  (leScalar (d.take 32), d.drop 32)

omit [Field F] [Add G] in
/-- `EdDSA::new`, eddsa_sig.rs:32-42, with the 32 bytes read from the stream. -/
def new (S : Suite F G) (leScalar : Bytes → F) (seed : Bytes) : EdDSA F G :=
  let k := newKey S leScalar seed
  ⟨k.1, k.1 • S.base, seed, k.2⟩

omit [Field F] [Add G] in
/-- `unmarshal_binary`, eddsa_sig.rs:76-90: the second half of the buffer is ignored. On error
the receiver is left as it was. -/
def unmarshal (S : Suite F G) (leScalar : Bytes → F) (buff : Bytes) : Res SigError (EdDSA F G) :=
  if buff.length ≠ 64 then .err .marshalling
  else
    let k := newKey S leScalar (buff.take 32)
    .ok ⟨k.1, k.1 • S.base, buff.take 32, k.2⟩

omit [Field F] [Add G] [SMul F G] in
/-- `marshal_binary`, eddsa_sig.rs:96-103: `copy_from_slice` panics on a length mismatch. -/
def marshal (S : Suite F G) (e : EdDSA F G) : Res SigError Bytes :=
  if e.seed.length ≠ 32 then .panic
  else if (S.encG e.pub).length ≠ 32 then .panic
  else .ok (e.seed ++ S.encG e.pub)

omit [Field F] [Add G] [SMul F G] in
/-- `From<Pair>`, eddsa_sig.rs:106-116: no seed and an empty prefix. -/
def fromPair (priv : F) (pub : G) : EdDSA F G := ⟨priv, pub, [], []⟩

omit [Add G] in
/-- `EdDSA::sign`, eddsa_sig.rs:120-152. -/
def sign (S : Suite F G) (e : EdDSA F G) (msg : Bytes) : Res SigError Bytes :=
  let r := S.setBytes (S.sha512 (e.prefix_ ++ msg))
  let rb := S.encG (r • S.base)
  let h := S.setBytes (S.sha512 (rb ++ S.encG e.pub ++ msg))
  let sb := S.encS (r + e.secret * h)
  if rb.length ≠ 32 then .panic
  else if sb.length ≠ 32 then .panic
  else .ok (rb ++ sb)

omit [Field F] in
/-- `verify_with_checks`, eddsa_sig.rs:159-212, checks in the order of the code; the challenge
hashes the received bytes. -/
def verifyWithChecks [DecidableEq G] (S : Suite F G) (pubb msg sig : Bytes) : Res SigError Unit := do
  if sig.length ≠ 64 then .err .invalidSignatureLength else
  let rb := sig.take 32
  let sb := sig.drop 32
  if S.canonS sb = false then .err .signatureNotCanonical else
  if S.canonG rb = false then .err .rNotCanonical else
  let r ← Res.ofOption .marshalling (S.decG rb)
  if S.small r = true then .err .rSmallOrder else
  let s ← Res.ofOption .marshalling (S.decS sb)
  if S.canonG pubb = false then .err .publicKeyNotCanonical else
  let pub ← Res.ofOption .marshalling (S.decG pubb)
  if S.small pub = true then .err .publicKeySmallOrder else
  let h := S.setBytes (S.sha512 (rb ++ pubb ++ msg))
  if r + h • pub ≠ s • S.base then .err .invalidSignature else
  .ok ()

omit [Field F] in
/-- `verify`, eddsa_sig.rs:216-219. -/
def verify [DecidableEq G] (S : Suite F G) (pub : G) (msg sig : Bytes) : Res SigError Unit :=
  verifyWithChecks S (S.encG pub) msg sig

end Kyber.Eddsa
