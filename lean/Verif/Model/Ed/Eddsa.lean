/-
EdDSA private keys on edwards25519 at the level of bytes, `src/sign/eddsa/eddsa_sig.rs`: how they are
generated, stored, read back, compared and made from a key pair. Signing and verification are in
`Model/Ed/Sig.lean`. SHA-512 and the random stream are parameters.
-/
import Verif.Model.Ed.Sig
import Verif.Model.Ed.KeyPair

namespace Kyber.Ed

open Kyber Kyber.ModInt Kyber.Rand Kyber.Schnorr

/-- `EdDSA::new`, eddsa_sig.rs:32-42, reading from the stream. -/
def edKeyGen {σ : Type} (sha : Bytes → Bytes) (S : Stream σ) (st : σ) : σ × Res StreamError EdKey :=
  match newKeyAndSeed sha S st with
  | (st', .ok k) => (st', .ok ⟨k.1, ptMul k.1 none, k.2.1, k.2.2⟩)
  | (st', .err e) => (st', .err e)
  | (st', .panic) => (st', .panic)

/-- `EdDSA::default`, eddsa_sig.rs:45-54. -/
def edKeyDefault : EdKey := ⟨scZero, extDefault, [], []⟩

/-- `EdDSA::eq`, eddsa_sig.rs:56-72; scalars are compared by their bytes, scalar.rs:80-82. -/
def edKeyEq (a b : EdKey) : Bool :=
  if a.seed ≠ b.seed then false else
  if a.prefix_ ≠ b.prefix_ then false else
  if a.secret ≠ b.secret then false else
  if ptEq a.pub b.pub = false then false else true

/-- `unmarshal_binary`, eddsa_sig.rs:74-91: the receiver and the result. The second half of the buffer is
not looked at. -/
def edKeyUnmarshal (sha : Bytes → Bytes) (self : EdKey) (b : Bytes) : EdKey × Res SigError Unit :=
  if b.length ≠ 64 then (self, .err .marshalling) else
  let k := clampKey (sha (b.take 32))
  (⟨k.1, ptMul k.1 none, b.take 32, k.2⟩, .ok ())

/-- `marshal_binary`, eddsa_sig.rs:93-104: `copy_from_slice` panics when the lengths differ. -/
def edKeyMarshal (e : EdKey) : Res SigError Bytes :=
  let pb := ptMarshal e.pub
  if e.seed.length ≠ 32 then .panic else
  if pb.length ≠ 32 then .panic else
  .ok (e.seed ++ pb)

/-- `From<Pair>`, eddsa_sig.rs:106-116. -/
def edKeyOfPair (p : Pair) : EdKey := ⟨p.priv, p.pub, [], []⟩

end Kyber.Ed
