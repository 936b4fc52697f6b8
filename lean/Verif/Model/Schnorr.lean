/-
Model of `src/sign/schnorr/schnorr_sig.rs`.
-/
import Verif.Model.Suite
import Mathlib.Algebra.Field.Defs

namespace Kyber.Schnorr

/-- `SignatureError`, sign/error.rs. -/
inductive SigError
  | invalidSignatureLength
  | marshalling
  | rNotCanonical
  | rSmallOrder
  | signatureNotCanonical
  | publicKeyNotCanonical
  | publicKeySmallOrder
  | invalidSignature
  deriving DecidableEq, Repr

variable {F G : Type} [Field F] [Add G] [SMul F G]

omit [Field F] [Add G] [SMul F G] in
/-- `hash`, schnorr_sig.rs:128-141: the challenge, SHA-512 of `R || public || msg` as a scalar. -/
def hash (S : Suite F G) (pub r : G) (msg : Bytes) : F :=
  S.setBytes (S.sha512 (S.encG r ++ S.encG pub ++ msg))

omit [Add G] in
/-- `sign`, schnorr_sig.rs:25-47; `k` is the scalar picked from the random stream. -/
def sign (S : Suite F G) (k x : F) (msg : Bytes) : Bytes :=
  let r := k • S.base
  let pub := x • S.base
  let h := hash S pub r msg
  let s := k + x * h
  S.encG r ++ S.encS s

omit [Field F] in
/-- `verify_with_checks`, schnorr_sig.rs:53-110, checks in the order of the code. -/
def verifyWithChecks [DecidableEq G] (S : Suite F G) (pubb msg sig : Bytes) : Res SigError Unit := do
  if sig.length ≠ S.scalarLen + S.pointLen then .err .invalidSignatureLength else
  let rb := sig.take S.pointLen
  let sb := sig.drop S.pointLen
  let r ← Res.ofOption .marshalling (S.decG rb)
  if S.canonG rb = false then .err .rNotCanonical else
  if S.small r = true then .err .rSmallOrder else
  if S.canonS sb = false then .err .signatureNotCanonical else
  let s ← Res.ofOption .marshalling (S.decS sb)
  let pub ← Res.ofOption .marshalling (S.decG pubb)
  if S.canonG pubb = false then .err .publicKeyNotCanonical else
  if S.small pub = true then .err .publicKeySmallOrder else
  let h := hash S pub r msg
  if s • S.base ≠ r + h • pub then .err .invalidSignature else
  .ok ()

omit [Field F] in
/-- `verify`, schnorr_sig.rs:114-126. -/
def verify [DecidableEq G] (S : Suite F G) (pub : G) (msg sig : Bytes) : Res SigError Unit :=
  verifyWithChecks S (S.encG pub) msg sig

end Kyber.Schnorr
