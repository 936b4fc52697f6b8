/-
ElGamal encryption of embedded data and the three ways of decrypting with a shared key,
src/examples/enc_test.rs and src/examples/dkg_test.rs. These files are the documentation of how
`embed`, `data` and `recover_commit` are meant to be used together; they are compiled with the tests.
-/
import Verif.Model.Ed.Ge
import Verif.Model.Poly

namespace Kyber.Ed

open Kyber Kyber.ModInt

/-- `el_gamal_encrypt`, enc_test.rs:7-27, for edwards25519. The stream `embed` draws from is `S` in
state `st`, `self` is what `group.point()` holds, `k` the bytes of the scalar `pick` returns. The
result: the ephemeral key, the blinded point and the part of the message that does not fit; `none`
and `panic` are those of `embed`. -/
def elGamalEncrypt {σ : Type} (S : Rand.Stream σ) (fuel : Nat) (self : Ext) (st : σ) (k : Bytes)
    (pub : Ext) (message : Bytes) : Option (Res Unit (Ext × Ext × Bytes)) :=
  match embed S (some message) fuel self st with
  | none => none
  | some .panic => some .panic
  | some (.err e) => some (.err e)
  | some (.ok m) =>
    let max := if embedLen > message.length then message.length else embedLen
    let remainder := message.drop max
    let kP := ptMul k none
    let s := ptMul k (some pub)
    let c := ptAdd s m
    some (.ok (kP, c, remainder))

/-- `el_gamal_decrypt`, enc_test.rs:29-40; `none`: the error of `data`. -/
def elGamalDecrypt (pri : Bytes) (k c : Ext) : Option Bytes :=
  let s := ptMul pri (some k)
  let m := ptSub c s
  ptData m

end Kyber.Ed

namespace Kyber.ElGamal

open Kyber.Poly

variable {F G : Type} [AddCommGroup G] [SMul F G]

/-- Variant B, dkg_test.rs:157-166: what the holder of a share publishes to decrypt `(k, c)`. -/
def partialDecryption (k c : G) (s : Share F) : Share G := ⟨s.i, c - s.v • k⟩

/-- Variant C, dkg_test.rs:225-233: the answer of the holder of a share, re-encrypted to the
client's key `q`. -/
def reencryption (u q : G) (s : Share F) : Share G := ⟨s.i, s.v • u + s.v • q⟩

/-- Variant C, dkg_test.rs:237-245: the client with private key `p` opens the recovered point `r`,
`a` the shared public key. -/
def openReencryption (c r a : G) (p : F) : G := c - (r - p • a)

end Kyber.ElGamal
