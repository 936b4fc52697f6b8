/-
Model of `src/dh/dh_impl.rs` and `src/encrypt/ecies/ecies_impl.rs`.

HKDF and AES-256-GCM are external crates: parameters.
-/
import Verif.Model.Suite

namespace Kyber.Dh

/-- `DhError`, dh_impl.rs:257-269, and `EciesError`, ecies_impl.rs:91-99. -/
inductive DhError
  | marshalling
  | wrongKeyLength
  | decryptionFailed
  | hkdfFailure
  | keyTooShort
  deriving DecidableEq, Repr

/-- The external primitives. -/
structure Prims where
  /-- `Hkdf::new(None, ikm).expand(info, out)`: ikm, info, length of out; `none` is `Err` -/
  hkdf : Bytes → Bytes → Nat → Option Bytes
  /-- AES-256-GCM encryption: key, nonce, plaintext, additional data -/
  gcmSeal : Bytes → Bytes → Bytes → Bytes → Option Bytes
  /-- AES-256-GCM decryption: key, nonce, ciphertext, additional data -/
  gcmOpen : Bytes → Bytes → Bytes → Bytes → Option Bytes

/-- What is assumed of the external primitives. -/
structure Prims.Lawful (P : Prims) : Prop where
  hkdf_length : ∀ ikm info n out, P.hkdf ikm info n = some out → out.length = n
  open_seal : ∀ key nonce data aad c, P.gcmSeal key nonce data aad = some c →
    P.gcmOpen key nonce c aad = some data

/-- `NONCE_SIZE`, dh_impl.rs:20. -/
def nonceSize : Nat := 12

variable {F G : Type}

/-- `dh_exchange`, dh_impl.rs:74-80. -/
def dhExchange [SMul F G] (ownPrivate : F) (remotePublic : G) : G := ownPrivate • remotePublic

/-- `hkdf`, dh_impl.rs:82-90. -/
def hkdf (P : Prims) (ikm info : Bytes) (outputSize : Option Nat) : Res DhError Bytes :=
  Res.ofOption .hkdfFailure (P.hkdf ikm info (outputSize.getD 32))

/-- `aes_encrypt`, dh_impl.rs:92-121; without additional data the payload has empty `aad`. -/
def aesEncrypt (P : Prims) (key nonce data : Bytes) (aad : Option Bytes) : Res DhError Bytes :=
  if key.length ≠ 32 then .err .wrongKeyLength
  else Res.ofOption .decryptionFailed (P.gcmSeal key nonce data (aad.getD []))

/-- `aes_decrypt`, dh_impl.rs:123-152. -/
def aesDecrypt (P : Prims) (key nonce ciphertext : Bytes) (aad : Option Bytes) :
    Res DhError Bytes :=
  if key.length ≠ 32 then .err .wrongKeyLength
  else Res.ofOption .decryptionFailed (P.gcmOpen key nonce ciphertext (aad.getD []))

/-- `encrypt`, dh_impl.rs:154-165. -/
def encrypt (P : Prims) (S : Suite F G) (preKey : G) (info nonce data : Bytes) :
    Res DhError Bytes := do
  let key ← hkdf P (S.encG preKey) info none
  aesEncrypt P key nonce data (some info)

/-- `decrypt`, dh_impl.rs:167-178. -/
def decrypt (P : Prims) (S : Suite F G) (preKey : G) (info nonce cipher : Bytes) :
    Res DhError Bytes := do
  let key ← hkdf P (S.encG preKey) info none
  aesDecrypt P key nonce cipher (some info)

/-- `AEAD`, dh_impl.rs:185-188. -/
structure AEAD where
  key : Bytes

/-- `AEAD::new`, dh_impl.rs:191-204. -/
def AEAD.new (P : Prims) (S : Suite F G) (pre : G) (context : Bytes) : Res DhError AEAD := do
  let key ← hkdf P (S.encG pre) context none
  if key.length ≠ 32 then .err .wrongKeyLength else .ok ⟨key⟩

/-- The optional destination buffer: `copy_from_slice` panics unless the lengths agree. The
result is the content of the buffer afterwards. -/
def copyOut (dst : Option Bytes) (out : Bytes) : Res DhError (Bytes × Option Bytes) :=
  match dst with
  | none => .ok (out, none)
  | some d => if d.length ≠ out.length then .panic else .ok (out, some out)

/-- `AEAD::seal`, dh_impl.rs:213-225. -/
def AEAD.seal_ (P : Prims) (a : AEAD) (dst : Option Bytes) (nonce plaintext : Bytes)
    (aad : Option Bytes) : Res DhError (Bytes × Option Bytes) := do
  let c ← aesEncrypt P a.key nonce plaintext aad
  copyOut dst c

/-- `AEAD::open`, dh_impl.rs:238-250. -/
def AEAD.open_ (P : Prims) (a : AEAD) (dst : Option Bytes) (nonce ciphertext : Bytes)
    (aad : Option Bytes) : Res DhError (Bytes × Option Bytes) := do
  let m ← aesDecrypt P a.key nonce ciphertext aad
  copyOut dst m

/-- `derive_key`, ecies_impl.rs:81-89. -/
def deriveKey (P : Prims) (S : Suite F G) (dh : G) (len : Nat) : Res DhError Bytes := do
  let key ← hkdf P (S.encG dh) [] (some len)
  if key.length < len then .err .keyTooShort else .ok key

/-- `nonce.copy_from_slice(&buf[32..len])`, ecies_impl.rs:35-36, 71-72. -/
def sliceNonce (buf : Bytes) (len : Nat) : Res DhError Bytes :=
  if buf.length < len then .panic
  else if ((buf.take len).drop 32).length ≠ nonceSize then .panic
  else .ok ((buf.take len).drop 32)

/-- `ecies::encrypt`, ecies_impl.rs:16-50; `r` is the ephemeral scalar. -/
def eciesEncrypt [SMul F G] (P : Prims) (S : Suite F G) (r : F) (pub : G) (msg : Bytes) :
    Res DhError Bytes := do
  let rp := r • S.base
  let dh := r • pub
  let len := 32 + nonceSize
  let buf ← deriveKey P S dh len
  let nonce ← sliceNonce buf len
  let gcm ← AEAD.new P S rp buf
  let c ← gcm.seal_ P none nonce msg none
  .ok (S.encG rp ++ c.1)

/-- `ecies::decrypt`, ecies_impl.rs:58-79; `&ctx[..l]` panics when `ctx` is too short. -/
def eciesDecrypt [SMul F G] (P : Prims) (S : Suite F G) (priv : F) (ctx : Bytes) :
    Res DhError Bytes := do
  if ctx.length < S.pointLen then .panic else
  let rp ← Res.ofOption .marshalling (S.decG (ctx.take S.pointLen))
  let dh := priv • rp
  let len := 32 + nonceSize
  let buf ← deriveKey P S dh len
  let nonce ← sliceNonce buf len
  let gcm ← AEAD.new P S rp buf
  let m ← gcm.open_ P none nonce (ctx.drop S.pointLen) none
  .ok m.1

end Kyber.Dh
