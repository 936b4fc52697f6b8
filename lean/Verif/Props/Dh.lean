/-
Properties C19-C21: ECIES and Diffie-Hellman encryption.
-/
import Verif.Spec.Ok
import Verif.Lemmas.Dh
import Verif.Lemmas.Lin
import Verif.Spec.Toy
import Mathlib.Algebra.Module.Basic

set_option linter.unusedSectionVars false

namespace Kyber.Props

open Kyber Kyber.Dh

variable {F G : Type} [Field F] [AddCommGroup G]

/-! ## C21: Diffie-Hellman -/

section

variable [SMul F G]

/-- C21: both parties compute the same point. -/
theorem C21_shared_point (a b : F) (B : G) (hB : Lin F B) : dhExchange a (b • B) = dhExchange b (a • B) := by
  unfold dhExchange
  exact hB.comm a b


example := C21_shared_point (3 : ZMod 11) 5 Toy.suite.base Toy.lawful.base_lin

/-- C21: what one party seals with its private key and the other's public key, the other party
opens with its private key and the first one's public key, for equal context, nonce and
additional data. -/
theorem C21_seal_open (P : Prims) (hP : P.Lawful) (S : Suite F G) (hl : Lin F S.base) (a b : F) (context nonce msg : Bytes)
    (aad : Option Bytes) (ka kb : AEAD) (c : Bytes × Option Bytes)
    (ha : AEAD.new P S (dhExchange a (b • S.base)) context = .ok ka)
    (hb : AEAD.new P S (dhExchange b (a • S.base)) context = .ok kb)
    (hc : ka.seal_ P none nonce msg aad = .ok c) :
    kb.open_ P none nonce c.1 aad = .ok (msg, none) := by
  rw [C21_shared_point a b S.base hl, hb] at ha
  cases ha
  unfold AEAD.seal_ aesEncrypt copyOut at hc
  simp only [Res.bind_eq_ok, Res.ite_err_eq_ok, Res.ofOption_eq_ok, Res.ok.injEq] at hc
  obtain ⟨c', ⟨hk, hc'⟩, rfl⟩ := hc
  unfold AEAD.open_ aesDecrypt copyOut
  rw [if_neg hk, hP.open_seal _ _ _ _ _ hc']
  rfl


example := C21_seal_open Toy.prims Toy.prims_lawful Toy.suite Toy.lawful.base_lin (3 : ZMod 11) 5 [1] [4] [7, 8] none
  ⟨Toy.enc 8⟩ ⟨Toy.enc 8⟩ (Toy.enc 8 ++ [4, 7, 8], none) rfl rfl rfl

/-- C21: the same for the one-shot functions `encrypt` / `decrypt`. -/
theorem C21_encrypt_decrypt (P : Prims) (hP : P.Lawful) (S : Suite F G) (hl : Lin F S.base) (a b : F)
    (info nonce msg c : Bytes)
    (h : Dh.encrypt P S (dhExchange a (b • S.base)) info nonce msg = .ok c) :
    Dh.decrypt P S (dhExchange b (a • S.base)) info nonce c = .ok msg := by
  rw [C21_shared_point a b S.base hl] at h
  unfold Dh.encrypt hkdf aesEncrypt at h
  simp only [Res.bind_eq_ok, Res.ite_err_eq_ok, Res.ofOption_eq_ok] at h
  obtain ⟨key, h1, hk, hc⟩ := h
  unfold Dh.decrypt hkdf aesDecrypt
  rw [h1]
  simp only [Res.ofOption_some, Res.bind_ok]
  rw [if_neg hk, hP.open_seal _ _ _ _ _ hc]
  rfl


example : ∃ c, Dh.encrypt Toy.prims Toy.suite (dhExchange (3 : ZMod 11) ((5 : ZMod 11) • Toy.suite.base)) [1]
      (List.replicate 12 4) [7, 8] = .ok c ∧
    Dh.decrypt Toy.prims Toy.suite (dhExchange (5 : ZMod 11) ((3 : ZMod 11) • Toy.suite.base)) [1]
      (List.replicate 12 4) c = .ok [7, 8] := by
  obtain ⟨c, h⟩ := Res.exists_ok (r := Dh.encrypt Toy.prims Toy.suite
    (dhExchange (3 : ZMod 11) ((5 : ZMod 11) • Toy.suite.base)) [1] (List.replicate 12 4) [7, 8]) (by decide +kernel)
  exact ⟨c, h, C21_encrypt_decrypt Toy.prims Toy.prims_lawful Toy.suite Toy.lawful.base_lin _ _ _ _ _ _ h⟩

/-- C21: a key of the wrong length is an error, not a panic. -/
theorem C21_wrong_key_length (P : Prims) (key nonce data : Bytes) (aad : Option Bytes)
    (h : key.length ≠ 32) :
    aesEncrypt P key nonce data aad = .err .wrongKeyLength ∧
    aesDecrypt P key nonce data aad = .err .wrongKeyLength := by
  unfold aesEncrypt aesDecrypt
  rw [if_pos h, if_pos h]
  exact ⟨rfl, rfl⟩


example := C21_wrong_key_length Toy.prims (List.replicate 31 7) [4] [7, 8] none (by decide)

/-- C21: with a destination buffer, `seal` and `open` panic exactly when its length differs from
that of the output, although the documentation says the result is appended. -/
theorem C21_dst_panics (P : Prims) (a : AEAD) (hk : a.key.length = 32) (dst nonce msg c : Bytes)
    (aad : Option Bytes) (hc : P.gcmSeal a.key nonce msg (aad.getD []) = some c) :
    a.seal_ P (some dst) nonce msg aad = if dst.length = c.length then .ok (c, some c) else .panic := by
  unfold AEAD.seal_ aesEncrypt copyOut
  rw [if_neg (by simpa using hk), hc]
  simp only [Res.ofOption_some, Res.bind_ok, ne_eq, ite_not]

example : ∃ ka kb c, AEAD.new Toy.prims Toy.suite (dhExchange (3 : ZMod 11) ((5 : ZMod 11) • Toy.suite.base)) [1] =
      .ok ka ∧
    AEAD.new Toy.prims Toy.suite (dhExchange (5 : ZMod 11) ((3 : ZMod 11) • Toy.suite.base)) [1] = .ok kb ∧
    ka.seal_ Toy.prims none [4] [7, 8] none = .ok c ∧
    kb.open_ Toy.prims none [4] c.1 none = .ok ([7, 8], none) := by
  refine ⟨⟨Toy.enc 8⟩, ⟨Toy.enc 8⟩, (Toy.enc 8 ++ [4, 7, 8], none), rfl, rfl, rfl, ?_⟩
  decide +kernel

/-! ## C19: ECIES round-trip -/

/-- C19: decryption inverts encryption for every key pair, ephemeral scalar and message; the
ciphertext is the encoding of the ephemeral point followed by the AEAD output. -/
theorem C19_round_trip (P : Prims) (hP : P.Lawful) (S : Suite F G) (hS : S.Lawful) (x r : F)
    (msg c : Bytes) (h : eciesEncrypt P S r (x • S.base) msg = .ok c) :
    eciesDecrypt P S x c = .ok msg ∧ ∃ body, c = S.encG (r • S.base) ++ body := by
  unfold eciesEncrypt AEAD.seal_ aesEncrypt copyOut at h
  simp only [Res.bind_eq_ok, Res.ite_err_eq_ok, Res.ofOption_eq_ok, Res.ok.injEq] at h
  obtain ⟨buf, hbuf, nonce, hnonce, gcm, hgcm, _, ⟨body, ⟨hk, hbody⟩, rfl⟩, rfl⟩ := h
  refine ⟨?_, body, rfl⟩
  unfold eciesDecrypt AEAD.open_ aesDecrypt copyOut
  rw [if_neg (by simp [hS.encG_length]), List.take_left' (hS.encG_length _),
    List.drop_left' (hS.encG_length _), hS.decG_encG]
  simp only [Res.ofOption_some, Res.bind_ok]
  rw [show x • r • S.base = r • x • S.base from hS.base_lin.comm x r]
  simp only [hbuf, hnonce, hgcm, Res.bind_ok]
  rw [if_neg hk, hP.open_seal _ _ _ _ _ hbody]
  rfl

/-- C19: encryption succeeds whenever the external primitives do. -/
theorem C19_encrypt_succeeds (P : Prims) (hP : P.Lawful) (S : Suite F G) (r : F) (pub : G) (msg : Bytes)
    (h1 : ∀ ikm info n, n ≤ 44 → ∃ out, P.hkdf ikm info n = some out)
    (h2 : ∀ key nonce data aad, key.length = 32 → nonce.length = 12 →
      ∃ c, P.gcmSeal key nonce data aad = some c) :
    ∃ c, eciesEncrypt P S r pub msg = .ok c := by
  obtain ⟨buf, hbuf⟩ := h1 (S.encG (r • pub)) [] 44 (by omega)
  have hbl := hP.hkdf_length _ _ _ _ hbuf
  obtain ⟨key, hkey⟩ := h1 (S.encG (r • S.base)) buf 32 (by omega)
  have hkl := hP.hkdf_length _ _ _ _ hkey
  obtain ⟨c, hc⟩ := h2 key ((buf.take 44).drop 32) msg [] hkl (by simp; omega)
  refine ⟨S.encG (r • S.base) ++ c, ?_⟩
  unfold eciesEncrypt
  have e1 : deriveKey P S (r • pub) (32 + nonceSize) = .ok buf := deriveKey_ok hP hbuf
  have e2 : sliceNonce buf (32 + nonceSize) = .ok ((buf.take 44).drop 32) := sliceNonce_ok hbl
  have e3 : AEAD.new P S (r • S.base) buf = .ok ⟨key⟩ := AEAD.new_ok hP hkey
  simp only [e1, e2, e3, Res.bind_ok]
  unfold AEAD.seal_ aesEncrypt copyOut
  rw [if_neg (by simpa using hkl), Option.getD_none, hc]
  rfl

example : ∃ c, eciesEncrypt Toy.prims Toy.suite (4 : ZMod 11) ((3 : ZMod 11) • Toy.suite.base) [9, 9] = .ok c ∧
    eciesDecrypt Toy.prims Toy.suite (3 : ZMod 11) c = .ok [9, 9] := by
  obtain ⟨c, hc⟩ := C19_encrypt_succeeds Toy.prims Toy.prims_lawful Toy.suite (4 : ZMod 11)
    ((3 : ZMod 11) • Toy.suite.base) [9, 9] (fun _ _ _ _ => ⟨_, rfl⟩) (fun _ _ _ _ _ _ => ⟨_, rfl⟩)
  exact ⟨c, hc, (C19_round_trip _ Toy.prims_lawful _ Toy.lawful _ _ _ _ hc).1⟩

/-! ## C20: malformed ciphertexts -/

/-- C20, the full statement. -/
def C20_statement : Prop :=
  ∀ (F G : Type) [Field F] [AddCommGroup G] [Module F G] (P : Prims) (S : Suite F G),
    P.Lawful → S.Lawful → ∀ (x : F) (ctx : Bytes), eciesDecrypt P S x ctx ≠ .panic

/-- C20: `decrypt` panics exactly on the ciphertexts shorter than an encoded point. -/
theorem C20_panics_iff (P : Prims) (hP : P.Lawful) (S : Suite F G) (x : F) (ctx : Bytes) :
    eciesDecrypt P S x ctx = .panic ↔ ctx.length < S.pointLen := by
  constructor
  · intro h
    by_contra hlen
    unfold eciesDecrypt at h
    rw [if_neg hlen] at h
    cases hd : S.decG (ctx.take S.pointLen) with
    | none => rw [hd] at h; simp at h
    | some rp =>
      rw [hd] at h
      simp only [Res.ofOption_some, Res.bind_ok] at h
      cases hb : P.hkdf (S.encG (x • rp)) [] 44 with
      | none =>
        have e1 : deriveKey P S (x • rp) (32 + nonceSize) = .err .hkdfFailure := by
          unfold deriveKey hkdf
          rw [show (some (32 + nonceSize)).getD 32 = 44 from rfl, hb]
          rfl
        simp [e1] at h
      | some buf =>
        have hbl := hP.hkdf_length _ _ _ _ hb
        simp only [deriveKey_ok hP hb, sliceNonce_ok hbl, Res.bind_ok] at h
        cases hk : P.hkdf (S.encG rp) buf 32 with
        | none =>
          have e3 : AEAD.new P S rp buf = .err .hkdfFailure := by
            unfold AEAD.new hkdf
            rw [Option.getD_none, hk]
            rfl
          simp [e3] at h
        | some key =>
          have hkl := hP.hkdf_length _ _ _ _ hk
          simp only [AEAD.new_ok hP hk, Res.bind_ok] at h
          unfold AEAD.open_ aesDecrypt copyOut at h
          rw [if_neg (by simpa using hkl)] at h
          cases ho : P.gcmOpen key ((buf.take 44).drop 32) (ctx.drop S.pointLen)
              (Option.getD none []) with
          | none => rw [ho] at h; simp at h
          | some m => rw [ho] at h; simp at h
  · intro h
    unfold eciesDecrypt
    rw [if_pos h]


example := (C20_panics_iff Toy.prims Toy.prims_lawful Toy.suite (3 : ZMod 11) [1, 2]).2 (by decide)

/-- C20 is violated: the empty ciphertext makes `decrypt` panic. -/
theorem C20_violated : ¬ C20_statement := by
  intro h
  exact h _ _ Toy.prims Toy.suite Toy.prims_lawful Toy.lawful (3 : ZMod 11) [] rfl

/-- C20, proved part: on every ciphertext at least as long as a point, `decrypt` returns a
plaintext or an error. -/
theorem C20_no_panic_partial (P : Prims) (hP : P.Lawful) (S : Suite F G) (x : F) (ctx : Bytes)
    (h : S.pointLen ≤ ctx.length) : eciesDecrypt P S x ctx ≠ .panic := by
  rw [ne_eq, C20_panics_iff P hP]; omega

example : eciesDecrypt Toy.prims Toy.suite (3 : ZMod 11) (List.replicate 40 0) =
    .err .decryptionFailed := by
  decide +kernel

end

end Kyber.Props
