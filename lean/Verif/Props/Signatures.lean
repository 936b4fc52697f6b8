/-
Properties C11-C16: Schnorr and EdDSA signatures.
-/
import Verif.Lemmas.Schnorr
import Verif.Spec.Toy
import Mathlib.Tactic.Ring
import Mathlib.Tactic.Abel

set_option linter.unusedSectionVars false

namespace Kyber.Props

open Kyber Kyber.Schnorr

variable {F G : Type} [Field F] [AddCommGroup G] [DecidableEq G]

/-! ## C12: exact acceptance -/

section

variable [SMul F G]

omit [Field F] [SMul F G] in
/-- C12: `verify_with_checks` accepts exactly the well-formed signatures that satisfy the
Schnorr equation. No assumption on the suite. -/
theorem C12_accepts_iff [SMul F G] (S : Suite F G) (pubb msg sig : Bytes) :
    verifyWithChecks S pubb msg sig = .ok () ↔
      sig.length = S.pointLen + S.scalarLen ∧
      ∃ (R A : G) (s : F),
        S.decG (sig.take S.pointLen) = some R ∧ S.canonG (sig.take S.pointLen) = true ∧
        S.small R = false ∧
        S.decS (sig.drop S.pointLen) = some s ∧ S.canonS (sig.drop S.pointLen) = true ∧
        S.decG pubb = some A ∧ S.canonG pubb = true ∧ S.small A = false ∧
        s • S.base = R + S.setBytes (S.sha512 (S.encG R ++ S.encG A ++ msg)) • A := by
  unfold verifyWithChecks
  simp only [ite_err_iff, ofOption_bind_iff, Schnorr.hash, ne_eq, not_not, Bool.not_eq_false,
    Bool.not_eq_true]
  constructor
  · rintro ⟨h0, R, h1, h2, h3, h4, s, h5, A, h6, h7, h8, h9⟩
    exact ⟨by omega, R, A, s, h1, h2, h3, h5, h4, h6, h7, h8, not_not.1 (ite_err_iff.1 h9).1⟩
  · rintro ⟨h0, R, A, s, h1, h2, h3, h4, h5, h6, h7, h8, h9⟩
    exact ⟨by omega, R, h1, h2, h3, h5, s, h4, A, h6, h7, h8,
      ite_err_iff.2 ⟨not_not.2 h9, rfl⟩⟩

omit [Field F] [SMul F G] in
/-- C12: verification never panics, whatever bytes it is given. -/
theorem C12_never_panics [SMul F G] (S : Suite F G) (pubb msg sig : Bytes) :
    verifyWithChecks S pubb msg sig ≠ .panic := by
  unfold verifyWithChecks
  refine ite_err_panic (ofOption_bind_panic fun R => ite_err_panic (ite_err_panic (ite_err_panic
    (ofOption_bind_panic fun s => ofOption_bind_panic fun A => ite_err_panic (ite_err_panic
      (ite_err_panic ?_))))))
  simp

/-- C12: for a given `R` part, key and message only one signature is accepted: changing the
encoding of `s` in any way is noticed. -/
theorem C12_not_malleable (S : Suite F G) (hS : S.Lawful)
    (hB : ∀ s : F, s • S.base = 0 → s = 0) (pubb msg sig sig' : Bytes)
    (h : verifyWithChecks S pubb msg sig = .ok ())
    (h' : verifyWithChecks S pubb msg sig' = .ok ())
    (hR : sig.take S.pointLen = sig'.take S.pointLen) : sig = sig' := by
  obtain ⟨-, R, A, s, h1, -, -, h2, h3, h4, -, -, h5⟩ := (C12_accepts_iff S pubb msg sig).1 h
  obtain ⟨-, R', A', s', h1', -, -, h2', h3', h4', -, -, h5'⟩ := (C12_accepts_iff S pubb msg sig').1 h'
  rw [← hR, h1, Option.some.injEq] at h1'
  rw [h4, Option.some.injEq] at h4'
  subst h1' h4'
  have hs : s = s' := smul_base_inj hS.base_lin hB (h5.trans h5'.symm)
  subst hs
  rw [← List.take_append_drop S.pointLen sig, ← List.take_append_drop S.pointLen sig', hR,
    hS.canonS_unique _ _ h3 h2, hS.canonS_unique _ _ h3' h2']

/-- A signature of the toy suite is accepted, one with another `s` and one for another message
are refused. -/
example :
    verifyWithChecks Toy.suite (Toy.enc 6) [1, 2] (sign Toy.suite 4 3 [1, 2]) = .ok () ∧
    verifyWithChecks Toy.suite (Toy.enc 6) [1, 2] (Toy.enc 8 ++ Toy.enc 1) =
      .err .invalidSignature ∧
    verifyWithChecks Toy.suite (Toy.enc 6) [1, 2] [7] = .err .invalidSignatureLength ∧
    verifyWithChecks Toy.suite (Toy.enc 0) [1, 2] (sign Toy.suite 4 3 [1, 2]) =
      .err .publicKeySmallOrder := by
  decide +kernel

/-! ## C11: completeness -/

/-- C11: an honestly produced signature verifies, for every key, nonce and message, if the two
points involved pass the canonicity and small order tests. -/
theorem C11_sign_verify (S : Suite F G) (hS : S.Lawful) (k x : F) (msg : Bytes)
    (hR : S.canonG (S.encG (k • S.base)) = true) (hR' : S.small (k • S.base) = false)
    (hA : S.canonG (S.encG (x • S.base)) = true) (hA' : S.small (x • S.base) = false) :
    verify S (x • S.base) msg (sign S k x msg) = .ok () := by
  unfold verify
  rw [C12_accepts_iff]
  have ht : (sign S k x msg).take S.pointLen = S.encG (k • S.base) := by
    unfold sign; rw [List.take_left' (hS.encG_length _)]
  have hd : (sign S k x msg).drop S.pointLen =
      S.encS (k + x * hash S (x • S.base) (k • S.base) msg) := by
    unfold sign; rw [List.drop_left' (hS.encG_length _)]
  rw [ht, hd]
  refine ⟨by simp [sign, hS.encG_length, hS.encS_length], _, _, _, hS.decG_encG _, hR, hR',
    hS.decS_encS _, hS.canonS_encS _, hS.decG_encG _, hA, hA', ?_⟩
  exact sign_eq hS.base_lin _ _ _


example : verify Toy.suite ((3 : ZMod 11) • Toy.suite.base) [1, 2] (sign Toy.suite 4 3 [1, 2]) = .ok () :=
  C11_sign_verify Toy.suite Toy.lawful 4 3 [1, 2] (by decide +kernel) (by decide +kernel)
    (by decide +kernel) (by decide +kernel)

/-- C11, the exceptions are real: with a key of small order the signature is refused. -/
theorem C11_small_order_refused (S : Suite F G) (hS : S.Lawful) (k x : F) (msg : Bytes)
    (hR' : S.small (k • S.base) = true ∨ S.small (x • S.base) = true) :
    verify S (x • S.base) msg (sign S k x msg) ≠ .ok () := by
  unfold verify
  rw [ne_eq, C12_accepts_iff]
  rintro ⟨-, R, A, s, h1, -, h3, -, -, h6, -, h8, -⟩
  have ht : (sign S k x msg).take S.pointLen = S.encG (k • S.base) := by
    unfold sign; rw [List.take_left' (hS.encG_length _)]
  rw [ht, hS.decG_encG, Option.some.injEq] at h1
  rw [hS.decG_encG, Option.some.injEq] at h6
  subst h1 h6
  rcases hR' with h | h
  · rw [h] at h3; cases h3
  · rw [h] at h8; cases h8

example : Toy.suite.Lawful ∧
    Toy.suite.canonG (Toy.suite.encG ((4 : ZMod 11) • Toy.suite.base)) = true ∧
    Toy.suite.small ((4 : ZMod 11) • Toy.suite.base) = false ∧
    Toy.suite.canonG (Toy.suite.encG ((3 : ZMod 11) • Toy.suite.base)) = true ∧
    Toy.suite.small ((3 : ZMod 11) • Toy.suite.base) = false :=
  ⟨Toy.lawful, by decide +kernel⟩

/-! ## C13: special soundness -/

/-- C13: two accepted signatures with the same `R` and different challenges under the key
`x * B` give away `x`. The challenges are those the verifier recomputes. -/
theorem C13_special_soundness (S : Suite F G) (hl : Lin F S.base) (hB : ∀ s : F, s • S.base = 0 → s = 0)
    (x : F) (pubb msg msg' sig sig' : Bytes) (hx : S.decG pubb = some (x • S.base))
    (h : verifyWithChecks S pubb msg sig = .ok ())
    (h' : verifyWithChecks S pubb msg' sig' = .ok ())
    (hR : sig.take S.pointLen = sig'.take S.pointLen) :
    ∃ (R : G) (s s' : F), S.decG (sig.take S.pointLen) = some R ∧
      S.decS (sig.drop S.pointLen) = some s ∧ S.decS (sig'.drop S.pointLen) = some s' ∧
      let c := S.setBytes (S.sha512 (S.encG R ++ S.encG (x • S.base) ++ msg))
      let c' := S.setBytes (S.sha512 (S.encG R ++ S.encG (x • S.base) ++ msg'))
      (c ≠ c' → x = (s - s') / (c - c')) := by
  obtain ⟨-, R, A, s, h1, -, -, h2, -, h4, -, -, h5⟩ := (C12_accepts_iff S pubb msg sig).1 h
  obtain ⟨-, R', A', s', h1', -, -, h2', -, h4', -, -, h5'⟩ :=
    (C12_accepts_iff S pubb msg' sig').1 h'
  refine ⟨R, s, s', h1, h2, h2', ?_⟩
  rw [← hR, h1, Option.some.injEq] at h1'
  rw [hx, Option.some.injEq] at h4 h4'
  subst h1' h4 h4'
  intro c c' hc
  have : s - s' = (c - c') * x := by
    apply smul_base_inj hl hB
    rw [hl.sub, h5, h5', hl.mul, (hl.smul x).sub]
    abel
  rw [this, mul_div_cancel_left₀ _ (sub_ne_zero.2 hc)]


example := C13_special_soundness Toy.suite (Lin.of_module _) Toy.base_inj (3 : ZMod 11) (Toy.enc 6) [1, 2] [1, 3]
  (sign Toy.suite 4 3 [1, 2]) (sign Toy.suite 4 3 [1, 3]) (by decide +kernel) (by decide +kernel)
  (by decide +kernel) (by decide +kernel)

/-- C13: a signer that uses the same nonce for two messages with different challenges gives
away the key to anyone holding the two signatures. -/
theorem C13_nonce_reuse (S : Suite F G) (hS : S.Lawful) (k x : F) (msg msg' : Bytes)
    (hc : hash S (x • S.base) (k • S.base) msg ≠ hash S (x • S.base) (k • S.base) msg') :
    ∃ s s', S.decS ((sign S k x msg).drop S.pointLen) = some s ∧
      S.decS ((sign S k x msg').drop S.pointLen) = some s' ∧
      x = (s - s') /
        (hash S (x • S.base) (k • S.base) msg - hash S (x • S.base) (k • S.base) msg') := by
  refine ⟨k + x * hash S (x • S.base) (k • S.base) msg,
    k + x * hash S (x • S.base) (k • S.base) msg', ?_, ?_, ?_⟩
  · unfold sign; rw [List.drop_left' (hS.encG_length _), hS.decS_encS]
  · unfold sign; rw [List.drop_left' (hS.encG_length _), hS.decS_encS]
  · rw [eq_div_iff (sub_ne_zero.2 hc)]; ring

example : hash Toy.suite (6 : ZMod 11) 8 [1, 2] ≠ hash Toy.suite 6 8 [1, 3] ∧
    verifyWithChecks Toy.suite (Toy.enc 6) [1, 2] (sign Toy.suite 4 3 [1, 2]) = .ok () ∧
    verifyWithChecks Toy.suite (Toy.enc 6) [1, 3] (sign Toy.suite 4 3 [1, 3]) = .ok () ∧
    (sign Toy.suite 4 3 [1, 2]).take 32 = (sign Toy.suite 4 3 [1, 3]).take 32 := by
  decide +kernel

/-! ## C14: EdDSA -/

open Kyber.Eddsa in
omit [Field F] [SMul F G] in
/-- Exact acceptance condition of `eddsa::verify_with_checks`. -/
theorem C14_accepts_iff [SMul F G] (S : Suite F G) (pubb msg sig : Bytes) :
    Eddsa.verifyWithChecks S pubb msg sig = .ok () ↔
      sig.length = 64 ∧
      ∃ (R A : G) (s : F),
        S.decG (sig.take 32) = some R ∧ S.canonG (sig.take 32) = true ∧ S.small R = false ∧
        S.decS (sig.drop 32) = some s ∧ S.canonS (sig.drop 32) = true ∧
        S.decG pubb = some A ∧ S.canonG pubb = true ∧ S.small A = false ∧
        s • S.base = R + S.setBytes (S.sha512 (sig.take 32 ++ pubb ++ msg)) • A := by
  unfold Eddsa.verifyWithChecks
  simp only [ite_err_iff, ofOption_bind_iff, ne_eq, not_not, Bool.not_eq_false,
    Bool.not_eq_true, and_true]
  constructor
  · rintro ⟨h0, h1, h2, R, h3, h4, s, h5, h6, A, h7, h8, h9⟩
    exact ⟨h0, R, A, s, h3, h2, h4, h5, h1, h7, h6, h8, h9.symm⟩
  · rintro ⟨h0, R, A, s, h1, h2, h3, h4, h5, h6, h7, h8, h9⟩
    exact ⟨h0, h5, h2, R, h1, h3, s, h4, h7, A, h6, h8, h9.symm⟩

omit [Field F] [SMul F G] in
/-- `eddsa::verify_with_checks` never panics. -/
theorem C14_never_panics [SMul F G] (S : Suite F G) (pubb msg sig : Bytes) :
    Eddsa.verifyWithChecks S pubb msg sig ≠ .panic := by
  unfold Eddsa.verifyWithChecks
  refine ite_err_panic (ite_err_panic (ite_err_panic (ofOption_bind_panic fun R => ite_err_panic
    (ofOption_bind_panic fun s => ite_err_panic (ofOption_bind_panic fun A => ite_err_panic
      (ite_err_panic ?_))))))
  simp

/-- C14: for every seed and message `sign` returns one 64-byte signature (`R || s`, determined
by key and message: no randomness enters) and it verifies under the key's public point. -/
theorem C14_sign_verify (S : Suite F G) (hS : S.Lawful) (hG : S.pointLen = 32)
    (hF : S.scalarLen = 32) (leScalar : Bytes → F) (seed msg : Bytes)
    (hA : S.canonG (S.encG (Eddsa.new S leScalar seed).pub) = true)
    (hA' : S.small (Eddsa.new S leScalar seed).pub = false)
    (hR : ∀ r : F, r = S.setBytes (S.sha512 ((Eddsa.new S leScalar seed).prefix_ ++ msg)) →
      S.canonG (S.encG (r • S.base)) = true ∧ S.small (r • S.base) = false) :
    ∃ sig, Eddsa.sign S (Eddsa.new S leScalar seed) msg = .ok sig ∧ sig.length = 64 ∧
      Eddsa.verify S (Eddsa.new S leScalar seed).pub msg sig = .ok () := by
  generalize he : Eddsa.new S leScalar seed = e at *
  have hpub : e.pub = e.secret • S.base := by rw [← he]; rfl
  have l1 := fun P => (hS.encG_length P).trans hG
  have l2 := fun P => (hS.encS_length P).trans hF
  obtain ⟨hR1, hR2⟩ := hR _ rfl
  unfold Eddsa.sign
  simp only
  rw [if_neg (by simp [l1]), if_neg (by simp [l2])]
  refine ⟨_, rfl, by simp [l1, l2], ?_⟩
  unfold Eddsa.verify
  rw [C14_accepts_iff]
  rw [List.take_left' (l1 _), List.drop_left' (l1 _)]
  refine ⟨by simp [l1, l2], _, _, _, hS.decG_encG _, hR1, hR2, hS.decS_encS _, hS.canonS_encS _,
    hS.decG_encG _, hA, hA', ?_⟩
  rw [hpub, sign_eq hS.base_lin]


example := C14_sign_verify Toy.suite Toy.lawful rfl rfl (fun _ => (3 : ZMod 11)) [1, 2, 3] [4, 6]
  (by decide +kernel) (by decide +kernel) (by rintro r rfl; decide +kernel)

/-- C14: EdDSA and Schnorr verification agree on signatures by the same key: a Schnorr signature
of this library is also accepted by `eddsa::verify`. -/
theorem C14_schnorr_is_eddsa (S : Suite F G) (hS : S.Lawful) (hG : S.pointLen = 32)
    (hF : S.scalarLen = 32) (k x : F) (msg : Bytes) :
    Eddsa.verify S (x • S.base) msg (sign S k x msg) = .ok () ↔
      verify S (x • S.base) msg (sign S k x msg) = .ok () := by
  unfold Eddsa.verify verify
  rw [C14_accepts_iff, C12_accepts_iff, hG, hF]
  have ht : (sign S k x msg).take 32 = S.encG (k • S.base) := by
    unfold sign; rw [List.take_left' ((hS.encG_length _).trans hG)]
  rw [ht, hS.decG_encG, hS.decG_encG]
  constructor
  · rintro ⟨h0, R, A, s, h1, h2, h3, h4, h5, h6, h7, h8, h9⟩
    refine ⟨h0, R, A, s, h1, h2, h3, h4, h5, h6, h7, h8, ?_⟩
    rw [Option.some.injEq] at h1 h6
    subst h1 h6
    exact h9
  · rintro ⟨h0, R, A, s, h1, h2, h3, h4, h5, h6, h7, h8, h9⟩
    refine ⟨h0, R, A, s, h1, h2, h3, h4, h5, h6, h7, h8, ?_⟩
    rw [Option.some.injEq] at h1 h6
    subst h1 h6
    exact h9

/-- The toy suite with seed `[5]`: all hypotheses hold and the signature verifies. -/
example :
    Toy.suite.canonG (Toy.suite.encG (Eddsa.new Toy.suite Toy.setBytes [5]).pub) = true ∧
    Toy.suite.small (Eddsa.new Toy.suite Toy.setBytes [5]).pub = false ∧
    (∃ sig, Eddsa.sign Toy.suite (Eddsa.new Toy.suite Toy.setBytes [5]) [9] = .ok sig ∧
      Eddsa.verify Toy.suite (Eddsa.new Toy.suite Toy.setBytes [5]).pub [9] sig = .ok ()) := by
  refine ⟨by decide +kernel, by decide +kernel, Toy.enc 2 ++ Toy.enc 9, ?_, ?_⟩ <;> decide +kernel

/-! ## C15: EdDSA from a key pair -/

/-- What an outsider computes from the public key, a message and a signature. -/
def attack (S : Suite F G) (pub : G) (msg sig : Bytes) : Option F :=
  let r := S.setBytes (S.sha512 msg)
  let h := S.setBytes (S.sha512 (sig.take 32 ++ S.encG pub ++ msg))
  (S.decS (sig.drop 32)).map (fun s => (s - r) / h)

/-- C15 is violated: for every key pair and message, one signature made by an `EdDSA` value
converted from the pair gives the private key to anyone who has the public key, unless the
challenge is zero. -/
theorem C15_violated (S : Suite F G) (hS : S.Lawful) (hG : S.pointLen = 32)
    (hF : S.scalarLen = 32) (x : F) (msg : Bytes)
    (hc : S.setBytes (S.sha512 (S.encG (S.setBytes (S.sha512 msg) • S.base) ++
      S.encG (x • S.base) ++ msg)) ≠ 0) :
    ∃ sig, Eddsa.sign S (Eddsa.fromPair x (x • S.base)) msg = .ok sig ∧
      attack S (x • S.base) msg sig = some x := by
  have l1 := fun P => (hS.encG_length P).trans hG
  have l2 := fun P => (hS.encS_length P).trans hF
  unfold Eddsa.sign
  simp only
  rw [if_neg (by simp [l1]), if_neg (by simp [l2])]
  refine ⟨_, rfl, ?_⟩
  unfold attack
  rw [List.take_left' (l1 _), List.drop_left' (l1 _), hS.decS_encS]
  simp only [Eddsa.fromPair, List.nil_append] at hc ⊢
  simp only [Option.map_some, Option.some.injEq]
  rw [add_sub_cancel_left, mul_div_cancel_right₀ _ hc]

/-- C15, what does hold: if the nonce is uniformly distributed, the pair `(R, s)` for a given
challenge carries no information beyond the public key. Nonces `r` and responses `s` correspond
one to one, and `R` can be computed from `s` and the public key alone. -/
theorem C15_simulatable_partial (B : G) (hB : Lin F B) (x h : F) :
    Function.Bijective (fun r : F => r + x * h) ∧
    ∀ r : F, r • B = (r + x * h) • B - h • (x • B) := by
  refine ⟨⟨fun a b hab => by simpa using hab, fun s => ⟨s - x * h, by simp⟩⟩, fun r => ?_⟩
  rw [sign_eq hB, add_sub_cancel_right]

example : ∃ sig, Eddsa.sign Toy.suite (Eddsa.fromPair 7 ((7 : ZMod 11) • Toy.suite.base)) [9] =
      .ok sig ∧ attack Toy.suite ((7 : ZMod 11) • Toy.suite.base) [9] sig = some 7 :=
  C15_violated Toy.suite Toy.lawful rfl rfl 7 [9] (by decide +kernel)

/-! ## C16: EdDSA key encoding -/

/-- C16: a key made from a 32-byte seed survives `marshal_binary` / `unmarshal_binary`: same
secret, public point, seed and prefix. -/
theorem C16_round_trip (S : Suite F G) (hS : S.Lawful) (hG : S.pointLen = 32)
    (leScalar : Bytes → F) (seed : Bytes) (hseed : seed.length = 32) :
    ∃ b, Eddsa.marshal S (Eddsa.new S leScalar seed) = .ok b ∧ b.length = 64 ∧
      b = seed ++ S.encG (Eddsa.new S leScalar seed).pub ∧
      Eddsa.unmarshal S leScalar b = .ok (Eddsa.new S leScalar seed) := by
  have l1 := fun P => (hS.encG_length P).trans hG
  refine ⟨seed ++ S.encG (Eddsa.new S leScalar seed).pub, ?_, by simp [l1, hseed], rfl, ?_⟩
  · unfold Eddsa.marshal
    rw [if_neg (by simp [Eddsa.new, hseed]), if_neg (by simp [l1])]
    rfl
  · unfold Eddsa.unmarshal
    rw [if_neg (by simp [l1, hseed]), List.take_left' hseed]
    rfl

omit [AddCommGroup G] [SMul F G] [DecidableEq G] [Field F] in
/-- C16: any other length is refused; every 64-byte string is accepted, and the key depends on
its first half only (an inconsistent public half goes unnoticed). -/
theorem C16_unmarshal_iff [SMul F G] (S : Suite F G) (leScalar : Bytes → F) (b : Bytes) :
    (b.length ≠ 64 → Eddsa.unmarshal S leScalar b = .err .marshalling) ∧
    (b.length = 64 → Eddsa.unmarshal S leScalar b = .ok (Eddsa.new S leScalar (b.take 32))) := by
  constructor
  · intro h; unfold Eddsa.unmarshal; rw [if_pos h]
  · intro h; unfold Eddsa.unmarshal; rw [if_neg (by simpa using h)]; rfl

omit [AddCommGroup G] [SMul F G] [DecidableEq G] in
/-- C16: a key converted from a pair has no seed: marshalling it panics. -/
theorem C16_from_pair_panics (S : Suite F G) (x : F) (pub : G) :
    Eddsa.marshal S (Eddsa.fromPair x pub) = .panic := by
  unfold Eddsa.marshal
  rw [if_pos (by simp [Eddsa.fromPair])]

example : ∃ b, Eddsa.marshal Toy.suite (Eddsa.new Toy.suite Toy.setBytes (List.replicate 32 5)) =
      .ok b ∧ b.length = 64 ∧ Eddsa.unmarshal Toy.suite Toy.setBytes b =
        .ok (Eddsa.new Toy.suite Toy.setBytes (List.replicate 32 5)) := by
  obtain ⟨b, h1, h2, -, h3⟩ :=
    C16_round_trip Toy.suite Toy.lawful rfl Toy.setBytes (List.replicate 32 5) (by simp)
  exact ⟨b, h1, h2, h3⟩

end

end Kyber.Props
