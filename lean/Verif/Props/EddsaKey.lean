/-
Property C60 for the keys of `src/sign/eddsa/eddsa_sig.rs`: how the secret scalar of an EdDSA key comes
from the seed.
-/
import Verif.Props.EdPoint
import Verif.Props.Signatures

set_option linter.unusedSectionVars false

namespace Kyber.Props

open Kyber Kyber.Ed Kyber.ModInt

/-- The tweaks in the EdDSA model are those of the curve. -/
theorem eddsa_clamp_eq (digest : Bytes) (h : digest.length = 64) :
    (Eddsa.clamp digest).take 32 = (clampKey digest).1 ∧
      (Eddsa.clamp digest).drop 32 = (clampKey digest).2 := by
  have g : ∀ (l : Bytes) (i : Nat) (a : UInt8), i < l.length → (l.set i a).getD i 0 = a := by
    intro l i a hi
    rw [List.getD_eq_getElem?_getD, List.getElem?_set_self hi]; rfl
  have g' : (digest.set 0 (digest.getD 0 0 &&& 0xf8)).getD 31 0 = digest.getD 31 0 := by
    rw [List.getD_eq_getElem?_getD, List.getElem?_set_ne (by decide), ← List.getD_eq_getElem?_getD]
  have e : (Eddsa.clamp digest).take 32 = (clampKey digest).1 ∧
      (Eddsa.clamp digest).drop 32 = (clampKey digest).2 := by
    unfold Eddsa.clamp clampKey
    simp only [List.set_set, g', g _ 31 _ (show 31 < (digest.set 0 (digest.getD 0 0 &&& 0xf8)).length by
      rw [List.length_set]; omega), and_self]
  exact e

variable {F G : Type} [Field F] [AddCommGroup G] [SMul F G] [DecidableEq G]

/-- C60 for EdDSA keys, new or read back: the secret is the scalar read from 32 bytes whose value is
a multiple of 8 between 2^254 and 2^255, the bytes in between being those of the digest; the prefix
is the second half of the digest; the public key is the secret times the base point. -/
theorem C60_eddsa_key (S : Suite F G) (leScalar : Bytes → F) (seed : Bytes)
    (hd : (S.sha512 seed).length = 64) :
    let e := Eddsa.new S leScalar seed
    (∃ b, e.secret = leScalar b ∧ b.length = 32 ∧ leNat b % 8 = 0 ∧ 2 ^ 254 ≤ leNat b ∧
      leNat b < 2 ^ 255 ∧ ∀ i, 0 < i → i < 31 → b.getD i 0 = (S.sha512 seed).getD i 0) ∧
    e.prefix_ = (S.sha512 seed).drop 32 ∧ e.pub = e.secret • S.base ∧ e.seed = seed := by
  intro e
  obtain ⟨h1, h2⟩ := eddsa_clamp_eq _ hd
  obtain ⟨c1, c2, c3, c4, c5, c6⟩ := C60_clamp _ hd
  refine ⟨⟨(clampKey (S.sha512 seed)).1, ?_, c1, c2, c3, c4, c6⟩, ?_, rfl, rfl⟩
  · show leScalar ((Eddsa.clamp (S.sha512 seed)).take 32) = _
    rw [h1]
  · show (Eddsa.clamp (S.sha512 seed)).drop 32 = _
    rw [h2, c5]

/-- The digest of the toy suite has 64 bytes. -/
example : (Toy.suite.sha512 [1, 2, 3]).length = 64 := by decide +kernel

end Kyber.Props
