/-
Helper lemmas for ECIES.
-/
import Verif.Model.Dh
import Verif.Lemmas.Basic

namespace Kyber.Dh

variable {F G : Type}

theorem deriveKey_ok {P : Prims} (hP : P.Lawful) {S : Suite F G} {dh : G} {buf : Bytes}
    (h : P.hkdf (S.encG dh) [] 44 = some buf) :
    deriveKey P S dh (32 + nonceSize) = .ok buf := by
  have := hP.hkdf_length _ _ _ _ h
  unfold deriveKey hkdf
  rw [show (some (32 + nonceSize)).getD 32 = 44 from rfl, h]
  rw [Res.ofOption_some, Res.bind_ok, if_neg (by simp [nonceSize]; omega)]

theorem sliceNonce_ok {buf : Bytes} (h : buf.length = 44) :
    sliceNonce buf (32 + nonceSize) = .ok ((buf.take 44).drop 32) := by
  unfold sliceNonce
  rw [if_neg (by simp [nonceSize]; omega), if_neg (by simp [nonceSize]; omega)]
  rfl

theorem AEAD.new_ok {P : Prims} (hP : P.Lawful) {S : Suite F G} {pre : G} {ctx key : Bytes}
    (h : P.hkdf (S.encG pre) ctx 32 = some key) : AEAD.new P S pre ctx = .ok ⟨key⟩ := by
  have := hP.hkdf_length _ _ _ _ h
  unfold AEAD.new hkdf
  rw [Option.getD_none, h, Res.ofOption_some, Res.bind_ok, if_neg (by simpa using this)]

end Kyber.Dh
