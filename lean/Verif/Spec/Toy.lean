/-
A small concrete suite, used only to show that the hypotheses of the protocol theorems can be
met: scalars and points are Z/11, the base point is 2, encodings have 32 bytes.
-/
import Verif.Model.Suite
import Verif.Model.Dh
import Mathlib.Data.ZMod.Basic
import Mathlib.Algebra.Field.ZMod
import Mathlib.Tactic.NormNum.Prime

namespace Kyber.Toy

instance fact11 : Fact (Nat.Prime 11) := ⟨by norm_num⟩

/-- value in the first byte, 31 zero bytes -/
def enc (x : ZMod 11) : Bytes := UInt8.ofNat x.val :: List.replicate 31 0

/-- accepts exactly the encodings -/
def dec (b : Bytes) : Option (ZMod 11) :=
  match b with
  | [] => none
  | c :: r => if c.toNat < 11 ∧ r = List.replicate 31 0 then some (c.toNat : ZMod 11) else none

/-- a 64-byte "digest" depending on the sum of the bytes -/
def sha (b : Bytes) : Bytes := List.replicate 64 (b.foldl (· + ·) 7)

/-- the first byte as a scalar -/
def setBytes (b : Bytes) : ZMod 11 := ((b.headD 0).toNat : ZMod 11)

/-- The suite. -/
def suite : Suite (ZMod 11) (ZMod 11) where
  base := 2
  encG := enc
  decG := dec
  encS := enc
  decS := dec
  canonG b := (dec b).isSome
  canonS b := (dec b).isSome
  small P := decide (P = 0)
  pointLen := 32
  scalarLen := 32
  sha512 := sha
  setBytes := setBytes
  hash b := (sha b).take 32

theorem dec_enc (x : ZMod 11) : dec (enc x) = some x := by
  revert x; decide +kernel

theorem enc_dec (b : Bytes) (x : ZMod 11) (h : dec b = some x) : b = enc x := by
  cases b with
  | nil => simp [dec] at h
  | cons c r =>
    simp only [dec] at h
    split at h
    · rename_i hc
      simp only [Option.some.injEq] at h
      subst h
      rw [hc.2]
      unfold enc
      congr 1
      rw [ZMod.val_natCast, Nat.mod_eq_of_lt hc.1]
      simp
    · cases h

theorem lawful : suite.Lawful where
  base_lin := ⟨fun a b => add_smul a b _, fun a b => mul_smul a b _⟩
  encG_length P := by simp [suite, enc]
  encS_length P := by simp [suite, enc]
  decG_encG := dec_enc
  decS_encS := dec_enc
  canonS_encS s := by simp [suite, dec_enc]
  canonS_unique b s _ h := enc_dec b s h

theorem base_inj : ∀ s : ZMod 11, s • suite.base = 0 → s = 0 := by
  show ∀ s : ZMod 11, s • (2 : ZMod 11) = 0 → s = 0
  decide +kernel

/-- A toy AEAD: prepends the key, the nonce length-checked and the additional data. -/
def prims : Dh.Prims where
  hkdf ikm info n := some ((ikm ++ info ++ List.replicate n 0).take n)
  gcmSeal key nonce data aad := some (key ++ nonce ++ aad ++ data)
  gcmOpen key nonce c aad :=
    if (key ++ nonce ++ aad).isPrefixOf c then some (c.drop (key ++ nonce ++ aad).length) else none

theorem prims_lawful : prims.Lawful where
  hkdf_length ikm info n out h := by
    simp only [prims, Option.some.injEq] at h
    subst h
    simp; omega
  open_seal key nonce data aad c h := by
    simp only [prims, Option.some.injEq] at h
    subst h
    simp only [prims]
    rw [if_pos]
    · rw [List.drop_left]
    · rw [List.isPrefixOf_iff_prefix]; exact List.prefix_append _ _

end Kyber.Toy
