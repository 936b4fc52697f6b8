/-
C154: a signature made for one kind of message is not accepted for another kind.
-/
import Verif.Spec.Signed
import Verif.Props.BincodeSigned
import Verif.Props.Signatures
import Verif.Spec.ToyVss

namespace Kyber.Props

open Kyber Kyber.ModInt Kyber.Bin Kyber.Poly Kyber.VssP Kyber.Spec

variable {F G : Type}

/-- The full property: on a suite with hashes and points of 32 bytes, the bytes signed for messages of different kinds
are different, unless the hash collides on what is hashed for the two. -/
def C154_statement : Prop :=
  ∀ (F G : Type) (S : Suite F G) (D : Dh.Prims) (pf : Bytes → G) (B : Bin F) (P : Bin G),
    (∀ b, (S.hash b).length = 32) → (∀ g, (S.encG g).length = 32) →
    (∀ g g', S.encG g = S.encG g' → g = g') → (∀ v, 0 < (B.ser v).length) →
    ∀ a b : SignedMsg F G, a.Sized → b.Sized → a.kind ≠ b.kind → a.msg S D pf B P = b.msg S D pf B P →
      ∃ x y, a.input S B P = some x ∧ b.input S B P = some y ∧ x ≠ y ∧ S.hash x = S.hash y

/-- What is signed is the hash of the input, or has more than 32 bytes, or is the key of a deal. -/
theorem signed_msg (S : Suite F G) (D : Dh.Prims) (pf : Bytes → G) (B : Bin F) (P : Bin G) (a : SignedMsg F G) :
    (∃ x, a.input S B P = some x ∧ a.msg S D pf B P = S.hash x) ∨
    (a.input S B P = none ∧ a.kind = .distDeal ∧ 32 < (a.msg S D pf B P).length) ∨
    (a.input S B P = none ∧ a.kind = .dealKey ∧ ∃ g, a = .dealKey g) := by
  cases a with
  | dealKey g => exact .inr (.inr ⟨rfl, rfl, g, rfl⟩)
  | response r => exact .inl ⟨_, rfl, rfl⟩
  | justification j => exact .inl ⟨_, rfl, rfl⟩
  | justificationRabin j => exact .inl ⟨_, rfl, rfl⟩
  | distDeal i e =>
    refine .inr (.inl ⟨rfl, rfl, ?_⟩)
    show 32 < ((DkgP.binDeal P).ser ⟨i, e, []⟩).length
    show 32 < (leBytes 4 i ++ ((P.ser e.dhkey ++ (bytes.ser e.signature ++ (bytes.ser e.nonce ++ bytes.ser e.cipher)))
      ++ bytes.ser [])).length
    rw [bytes_ser, bytes_ser, bytes_ser, bytes_ser]
    simp only [List.length_append, length_leBytes]
    omega
  | secretCommits m => exact .inl ⟨_, rfl, rfl⟩
  | complaintCommits m => exact .inl ⟨_, rfl, rfl⟩
  | reconstructCommits m => exact .inl ⟨_, rfl, rfl⟩
  | partialSig s sid => exact .inl ⟨_, rfl, rfl⟩

/-- The first three letters of what is hashed. -/
def letters : SignedKind → Bytes
  | .response => [114, 101, 115]
  | .justification => [106, 117, 115]
  | .secretCommits => [115, 101, 99]
  | .complaintCommits => [99, 111, 109]
  | .reconstructCommits => [114, 101, 99]
  | _ => []

/-- What is hashed for a partial signature has 64 bytes. What is hashed for another kind has another length and begins
with letters that belong to the kind. -/
theorem input_form (S : Suite F G) (B : Bin F) (P : Bin G) (hh : ∀ b, (S.hash b).length = 32)
    (hg : ∀ g, (S.encG g).length = 32) (hB : ∀ v, 0 < (B.ser v).length) (a : SignedMsg F G) (ha : a.Sized) (x : Bytes)
    (hx : a.input S B P = some x) :
    (a.kind = .partialSig ∧ x.length = 64) ∨
    (a.kind ≠ .partialSig ∧ a.kind ≠ .dealKey ∧ a.kind ≠ .distDeal ∧ x.length ≠ 64 ∧ x.take 3 = letters a.kind) := by
  have hu : ∀ n, (u32le n).length = 4 := length_u32le
  have hflat : ∀ l : List G, (l.map S.encG).flatten.length = 32 * l.length := by
    intro l
    induction l with
    | nil => rfl
    | cons g l ih => simp only [List.map_cons, List.flatten_cons, List.length_append, hg, ih, List.length_cons]; omega
  cases a with
  | dealKey g => cases hx
  | response r =>
    cases hx
    refine .inr ⟨fun h => (nomatch h), fun h => (nomatch h), fun h => (nomatch h), ?_, ?_⟩
    · have hs : r.sessionId.length = 32 := ha
      simp only [List.length_append, hu, hs]
      decide
    · rw [List.append_assoc, List.append_assoc, List.take_append_of_le_length (by decide)]
      exact (by decide : List.take 3 (ascii "response") = letters .response)
  | justification j =>
    cases hx
    refine .inr ⟨fun h => (nomatch h), fun h => (nomatch h), fun h => (nomatch h), ?_, ?_⟩
    · have hs : j.sessionId.length = 32 := ha
      have : (ascii "justification").length = 13 := by decide
      rw [deal_ser]
      simp only [List.length_append, hu, hs, wDeal, wBytes, wShare, wList, length_leBytes, this]
      omega
    · rw [List.append_assoc, List.append_assoc, List.take_append_of_le_length (by decide)]
      exact (by decide : List.take 3 (ascii "justification") = letters .justification)
  | justificationRabin j =>
    cases hx
    refine .inr ⟨fun h => (nomatch h), fun h => (nomatch h), fun h => (nomatch h), ?_, ?_⟩
    · have hs : j.sessionId.length = 32 := ha
      have : (ascii "justification").length = 13 := by decide
      rw [deal_ser_rabin]
      simp only [List.length_append, hu, hs, wDealR, wBytes, wShare, wList, length_leBytes, this]
      omega
    · rw [List.append_assoc, List.append_assoc, List.take_append_of_le_length (by decide)]
      exact (by decide : List.take 3 (ascii "justification") = letters .justification)
  | distDeal i e => cases hx
  | secretCommits m =>
    cases hx
    refine .inr ⟨fun h => (nomatch h), fun h => (nomatch h), fun h => (nomatch h), ?_, ?_⟩
    · have : (ascii "secretcommits").length = 13 := by decide
      simp only [List.length_append, hu, hflat, this]
      omega
    · rw [List.append_assoc, List.take_append_of_le_length (by decide)]
      exact (by decide : List.take 3 (ascii "secretcommits") = letters .secretCommits)
  | complaintCommits m =>
    cases hx
    refine .inr ⟨fun h => (nomatch h), fun h => (nomatch h), fun h => (nomatch h), ?_, ?_⟩
    · have : (ascii "commitcomplaint").length = 15 := by decide
      have h1 := hB m.deal.secShare.v
      have h2 := hB m.deal.rndShare.v
      rw [deal_ser_rabin]
      simp only [List.length_append, hu, wDealR, wBytes, wShare, wList, length_leBytes, this]
      omega
    · rw [List.append_assoc, List.append_assoc, List.take_append_of_le_length (by decide)]
      exact (by decide : List.take 3 (ascii "commitcomplaint") = letters .complaintCommits)
  | reconstructCommits m =>
    cases hx
    refine .inr ⟨fun h => (nomatch h), fun h => (nomatch h), fun h => (nomatch h), ?_, ?_⟩
    · have : (ascii "reconstructcommits").length = 18 := by decide
      simp only [List.length_append, hu, hh, this]
      omega
    · rw [List.append_assoc, List.append_assoc, List.take_append_of_le_length (by decide)]
      exact (by decide : List.take 3 (ascii "reconstructcommits") = letters .reconstructCommits)
  | partialSig s sid =>
    cases hx
    have hs : sid.length = 32 := ha
    exact .inl ⟨rfl, by simp only [List.length_append, hh, hs]⟩

/-- C154: apart from the keys of encrypted deals, two messages of different kinds that are signed as the same bytes
are a collision of the hash. -/
theorem C154_kinds_partial (S : Suite F G) (D : Dh.Prims) (pf : Bytes → G) (B : Bin F) (P : Bin G)
    (hh : ∀ b, (S.hash b).length = 32) (hg : ∀ g, (S.encG g).length = 32) (hB : ∀ v, 0 < (B.ser v).length)
    (a b : SignedMsg F G) (ha : a.Sized) (hb : b.Sized) (ha' : a.kind ≠ .dealKey) (hb' : b.kind ≠ .dealKey)
    (hk : a.kind ≠ b.kind) (h : a.msg S D pf B P = b.msg S D pf B P) :
    ∃ x y, a.input S B P = some x ∧ b.input S B P = some y ∧ x ≠ y ∧ S.hash x = S.hash y := by
  rcases signed_msg S D pf B P a with ⟨x, hx, mx⟩ | ⟨-, ka, la⟩ | ⟨-, ka, -⟩
  · rcases signed_msg S D pf B P b with ⟨y, hy, my⟩ | ⟨-, kb, lb⟩ | ⟨-, kb, -⟩
    · refine ⟨x, y, hx, hy, ?_, by rw [← mx, ← my, h]⟩
      rintro rfl
      rcases input_form S B P hh hg hB a ha x hx with ⟨k1, l1⟩ | ⟨k1, u1, v1, l1, t1⟩
      · rcases input_form S B P hh hg hB b hb x hy with ⟨k2, l2⟩ | ⟨k2, u2, v2, l2, t2⟩
        · exact hk (k1.trans k2.symm)
        · exact l2 l1
      · rcases input_form S B P hh hg hB b hb x hy with ⟨k2, l2⟩ | ⟨k2, u2, v2, l2, t2⟩
        · exact l1 l2
        · rw [t1] at t2
          revert hk u1 v1 k1 u2 v2 k2 t2
          generalize a.kind = p
          generalize b.kind = q
          cases p <;> cases q <;> simp [letters]
    · rw [← h, mx, hh] at lb
      exact absurd lb (lt_irrefl _)
    · exact absurd kb hb'
  · rcases signed_msg S D pf B P b with ⟨y, hy, my⟩ | ⟨-, kb, lb⟩ | ⟨-, kb, -⟩
    · rw [h, my, hh] at la
      exact absurd la (lt_irrefl _)
    · exact absurd (ka.trans kb.symm) hk
    · exact absurd kb hb'
  · exact absurd ka ha'

/-- C154: the key of an encrypted deal is signed as the same bytes as another message exactly if the hash of the
message is the encoding of the key. -/
theorem C154_deal_key_iff (S : Suite F G) (D : Dh.Prims) (pf : Bytes → G) (B : Bin F) (P : Bin G)
    (hg : ∀ g, (S.encG g).length = 32) (g : G) (b : SignedMsg F G)
    (hk : b.kind ≠ .dealKey) :
    (SignedMsg.dealKey g).msg S D pf B P = b.msg S D pf B P ↔
      ∃ y, b.input S B P = some y ∧ S.hash y = S.encG g := by
  rcases signed_msg S D pf B P b with ⟨y, hy, my⟩ | ⟨ib, kb, lb⟩ | ⟨-, kb, -⟩
  · rw [my, hy]
    constructor
    · exact fun h => ⟨y, rfl, h.symm⟩
    · rintro ⟨_, ⟨rfl⟩, h⟩
      exact h.symm
  · rw [ib]
    constructor
    · intro h
      have : (SignedMsg.dealKey g : SignedMsg F G).msg S D pf B P = S.encG g := rfl
      rw [← h, this, hg] at lb
      exact absurd lb (lt_irrefl _)
    · rintro ⟨_, ⟨⟩, -⟩
  · exact absurd kb hk

/-- A response whose hash, with the suite on `ZMod 11`, is the encoding of a point. -/
def unlucky : Response := ⟨138 :: List.replicate 31 0, 0, false, []⟩

/-- Without a collision: nothing tells the key of a deal from the hash of another message. -/
theorem C154_violated : ¬ C154_statement := by
  intro h
  obtain ⟨x, y, h1, -⟩ := h (ZMod 11) (ZMod 11) Toy.suite Toy.prims (fun _ => 0) ⟨fun _ => [0], fun _ => none⟩
    ⟨fun _ => [], fun _ => none⟩ (fun b => by simp [Toy.suite, Toy.sha]) Toy.lawful.encG_length
    (fun g g' e => by
      have := congrArg Toy.suite.decG e
      rwa [Toy.lawful.decG_encG, Toy.lawful.decG_encG, Option.some.injEq] at this)
    (fun _ => Nat.one_pos) (.dealKey 0) (.response unlucky) trivial (by show (138 :: List.replicate 31 0).length = 32; rfl)
    (fun h => nomatch h) (by show Toy.suite.encG 0 = unlucky.hash Toy.suite; decide +kernel)
  cases h1

section

variable [Field F] [AddCommGroup G] [SMul F G] [DecidableEq G]

/-- C154: a signature that is accepted for messages of two kinds, neither the key of a deal, is a collision of the hash
or of the challenges of the signature scheme. -/
theorem C154_signature_partial (S : Suite F G) (hS : S.Lawful) (hB0 : ∀ s : F, s • S.base = 0 → s = 0) (D : Dh.Prims)
    (pf : Bytes → G) (B : Bin F) (P : Bin G) (hh : ∀ b, (S.hash b).length = 32) (hg : S.pointLen = 32)
    (hB : ∀ v, 0 < (B.ser v).length) (x : F) (hx : x ≠ 0) (a b : SignedMsg F G) (ha : a.Sized) (hb : b.Sized)
    (ha' : a.kind ≠ .dealKey) (hb' : b.kind ≠ .dealKey) (hk : a.kind ≠ b.kind) (sig : Bytes)
    (h1 : Schnorr.verify S (x • S.base) (a.msg S D pf B P) sig = .ok ())
    (h2 : Schnorr.verify S (x • S.base) (b.msg S D pf B P) sig = .ok ()) :
    (∃ u v, a.input S B P = some u ∧ b.input S B P = some v ∧ u ≠ v ∧ S.hash u = S.hash v) ∨
    (a.msg S D pf B P ≠ b.msg S D pf B P ∧ ∃ R, S.decG (sig.take S.pointLen) = some R ∧
      S.setBytes (S.sha512 (S.encG R ++ S.encG (x • S.base) ++ a.msg S D pf B P)) =
        S.setBytes (S.sha512 (S.encG R ++ S.encG (x • S.base) ++ b.msg S D pf B P))) := by
  by_cases hm : a.msg S D pf B P = b.msg S D pf B P
  · exact .inl (C154_kinds_partial S D pf B P hh (fun g => (hS.encG_length g).trans hg) hB a b ha hb ha' hb' hk hm)
  · obtain ⟨R, s, s', g1, g2, g3, g4⟩ := C13_special_soundness S hS.base_lin hB0 x (S.encG (x • S.base)) _ _ sig sig
      (hS.decG_encG _) h1 h2 rfl
    refine .inr ⟨hm, R, g1, ?_⟩
    by_contra hc
    have e := g4 hc
    rw [g2, Option.some.injEq] at g3
    rw [g3, sub_self, zero_div] at e
    exact hx e

omit [Field F] in
/-- C154: whoever holds a verifier's private key can turn any signature of the dealer on the encoding of a point into
an encrypted deal that the verifier takes for a deal of the dealer, with the content `dl` of their choice. The
signature may come from another deal, or from any message whose hash encodes a point. -/
theorem C154_forge (E : VssP.Env F G) (hP : E.prims.Lawful) (v : VssP.Verifier F G) (dl : VssP.Deal F G)
    (hC : E.codec.dec (E.codec.enc dl) = some dl) (m sig : Bytes)
    (hsig : Schnorr.verify E.suite v.dealer m sig = .ok ()) (Q : G) (hm : E.suite.encG Q = m) (gcm : Dh.AEAD)
    (hgcm : Dh.AEAD.new E.prims E.suite (v.longterm • Q) v.hkdfContext = .ok gcm) (nonce : Bytes)
    (hn : nonce.length = Dh.nonceSize) (c : Bytes × Option Bytes)
    (hc : gcm.seal_ E.prims none nonce (E.codec.enc dl) (some v.hkdfContext) = .ok c) :
    v.decryptDeal E ⟨Q, sig, nonce, c.1⟩ = .ok dl := by
  unfold VssP.Verifier.decryptDeal
  simp only
  rw [hm, hsig]
  unfold Dh.dhExchange
  rw [hgcm]
  simp only [Res.mapErr_ok, Res.bind_ok, hn, ne_eq, not_true, if_false]
  unfold Dh.AEAD.seal_ Dh.aesEncrypt Dh.copyOut at hc
  simp only [Res.bind_eq_ok, Res.ite_err_eq_ok, Res.ofOption_eq_ok, Res.ok.injEq] at hc
  obtain ⟨c', ⟨hl, hc'⟩, rfl⟩ := hc
  unfold Dh.AEAD.open_ Dh.aesDecrypt Dh.copyOut
  rw [if_neg hl, hP.open_seal _ _ _ _ _ hc']
  simp [hC]

omit [Field F] in
/-- C154: the same for the Rabin secret sharing. -/
theorem C154_forge_rabin (E : VssR.Env F G) (hP : E.prims.Lawful) (v : VssR.Verifier F G) (dl : VssR.Deal F G)
    (hC : E.codec.dec (E.codec.enc dl) = some dl) (m sig : Bytes)
    (hsig : Schnorr.verify E.suite v.dealer m sig = .ok ()) (Q : G) (hm : E.suite.encG Q = m) (gcm : Dh.AEAD)
    (hgcm : Dh.AEAD.new E.prims E.suite (v.longterm • Q) v.hkdfContext = .ok gcm) (nonce : Bytes)
    (hn : nonce.length = Dh.nonceSize) (c : Bytes × Option Bytes)
    (hc : gcm.seal_ E.prims none nonce (E.codec.enc dl) (some v.hkdfContext) = .ok c) :
    v.decryptDeal E ⟨Q, sig, nonce, c.1⟩ = .ok dl := by
  unfold VssR.Verifier.decryptDeal
  simp only
  rw [hm, hsig]
  unfold Dh.dhExchange
  rw [hgcm]
  simp only [Res.mapErr_ok, Res.bind_ok, hn, ne_eq, not_true, if_false]
  unfold Dh.AEAD.seal_ Dh.aesEncrypt Dh.copyOut at hc
  simp only [Res.bind_eq_ok, Res.ite_err_eq_ok, Res.ofOption_eq_ok, Res.ok.injEq] at hc
  obtain ⟨c', ⟨hl, hc'⟩, rfl⟩ := hc
  unfold Dh.AEAD.open_ Dh.aesDecrypt Dh.copyOut
  rw [if_neg hl, hP.open_seal _ _ _ _ _ hc']
  simp [hC]

end

/-! ## Examples -/

namespace KindsExample

open Kyber.Toy

def binS : Bin (ZMod 11) := ⟨fun v => [UInt8.ofNat v.val], fun _ => none⟩

/-- An approval by verifier 1 and secret commitments by participant 2 with the same hash. -/
def approval : SignedMsg (ZMod 11) (ZMod 11) := .response ⟨20 :: List.replicate 31 0, 1, true, []⟩

def commits : SignedMsg (ZMod 11) (ZMod 11) := .secretCommits ⟨2, [1], [], []⟩

/-- `C154_kinds_partial`: the hash of the suite on `ZMod 11` adds the bytes, so it collides. -/
example : ∃ x y, approval.input suite binS binS = some x ∧ commits.input suite binS binS = some y ∧ x ≠ y ∧
    suite.hash x = suite.hash y :=
  C154_kinds_partial suite prims (fun _ => 0) binS binS (fun b => by simp [suite, sha]) lawful.encG_length
    (fun _ => Nat.one_pos) approval commits rfl trivial (fun h => nomatch h) (fun h => nomatch h) (fun h => nomatch h)
    (by decide +kernel)

/-- `C154_signature_partial`: one signature for the two. -/
example := C154_signature_partial suite lawful base_inj prims (fun _ => 0) binS binS (fun b => by simp [suite, sha]) rfl
  (fun _ => Nat.one_pos) 3 (by decide) approval commits rfl trivial (fun h => nomatch h) (fun h => nomatch h)
  (fun h => nomatch h) (Schnorr.sign suite 5 3 (approval.msg suite prims (fun _ => 0) binS binS)) (by decide +kernel)
  (by decide +kernel)

/-- `C154_deal_key_iff`: the response `unlucky`. -/
example : (SignedMsg.dealKey 0).msg suite prims (fun _ => 0) binS binS =
    (SignedMsg.response unlucky).msg suite prims (fun _ => 0) binS binS :=
  (C154_deal_key_iff suite prims (fun _ => 0) binS binS lawful.encG_length 0 (.response unlucky)
    (fun h => nomatch h)).2 ⟨_, rfl, by decide +kernel⟩

/-- Verifier 0, with private key 3, of the dealer with private key 4. -/
def ver : VssP.Verifier (ZMod 11) (ZMod 11) :=
  match VssP.newVerifier suite 3 8 [6, 10, 4] with
  | .ok v => v
  | _ => ⟨0, 0, 0, 0, [], [], ⟨[], [], [], [], none, 0, false, false⟩⟩

/-- `C154_forge`: the dealer signed the response `unlucky` as a verifier of somebody else; the holder of the key 3 makes
of it a deal of the share 9 with the commitments 1, 2. -/
example : ∃ e, ver.decryptDeal envP e = .ok ⟨[7], ⟨0, 9⟩, 2, [1, 2]⟩ :=
  ⟨_, C154_forge envP prims_lawful ver ⟨[7], ⟨0, 9⟩, 2, [1, 2]⟩ (codecP_lawful _) (unlucky.hash suite)
    (Schnorr.sign suite 5 4 (unlucky.hash suite)) (by decide +kernel) 0 (by decide +kernel) _ rfl
    (List.replicate 12 0) rfl _ rfl⟩

/-- `C154_forge_rabin`. -/
example (v : VssR.Verifier (ZMod 11) (ZMod 11)) (hv : VssR.newVerifier suite 3 8 [6, 10, 4] = .ok v) :
    ∃ e, v.decryptDeal envR e = .ok ⟨[7], ⟨0, 9⟩, ⟨0, 5⟩, 2, [1, 2]⟩ := by
  cases hv
  exact ⟨_, C154_forge_rabin envR prims_lawful _ ⟨[7], ⟨0, 9⟩, ⟨0, 5⟩, 2, [1, 2]⟩ (codecR_lawful _)
    (unlucky.hash suite) (Schnorr.sign suite 5 4 (unlucky.hash suite)) (by decide +kernel) 0 (by decide +kernel) _ rfl
    (List.replicate 12 0) rfl _ rfl⟩

end KindsExample

end Kyber.Props
