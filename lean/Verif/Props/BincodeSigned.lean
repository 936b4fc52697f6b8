/-
C104: what a signed hash determines. C105: what a session id determines.
-/
import Verif.Props.Bincode
import Verif.Props.DkgRabinBind
import Verif.Props.VssPedersenMore
import Verif.Spec.ToyVss

namespace Kyber.Props

open Kyber Kyber.ModInt Kyber.Bin Kyber.Poly Kyber.VssP
open Kyber.Spec (Apart)

/-! ## C104 -/

variable {F G : Type}

theorem length_u32le (n : Nat) : (u32le n).length = 4 := rfl

/-- The full property for justifications: with a hash without collisions, a signed hash belongs to one
session id, index and deal. -/
def C104_statement : Prop :=
  ∀ (F G : Type) (S : Suite F G) (D : Dh.Prims) (B : Bin F) (P : Bin G) (fS : F → Prop) (fP : G → Prop),
    Function.Injective S.hash → B.Exact fS → P.Exact fP → ∀ j j' : VssP.Justification F G,
    JustFits fS fP j → JustFits fS fP j' →
    j.hash ⟨S, D, binCodec B P⟩ = j'.hash ⟨S, D, binCodec B P⟩ →
    j.sessionId = j'.sessionId ∧ j.index = j'.index ∧ j.deal = j'.deal

/-- The session id is hashed without its length: whatever the session id, the indices and the share, here
are two justifications with different session ids, different deals and, if so chosen, different indices
that have the same hash. Nothing is assumed of the hash. -/
theorem C104_violated_justification (S : Suite F G) (D : Dh.Prims) (B : Bin F) (P : Bin G) (sid sig sig' : Bytes)
    (i i' : Nat) (s : Share F) (t : Nat) (cs : List G) :
    (⟨sid, i, ⟨u32le i' ++ leBytes 8 0, s, t, cs⟩, sig⟩ : VssP.Justification F G).hash ⟨S, D, binCodec B P⟩ =
      (⟨sid ++ (u32le i ++ leBytes 8 12), i', ⟨[], s, t, cs⟩, sig'⟩ : VssP.Justification F G).hash
        ⟨S, D, binCodec B P⟩ := by
  unfold Justification.hash
  congr 1
  show _ ++ (binDeal B P).ser _ = _ ++ (binDeal B P).ser _
  rw [deal_ser, deal_ser]
  simp only [wDeal, wBytes, List.append_assoc, List.length_append, length_u32le, length_leBytes, List.length_nil,
    List.nil_append]

theorem C104_violated : ¬ C104_statement := by
  intro h
  have hd : ∀ l : Bytes, l.length < 2 ^ 64 →
      DealFits (fun s : Bytes => s.length = 32) Ed.Pt.I32s ⟨l, ⟨4, List.replicate 32 7⟩, 2, []⟩ := by
    intro l hl
    refine ⟨hl, ⟨?_, ?_⟩, ?_, ?_, ?_⟩
    · show (4 : Nat) < 2 ^ 64; norm_num
    · rfl
    · show (2 : Nat) < 2 ^ 64; norm_num
    · show (0 : Nat) < 2 ^ 64; norm_num
    · intro c hc; cases hc
  have := (h Bytes Ed.Pt ⟨Ed.null1, fun _ => [], fun _ => none, id, some, fun _ => true, fun _ => true, fun _ => true,
      32, 32, id, id, id⟩ Toy.prims Ed.binScalar Ed.binPoint _ _ (fun _ _ h => h) Ed.exact_scalar Ed.exact_point
    ⟨[], 1, ⟨u32le 2 ++ leBytes 8 0, ⟨4, List.replicate 32 7⟩, 2, []⟩, []⟩
    ⟨[] ++ (u32le 1 ++ leBytes 8 12), 2, ⟨[], ⟨4, List.replicate 32 7⟩, 2, []⟩, []⟩
    ⟨by show (0 : Nat) < 2 ^ 64; norm_num, by show (1 : Nat) < 2 ^ 32; norm_num,
      hd _ (by show (12 : Nat) < 2 ^ 64; norm_num), by show (0 : Nat) < 2 ^ 64; norm_num⟩
    ⟨by show (12 : Nat) < 2 ^ 64; norm_num, by show (2 : Nat) < 2 ^ 32; norm_num,
      hd _ (by show (0 : Nat) < 2 ^ 64; norm_num), by show (0 : Nat) < 2 ^ 64; norm_num⟩
    (C104_violated_justification _ _ _ _ _ _ _ _ _ _ _ _)).2.1
  cases this

/-- What holds for justifications: among session ids of one length, and those that the library makes are
digests, the hash determines session id, index and deal. -/
theorem C104_justification_partial (S : Suite F G) (D : Dh.Prims) (B : Bin F) (P : Bin G) (fS : F → Prop)
    (fP : G → Prop) (hB : B.Exact fS) (hP : P.Exact fP) (j j' : VssP.Justification F G)
    (hS : Apart S (ascii "justification" ++ j.sessionId ++ u32le j.index ++ (binCodec B P).enc j.deal)
      (ascii "justification" ++ j'.sessionId ++ u32le j'.index ++ (binCodec B P).enc j'.deal))
    (hj : JustFits fS fP j) (hj' : JustFits fS fP j')
    (hl : j.sessionId.length = j'.sessionId.length) :
    j.hash ⟨S, D, binCodec B P⟩ = j'.hash ⟨S, D, binCodec B P⟩ ↔
      j.sessionId = j'.sessionId ∧ j.index = j'.index ∧ j.deal = j'.deal := by
  unfold Justification.hash
  constructor
  · intro h
    have h1 := hS h
    simp only [List.append_assoc] at h1
    obtain ⟨h2, h3⟩ := List.append_inj (List.append_cancel_left h1) hl
    obtain ⟨h4, h5⟩ := List.append_inj h3 rfl
    exact ⟨h2, u32le_inj hj.2.1 hj'.2.1 h4, (exact_deal hB hP).inj hj.2.2.1 hj'.2.2.1 h5⟩
  · rintro ⟨h1, h2, h3⟩
    rw [h1, h2, h3]


/-- A suite on bytes with the identity for a hash. -/
def rawSuite : Suite UInt8 UInt8 :=
  ⟨1, fun g => [g], fun _ => none, fun s => [s], fun _ => none, fun _ => true, fun _ => true, fun _ => false, 1, 1,
    fun b => b, fun _ => 0, fun b => b⟩

/-- Justifications with two deals for the same verifier are signed over different bytes. -/
example : (⟨[1], 2, ⟨[1], ⟨2, 7⟩, 2, [3]⟩, []⟩ : VssP.Justification UInt8 UInt8).hash
      ⟨rawSuite, Toy.prims, binCodec u8 u8⟩ ≠
    (⟨[1], 2, ⟨[1], ⟨2, 8⟩, 2, [3]⟩, []⟩ : VssP.Justification UInt8 UInt8).hash
      ⟨rawSuite, Toy.prims, binCodec u8 u8⟩ := fun h => by
  have := ((C104_justification_partial rawSuite Toy.prims u8 u8 _ _ exact_u8 exact_u8
    ⟨[1], 2, ⟨[1], ⟨2, 7⟩, 2, [3]⟩, []⟩ ⟨[1], 2, ⟨[1], ⟨2, 8⟩, 2, [3]⟩, []⟩ (fun h => h)
    (by simp [JustFits, DealFits, ShareFits, W64, W32]) (by simp [JustFits, DealFits, ShareFits, W64, W32])
    rfl).1 h).2.2
  cases this

/-- The same for the justifications of the Rabin VSS. -/
theorem C104_justification_rabin_partial (S : Suite F G) (D : Dh.Prims) (pf : Bytes → G) (B : Bin F) (P : Bin G)
    (fS : F → Prop) (fP : G → Prop) (hB : B.Exact fS) (hP : P.Exact fP) (j j' : VssR.Justification F G)
    (hS : Apart S (ascii "justification" ++ j.sessionId ++ u32le j.index ++ (VssR.binCodec B P).enc j.deal)
      (ascii "justification" ++ j'.sessionId ++ u32le j'.index ++ (VssR.binCodec B P).enc j'.deal))
    (hj : JustFitsR fS fP j) (hj' : JustFitsR fS fP j')
    (hl : j.sessionId.length = j'.sessionId.length) :
    j.hash ⟨S, D, VssR.binCodec B P, pf⟩ = j'.hash ⟨S, D, VssR.binCodec B P, pf⟩ ↔
      j.sessionId = j'.sessionId ∧ j.index = j'.index ∧ j.deal = j'.deal := by
  unfold VssR.Justification.hash
  constructor
  · intro h
    have h1 := hS h
    simp only [List.append_assoc] at h1
    obtain ⟨h2, h3⟩ := List.append_inj (List.append_cancel_left h1) hl
    obtain ⟨h4, h5⟩ := List.append_inj h3 rfl
    exact ⟨h2, u32le_inj hj.2.1 hj'.2.1 h4, (exact_deal_rabin hB hP).inj hj.2.2.1 hj'.2.2.1 h5⟩
  · rintro ⟨h1, h2, h3⟩
    rw [h1, h2, h3]


example := C104_justification_rabin_partial rawSuite Toy.prims (fun _ => 0) u8 u8 _ _ exact_u8 exact_u8
  ⟨[1], 2, ⟨[1], ⟨2, 7⟩, ⟨2, 9⟩, 2, [3]⟩, []⟩ ⟨[1], 2, ⟨[1], ⟨2, 7⟩, ⟨2, 6⟩, 2, [3]⟩, []⟩ (fun h => h)
  (by simp [JustFitsR, DealFitsR, ShareFits, W64, W32])
  (by simp [JustFitsR, DealFitsR, ShareFits, W64, W32]) rfl

/-- A response: what follows the session id has a fixed length, so the hash determines session id, index
and status. -/
theorem C104_response (S : Suite F G) (r r' : VssP.Response)
    (hS : Apart S (ascii "response" ++ r.sessionId ++ u32le r.index ++ u32le (if r.status then 1 else 0))
      (ascii "response" ++ r'.sessionId ++ u32le r'.index ++ u32le (if r'.status then 1 else 0)))
    (hr : r.index < 2 ^ 32) (hr' : r'.index < 2 ^ 32) :
    r.hash S = r'.hash S ↔ r.sessionId = r'.sessionId ∧ r.index = r'.index ∧ r.status = r'.status := by
  unfold Response.hash
  constructor
  · intro h
    have h1 := hS h
    rw [List.append_assoc, List.append_assoc, List.append_assoc, List.append_assoc] at h1
    have h2 := List.append_cancel_left h1
    have hl := congrArg List.length h2
    simp only [List.length_append, length_u32le] at hl
    obtain ⟨h3, h4⟩ := List.append_inj h2 (by omega)
    obtain ⟨h5, h6⟩ := List.append_inj h4 rfl
    refine ⟨h3, u32le_inj hr hr' h5, ?_⟩
    have := u32le_inj (by split <;> norm_num) (by split <;> norm_num) h6
    revert this
    cases r.status <;> cases r'.status <;> simp
  · rintro ⟨h1, h2, h3⟩
    rw [h1, h2, h3]

/-- The deal of the Pedersen DKG: the bytes that are signed, themselves not hashed by the caller,
determine the index and the encrypted deal. -/
theorem C104_dkg_deal (P : Bin G) (fP : G → Prop) (hP : P.Exact fP) (i i' : Nat) (e e' : VssP.EncryptedDeal G)
    (hi : i < 2 ^ 32) (hi' : i' < 2 ^ 32) (he : EncryptedFits fP e) (he' : EncryptedFits fP e') :
    DkgP.encDist P i e = DkgP.encDist P i' e' ↔ i = i' ∧ e = e' := by
  constructor
  · intro h
    have h0 : W64 ([] : Bytes).length := by show (0 : Nat) < 2 ^ 64; norm_num
    have := (exact_dkg_deal hP).inj (a := ⟨i, e, []⟩) (c := ⟨i', e', []⟩) ⟨hi, he, h0⟩ ⟨hi', he', h0⟩ h
    cases this
    exact ⟨rfl, rfl⟩
  · rintro ⟨rfl, rfl⟩
    rfl

example : EncryptedFits Ed.Pt.I32s ⟨Ed.null2, [1, 2], [3], [4, 5, 6]⟩ :=
  ⟨null2_i32s, by show (2 : Nat) < 2 ^ 64; norm_num, by show (1 : Nat) < 2 ^ 64; norm_num,
    by show (3 : Nat) < 2 ^ 64; norm_num⟩

/-- `C104_response`: a complaint and an approval are signed over different bytes. -/
example : (⟨[1], 2, true, []⟩ : VssP.Response).hash VssPExample.suiteInj ≠
    (⟨[1], 2, false, []⟩ : VssP.Response).hash VssPExample.suiteInj := fun h => by
  have := ((C104_response VssPExample.suiteInj _ _ (fun h => h) (by norm_num) (by norm_num)).1 h).2.2
  cases this

/-! ## C105 -/

/-- The full property: with a hash without collisions, a session id belongs to one dealer, one list of
verifiers, one list of commitments and one threshold. -/
def C105_statement : Prop :=
  ∀ (F G : Type) (_ : Field F) (_ : AddCommGroup G) (_ : SMul F G) (S : Suite F G), S.Lawful → 0 < S.pointLen →
    Function.Injective S.hash → ∀ (d d' : G) (vs vs' cs cs' : List G) (t t' : Nat), t < 2 ^ 32 → t' < 2 ^ 32 →
    VssP.sessionId S d vs cs t = VssP.sessionId S d' vs' cs' t' → d = d' ∧ vs = vs' ∧ cs = cs' ∧ t = t'

/-- The lists are hashed one after the other without their lengths: a verifier can be moved to the
commitments. -/
theorem C105_violated_boundary (S : Suite F G) (d c : G) (vs cs : List G) (t : Nat) :
    VssP.sessionId S d (vs ++ [c]) cs t = VssP.sessionId S d vs (c :: cs) t := by
  unfold VssP.sessionId
  congr 1
  simp [List.append_assoc]

section

variable [Field F] [AddCommGroup G] [SMul F G]

/-- What holds: the session id determines the dealer, the threshold and the verifiers followed by the
commitments, and nothing more. -/
theorem C105_exact_partial (S : Suite F G) (hS : S.Lawful) (hp : 0 < S.pointLen)
    (d d' : G) (vs vs' cs cs' : List G) (t t' : Nat) (hi : Apart S (sessionInput S d vs cs t) (sessionInput S d' vs' cs' t'))
    (ht : t < 2 ^ 32) (ht' : t' < 2 ^ 32) :
    VssP.sessionId S d vs cs t = VssP.sessionId S d' vs' cs' t' ↔ d = d' ∧ vs ++ cs = vs' ++ cs' ∧ t = t' := by
  classical
  have e : ∀ (d : G) (vs cs : List G) (t : Nat), VssP.sessionId S d vs cs t =
      S.hash (S.encG d ++ (((vs ++ cs).map S.encG).flatten ++ u32le t)) := by
    intro d vs cs t
    unfold VssP.sessionId
    simp [List.append_assoc]
  have e' : ∀ (d : G) (vs cs : List G) (t : Nat), sessionInput S d vs cs t =
      S.encG d ++ (((vs ++ cs).map S.encG).flatten ++ u32le t) := by
    intro d vs cs t
    unfold sessionInput
    simp [List.append_assoc]
  rw [e', e'] at hi
  rw [e, e]
  constructor
  · intro h
    obtain ⟨h1, h2⟩ := List.append_inj (hi h) (by rw [hS.encG_length, hS.encG_length])
    have hl := congrArg List.length h2
    simp only [List.length_append, length_u32le] at hl
    obtain ⟨h3, h4⟩ := List.append_inj h2 (by omega)
    exact ⟨encG_inj hS h1, encG_flatten_inj hS hp h3, u32le_inj ht ht' h4⟩
  · rintro ⟨rfl, h, rfl⟩
    rw [h]

/-- In particular it determines everything when there are as many commitments as the threshold says, as
honest dealers have it. -/
theorem C105_honest_partial (S : Suite F G) (hS : S.Lawful) (hp : 0 < S.pointLen)
    (d d' : G) (vs vs' cs cs' : List G) (t t' : Nat) (hi : Apart S (sessionInput S d vs cs t) (sessionInput S d' vs' cs' t'))
    (ht : t < 2 ^ 32) (ht' : t' < 2 ^ 32)
    (hc : cs.length = t) (hc' : cs'.length = t') (h : VssP.sessionId S d vs cs t = VssP.sessionId S d' vs' cs' t') :
    d = d' ∧ vs = vs' ∧ cs = cs' ∧ t = t' := by
  obtain ⟨h1, h2, h3⟩ := (C105_exact_partial S hS hp d d' vs vs' cs cs' t t' hi ht ht').1 h
  obtain ⟨h4, h5⟩ := List.append_inj' h2 (by omega)
  exact ⟨h1, h4, h5, h3⟩

end

/-- `C105_exact_partial`, `C105_honest_partial`: other verifiers give another session id. -/
example : VssP.sessionId VssPExample.suiteInj 8 [6, 10] [3, 10] 2 ≠
    VssP.sessionId VssPExample.suiteInj 8 [6, 4] [3, 10] 2 := fun h => by
  have := (C105_honest_partial VssPExample.suiteInj VssPExample.suiteInj_lawful (by decide) 8 8 [6, 10] [6, 4] [3, 10]
    [3, 10] 2 2 (fun h => h) (by norm_num) (by norm_num) rfl rfl h).2.1
  exact absurd this (by decide)

theorem C105_violated : ¬ C105_statement := by
  intro h
  have := (h (ZMod 11) (ZMod 11) inferInstance inferInstance inferInstance VssPExample.suiteInj VssPExample.suiteInj_lawful (by decide)
    (fun _ _ h => h) 8 8 ([6] ++ [10]) [6] [3] [10, 3] 2 2 (by norm_num) (by norm_num)
    (C105_violated_boundary VssPExample.suiteInj 8 10 [6] [3] 2)).2.1
  cases this

end Kyber.Props
