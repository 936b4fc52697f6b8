/-
C101: the binary form of the messages. C102: a message has one binary form only.
-/
import Verif.Model.Ed.Bincode
import Verif.Lemmas.Bincode
import Verif.Props.EdSerde
import Verif.Spec.Apart

namespace Kyber.Ed

open Kyber Kyber.ModInt Kyber.Bin

/-! ## Scalars and points of edwards25519 -/

theorem i32_write {b : Bytes} (h : b.length = 4) : i32Bytes (wrap 32 (leNat b : Int)) = b := by
  unfold i32Bytes wrap
  have e : (Int.bmod (leNat b : Int) (2 ^ 32)) % 2 ^ 32 = (leNat b : Int) % 2 ^ 32 := by
    have := Int.bmod_emod (x := (leNat b : Int)) (m := 2 ^ 32)
    exact_mod_cast this
  have hlt : leNat b < 2 ^ 32 := by
    have := leNat_lt b
    rw [h] at this
    norm_num at this ⊢
    exact this
  have e2 : ((leNat b : Int) % 2 ^ 32).toNat = leNat b := by
    generalize leNat b = n at hlt
    omega
  rw [e, e2]
  have := leBytes_leNat b
  rw [h] at this
  exact this

theorem chunks (n : Nat) (b : Bytes) (h : b.length = 4 * n) :
    (List.range n).flatMap (fun i => (b.drop (4 * i)).take 4) = b := by
  induction n generalizing b with
  | zero =>
    simp only [mul_zero, List.length_eq_zero_iff] at h
    simp [h]
  | succ n ih =>
    rw [List.range_succ_eq_map, List.flatMap_cons, List.flatMap_map]
    have e : (List.range n).flatMap (fun i => (b.drop (4 * (i + 1))).take 4) = b.drop 4 := by
      conv_rhs => rw [← ih (b.drop 4) (by rw [List.length_drop]; omega)]
      refine List.flatMap_congr fun i _ => ?_
      rw [List.drop_drop, show 4 * (i + 1) = 4 + 4 * i by ring]
    simp only [mul_zero, List.drop_zero, Nat.succ_eq_add_one]
    rw [e, List.take_append_drop]

theorem feSer_de {b : Bytes} (h : b.length = 40) : feSer (feDe b) = b := by
  unfold feSer feDe
  rw [List.flatMap_map]
  conv_rhs => rw [← chunks 10 b h]
  refine List.flatMap_congr fun i hi => ?_
  apply i32_write
  rw [List.length_take, List.length_drop, h]
  have := List.mem_range.1 hi
  omega

theorem exact_scalar : binScalar.Exact (fun a => a.length = 32) := exact_array 32

theorem exact_point : binPoint.Exact Pt.I32s := by
  intro b p r
  simp only [binPoint, Option.map_eq_some_iff, Prod.mk.injEq]
  constructor
  · rintro ⟨p', h, rfl, rfl⟩
    refine ⟨(C98_exact_partial p').1 ⟨b, h⟩, ?_⟩
    unfold Pt.de at h
    split at h
    · cases h
    · rename_i hl
      simp only at h
      split at h
      · rename_i hf
        cases h
        unfold Pt.ser
        have l1 : (b.take 40).length = 40 := by rw [List.length_take]; omega
        have l2 : ((b.drop 40).take 40).length = 40 := by rw [List.length_take, List.length_drop]; omega
        have l3 : ((b.drop 80).take 40).length = 40 := by rw [List.length_take, List.length_drop]; omega
        have l4 : ((b.drop 120).take 40).length = 40 := by rw [List.length_take, List.length_drop]; omega
        simp only
        rw [feSer_de l1, feSer_de l2, feSer_de l3, feSer_de l4]
        have e5 : ([if (b.getD 160 0 == 1) = true then 1 else 0] : Bytes) = (b.drop 160).take 1 := by
          have hlt : 160 < b.length := by omega
          rw [List.drop_eq_getElem_cons hlt, List.take_succ_cons, List.take_zero]
          have : b.getD 160 0 = b[160] := by
            rw [List.getD_eq_getElem?_getD, List.getElem?_eq_getElem hlt]; rfl
          rw [this] at hf ⊢
          rcases hf with h | h <;> rw [h] <;> rfl
        rw [e5]
        have s1 : (b.drop 160).take 1 ++ b.drop 161 = b.drop 160 := by
          have := List.take_append_drop 1 (b.drop 160)
          rwa [List.drop_drop] at this
        have s2 : (b.drop 120).take 40 ++ b.drop 160 = b.drop 120 := by
          have := List.take_append_drop 40 (b.drop 120)
          rwa [List.drop_drop] at this
        have s3 : (b.drop 80).take 40 ++ b.drop 120 = b.drop 80 := by
          have := List.take_append_drop 40 (b.drop 80)
          rwa [List.drop_drop] at this
        have s4 : (b.drop 40).take 40 ++ b.drop 80 = b.drop 40 := by
          have := List.take_append_drop 40 (b.drop 40)
          rwa [List.drop_drop] at this
        simp only [List.append_assoc]
        rw [s1, s2, s3, s4, List.take_append_drop]
      · cases h
  · rintro ⟨h, rfl⟩
    exact ⟨p, C98_roundtrip p h r, rfl, List.drop_left' (length_ser p h)⟩

/-- C98: exactly the bytes that `serialize` writes for some coordinates are read, and as these coordinates; what
follows them is not looked at. -/
theorem C98_reads_exact (b : Bytes) (p : Pt) : Pt.de b = some p ↔ p.I32s ∧ ∃ r, b = p.ser ++ r := by
  constructor
  · intro h
    obtain ⟨h1, h2⟩ := (exact_point b p (b.drop 161)).1 (by simp [binPoint, h])
    exact ⟨h1, _, h2⟩
  · rintro ⟨h, r, rfl⟩
    exact C98_roundtrip p h r

end Kyber.Ed

namespace Kyber.Props

open Kyber Kyber.ModInt Kyber.Bin Kyber.Poly

/-! ## C101 -/

/-- A length or a `usize` fits eight bytes. -/
def W64 (n : Nat) : Prop := n < 2 ^ 64

/-- An index fits four bytes. -/
def W32 (n : Nat) : Prop := n < 2 ^ 32

/-- The documented form of a byte string: its length in eight bytes, then the bytes. -/
def wBytes (b : Bytes) : Bytes := leBytes 8 b.length ++ b

/-- The documented form of a list. -/
def wList {α : Type} (w : α → Bytes) (l : List α) : Bytes := leBytes 8 l.length ++ (l.map w).flatten

/-- The type is written in the form `layout`, and read from exactly the byte strings that begin with the
form of a value that `fits` the widths of its fields. -/
structure Wire {α : Type} (B : Bin α) (fits : α → Prop) (layout : α → Bytes) : Prop where
  write : ∀ a, B.marshal a = layout a
  read : ∀ b a, B.unmarshal b = some a ↔ fits a ∧ layout a <+: b

theorem wire_of {α : Type} {B : Bin α} {P fits : α → Prop} {layout : α → Bytes} (h : B.Exact P)
    (hf : ∀ a, P a ↔ fits a) (hl : ∀ a, B.ser a = layout a) : Wire B fits layout := by
  refine ⟨hl, fun b a => ?_⟩
  rw [h.unmarshal_iff, hf]
  unfold marshal
  rw [hl]

/-- Reading what was written gives the value back, also when more bytes follow. -/
theorem Wire.roundtrip {α : Type} {B : Bin α} {fits : α → Prop} {layout : α → Bytes} (h : Wire B fits layout)
    {a : α} (ha : fits a) (r : Bytes) : B.unmarshal (B.marshal a ++ r) = some a :=
  (h.read _ _).2 ⟨ha, by rw [h.write]; exact List.prefix_append _ _⟩

/-- Different values have different forms, and none begins with that of another. -/
theorem Wire.prefix_free {α : Type} {B : Bin α} {fits : α → Prop} {layout : α → Bytes} (h : Wire B fits layout)
    {a c : α} (ha : fits a) (hc : fits c) (hp : B.marshal a <+: B.marshal c) : a = c := by
  have h1 := (h.read (B.marshal c) a).2 ⟨ha, by rw [← h.write]; exact hp⟩
  have h2 := (h.read (B.marshal c) c).2 ⟨hc, by rw [← h.write]⟩
  rw [h1] at h2
  exact Option.some.inj h2

section

variable {F G : Type} {S : Bin F} {P : Bin G} {fS : F → Prop} {fP : G → Prop}

theorem flat_map (w : G → Bytes) (l : List G) : l.flatMap w = (l.map w).flatten := rfl

theorem vec_ser {A : Bin G} (l : List G) : (vec A).ser l = wList A.ser l := rfl

theorem w64_list (l : List G) (f : G → Prop) :
    (l.length < 2 ^ 64 ∧ ∀ a ∈ l, f a) ↔ W64 l.length ∧ ∀ a ∈ l, f a := Iff.rfl

/-- The form of a share. -/
def wShare (S : F → Bytes) (s : Share F) : Bytes := leBytes 8 s.i ++ S s.v

/-- A share that fits. -/
def ShareFits (fS : F → Prop) (s : Share F) : Prop := W64 s.i ∧ fS s.v

/-- The deal of the Pedersen VSS fits. -/
def DealFits (fS : F → Prop) (fP : G → Prop) (d : VssP.Deal F G) : Prop :=
  W64 d.sessionId.length ∧ ShareFits fS d.secShare ∧ W64 d.t ∧ W64 d.commitments.length ∧
    ∀ c ∈ d.commitments, fP c

/-- The form of a deal of the Pedersen VSS. -/
def wDeal (S : F → Bytes) (P : G → Bytes) (d : VssP.Deal F G) : Bytes :=
  wBytes d.sessionId ++ (wShare S d.secShare ++ (leBytes 8 d.t ++ wList P d.commitments))

theorem exact_deal (hS : S.Exact fS) (hP : P.Exact fP) : (VssP.binDeal S P).Exact (DealFits fS fP) :=
  (exact_bytes.pair ((exact_share hS).pair (exact_usize.pair hP.vec))).iso (fun _ => rfl) (fun _ => rfl)

theorem deal_ser (d : VssP.Deal F G) : (VssP.binDeal S P).ser d = wDeal S.ser P.ser d := by
  show bytes.ser d.sessionId ++ _ = _
  rw [bytes_ser]
  rfl

theorem C101_deal (hS : S.Exact fS) (hP : P.Exact fP) :
    Wire (VssP.binDeal S P) (DealFits fS fP) (wDeal S.ser P.ser) :=
  wire_of (exact_deal hS hP) (fun _ => Iff.rfl) deal_ser

/-- The deal of the Rabin VSS fits. -/
def DealFitsR (fS : F → Prop) (fP : G → Prop) (d : VssR.Deal F G) : Prop :=
  W64 d.sessionId.length ∧ ShareFits fS d.secShare ∧ ShareFits fS d.rndShare ∧ W64 d.t ∧
    W64 d.commitments.length ∧ ∀ c ∈ d.commitments, fP c

/-- The form of a deal of the Rabin VSS. -/
def wDealR (S : F → Bytes) (P : G → Bytes) (d : VssR.Deal F G) : Bytes :=
  wBytes d.sessionId ++ (wShare S d.secShare ++ (wShare S d.rndShare ++ (leBytes 8 d.t ++ wList P d.commitments)))

theorem exact_deal_rabin (hS : S.Exact fS) (hP : P.Exact fP) : (VssR.binDeal S P).Exact (DealFitsR fS fP) :=
  (exact_bytes.pair ((exact_share hS).pair ((exact_share hS).pair (exact_usize.pair hP.vec)))).iso
    (fun _ => rfl) (fun _ => rfl)

theorem deal_ser_rabin (d : VssR.Deal F G) : (VssR.binDeal S P).ser d = wDealR S.ser P.ser d := by
  show bytes.ser d.sessionId ++ _ = _
  rw [bytes_ser]
  rfl

theorem C101_deal_rabin (hS : S.Exact fS) (hP : P.Exact fP) :
    Wire (VssR.binDeal S P) (DealFitsR fS fP) (wDealR S.ser P.ser) :=
  wire_of (exact_deal_rabin hS hP) (fun _ => Iff.rfl) deal_ser_rabin

/-- An encrypted deal fits. -/
def EncryptedFits (fP : G → Prop) (e : VssP.EncryptedDeal G) : Prop :=
  fP e.dhkey ∧ W64 e.signature.length ∧ W64 e.nonce.length ∧ W64 e.cipher.length

/-- The form of an encrypted deal. -/
def wEncrypted (P : G → Bytes) (e : VssP.EncryptedDeal G) : Bytes :=
  P e.dhkey ++ (wBytes e.signature ++ (wBytes e.nonce ++ wBytes e.cipher))

theorem exact_encrypted (hP : P.Exact fP) : (VssP.binEncrypted P).Exact (EncryptedFits fP) :=
  (hP.pair (exact_bytes.pair (exact_bytes.pair exact_bytes))).iso (fun _ => rfl) (fun _ => rfl)

theorem encrypted_ser (e : VssP.EncryptedDeal G) : (VssP.binEncrypted P).ser e = wEncrypted P.ser e := by
  show P.ser e.dhkey ++ (bytes.ser e.signature ++ (bytes.ser e.nonce ++ bytes.ser e.cipher)) = _
  rw [bytes_ser, bytes_ser, bytes_ser]
  rfl

theorem C101_encrypted_deal (hP : P.Exact fP) :
    Wire (VssP.binEncrypted P) (EncryptedFits fP) (wEncrypted P.ser) :=
  wire_of (exact_encrypted hP) (fun _ => Iff.rfl) encrypted_ser

/-- A response fits. -/
def ResponseFits (r : VssP.Response) : Prop :=
  W64 r.sessionId.length ∧ W32 r.index ∧ W64 r.signature.length

/-- The form of a response. -/
def wResponse (r : VssP.Response) : Bytes :=
  wBytes r.sessionId ++ (leBytes 4 r.index ++ ((if r.status then 1 else 0) :: wBytes r.signature))

theorem exact_response : VssP.binResponse.Exact ResponseFits :=
  Exact.congr ((exact_bytes.pair (exact_u32.pair (exact_bool.pair exact_bytes))).iso (fun _ => rfl) (fun _ => rfl))
    fun _ => ⟨fun h => ⟨h.1, h.2.1, h.2.2.2⟩, fun h => ⟨h.1, h.2.1, trivial, h.2.2⟩⟩

theorem response_ser (r : VssP.Response) : VssP.binResponse.ser r = wResponse r := by
  show bytes.ser r.sessionId ++ (leBytes 4 r.index ++ ([if r.status then 1 else 0] ++ bytes.ser r.signature)) = _
  rw [bytes_ser, bytes_ser]
  rfl

theorem C101_response : Wire VssP.binResponse ResponseFits wResponse :=
  wire_of exact_response (fun _ => Iff.rfl) response_ser

/-- A justification of the Pedersen VSS fits. -/
def JustFits (fS : F → Prop) (fP : G → Prop) (j : VssP.Justification F G) : Prop :=
  W64 j.sessionId.length ∧ W32 j.index ∧ DealFits fS fP j.deal ∧ W64 j.signature.length

/-- The form of a justification of the Pedersen VSS. -/
def wJust (S : F → Bytes) (P : G → Bytes) (j : VssP.Justification F G) : Bytes :=
  wBytes j.sessionId ++ (leBytes 4 j.index ++ (wDeal S P j.deal ++ wBytes j.signature))

theorem exact_just (hS : S.Exact fS) (hP : P.Exact fP) : (VssP.binJustification S P).Exact (JustFits fS fP) :=
  (exact_bytes.pair (exact_u32.pair ((exact_deal hS hP).pair exact_bytes))).iso (fun _ => rfl) (fun _ => rfl)

theorem just_ser (j : VssP.Justification F G) : (VssP.binJustification S P).ser j = wJust S.ser P.ser j := by
  show bytes.ser j.sessionId ++ (leBytes 4 j.index ++ ((VssP.binDeal S P).ser j.deal ++ bytes.ser j.signature)) = _
  rw [bytes_ser, bytes_ser, deal_ser]
  rfl

theorem C101_justification (hS : S.Exact fS) (hP : P.Exact fP) :
    Wire (VssP.binJustification S P) (JustFits fS fP) (wJust S.ser P.ser) :=
  wire_of (exact_just hS hP) (fun _ => Iff.rfl) just_ser

/-- A justification of the Rabin VSS fits. -/
def JustFitsR (fS : F → Prop) (fP : G → Prop) (j : VssR.Justification F G) : Prop :=
  W64 j.sessionId.length ∧ W32 j.index ∧ DealFitsR fS fP j.deal ∧ W64 j.signature.length

/-- The form of a justification of the Rabin VSS. -/
def wJustR (S : F → Bytes) (P : G → Bytes) (j : VssR.Justification F G) : Bytes :=
  wBytes j.sessionId ++ (leBytes 4 j.index ++ (wDealR S P j.deal ++ wBytes j.signature))

theorem exact_just_rabin (hS : S.Exact fS) (hP : P.Exact fP) :
    (VssR.binJustification S P).Exact (JustFitsR fS fP) :=
  (exact_bytes.pair (exact_u32.pair ((exact_deal_rabin hS hP).pair exact_bytes))).iso (fun _ => rfl) (fun _ => rfl)

theorem just_ser_rabin (j : VssR.Justification F G) :
    (VssR.binJustification S P).ser j = wJustR S.ser P.ser j := by
  show bytes.ser j.sessionId ++ (leBytes 4 j.index ++ ((VssR.binDeal S P).ser j.deal ++ bytes.ser j.signature)) = _
  rw [bytes_ser, bytes_ser, deal_ser_rabin]
  rfl

theorem C101_justification_rabin (hS : S.Exact fS) (hP : P.Exact fP) :
    Wire (VssR.binJustification S P) (JustFitsR fS fP) (wJustR S.ser P.ser) :=
  wire_of (exact_just_rabin hS hP) (fun _ => Iff.rfl) just_ser_rabin

/-- The key share of the Pedersen DKG. -/
theorem C101_dist_key_share (hS : S.Exact fS) (hP : P.Exact fP) :
    Wire (DkgP.binDistKeyShare S P)
      (fun k => (W64 k.commits.length ∧ ∀ c ∈ k.commits, fP c) ∧ ShareFits fS k.share ∧
        (W64 k.privatePoly.length ∧ ∀ c ∈ k.privatePoly, fS c))
      (fun k => wList P.ser k.commits ++ (wShare S.ser k.share ++ wList S.ser k.privatePoly)) :=
  wire_of ((hP.vec.pair ((exact_share hS).pair hS.vec)).iso (fun _ => rfl) (fun _ => rfl)) (fun _ => Iff.rfl)
    (fun _ => rfl)

/-- The key share of the Rabin DKG. -/
theorem C101_dist_key_share_rabin (hS : S.Exact fS) (hP : P.Exact fP) :
    Wire (DkgR.binDistKeyShare S P)
      (fun k => (W64 k.commits.length ∧ ∀ c ∈ k.commits, fP c) ∧ ShareFits fS k.share)
      (fun k => wList P.ser k.commits ++ wShare S.ser k.share) :=
  wire_of ((hP.vec.pair (exact_share hS)).iso (fun _ => rfl) (fun _ => rfl)) (fun _ => Iff.rfl) (fun _ => rfl)

theorem exact_dkg_deal (hP : P.Exact fP) : (DkgP.binDeal P).Exact
    (fun d => W32 d.index ∧ EncryptedFits fP d.deal ∧ W64 d.signature.length) :=
  (exact_u32.pair ((exact_encrypted hP).pair exact_bytes)).iso (fun _ => rfl) (fun _ => rfl)

theorem dkg_deal_ser (d : DkgP.Deal G) :
    (DkgP.binDeal P).ser d = leBytes 4 d.index ++ (wEncrypted P.ser d.deal ++ wBytes d.signature) := by
  show leBytes 4 d.index ++ ((VssP.binEncrypted P).ser d.deal ++ bytes.ser d.signature) = _
  rw [encrypted_ser, bytes_ser]
  rfl

/-- The deal of the Pedersen DKG. -/
theorem C101_dkg_deal (hP : P.Exact fP) :
    Wire (DkgP.binDeal P) (fun d => W32 d.index ∧ EncryptedFits fP d.deal ∧ W64 d.signature.length)
      (fun d => leBytes 4 d.index ++ (wEncrypted P.ser d.deal ++ wBytes d.signature)) :=
  wire_of (exact_dkg_deal hP) (fun _ => Iff.rfl) dkg_deal_ser

/-- The deal of the Rabin DKG. -/
theorem C101_dkg_deal_rabin (hP : P.Exact fP) :
    Wire (DkgR.binDeal P) (fun d => W32 d.index ∧ EncryptedFits fP d.deal)
      (fun d => leBytes 4 d.index ++ wEncrypted P.ser d.deal) := by
  refine wire_of ((exact_u32.pair (exact_encrypted hP)).iso (fun _ => rfl) (fun _ => rfl)) (fun _ => Iff.rfl) ?_
  intro d
  show leBytes 4 d.index ++ (VssP.binEncrypted P).ser d.deal = _
  rw [encrypted_ser]

/-- The responses of both DKGs. -/
theorem C101_dkg_response :
    Wire DkgP.binResponse (fun r => W32 r.index ∧ ResponseFits r.response)
      (fun r => leBytes 4 r.index ++ wResponse r.response) ∧
    Wire DkgR.binResponse (fun r => W32 r.index ∧ ResponseFits r.response)
      (fun r => leBytes 4 r.index ++ wResponse r.response) := by
  constructor
  · refine wire_of ((exact_u32.pair exact_response).iso (fun _ => rfl) (fun _ => rfl)) (fun _ => Iff.rfl) ?_
    intro r
    show leBytes 4 r.index ++ VssP.binResponse.ser r.response = _
    rw [response_ser]
  · refine wire_of ((exact_u32.pair exact_response).iso (fun _ => rfl) (fun _ => rfl)) (fun _ => Iff.rfl) ?_
    intro r
    show leBytes 4 r.index ++ VssP.binResponse.ser r.response = _
    rw [response_ser]

/-- The justifications of both DKGs. -/
theorem C101_dkg_justification (hS : S.Exact fS) (hP : P.Exact fP) :
    Wire (DkgP.binJustification S P) (fun j => W32 j.index ∧ JustFits fS fP j.justification)
      (fun j => leBytes 4 j.index ++ wJust S.ser P.ser j.justification) ∧
    Wire (DkgR.binJustification S P) (fun j => W32 j.index ∧ JustFitsR fS fP j.justification)
      (fun j => leBytes 4 j.index ++ wJustR S.ser P.ser j.justification) := by
  constructor
  · refine wire_of ((exact_u32.pair (exact_just hS hP)).iso (fun _ => rfl) (fun _ => rfl)) (fun _ => Iff.rfl) ?_
    intro j
    show leBytes 4 j.index ++ (VssP.binJustification S P).ser j.justification = _
    rw [just_ser]
  · refine wire_of ((exact_u32.pair (exact_just_rabin hS hP)).iso (fun _ => rfl) (fun _ => rfl)) (fun _ => Iff.rfl) ?_
    intro j
    show leBytes 4 j.index ++ (VssR.binJustification S P).ser j.justification = _
    rw [just_ser_rabin]

/-- The messages of the second phase of the Rabin DKG. -/
theorem C101_secret_commits (hP : P.Exact fP) :
    Wire (DkgR.binSecretCommits P)
      (fun s => W32 s.index ∧ (W64 s.commitments.length ∧ ∀ c ∈ s.commitments, fP c) ∧ W64 s.sessionId.length ∧
        W64 s.signature.length)
      (fun s => leBytes 4 s.index ++ (wList P.ser s.commitments ++ (wBytes s.sessionId ++ wBytes s.signature))) := by
  refine wire_of ((exact_u32.pair (hP.vec.pair (exact_bytes.pair exact_bytes))).iso (fun _ => rfl) (fun _ => rfl))
    (fun _ => Iff.rfl) ?_
  intro s
  show leBytes 4 s.index ++ ((vec P).ser s.commitments ++ (bytes.ser s.sessionId ++ bytes.ser s.signature)) = _
  rw [bytes_ser, bytes_ser, vec_ser]
  rfl

theorem C101_complaint_commits (hS : S.Exact fS) (hP : P.Exact fP) :
    Wire (DkgR.binComplaintCommits S P)
      (fun c => W32 c.index ∧ W32 c.dealerIndex ∧ DealFitsR fS fP c.deal ∧ W64 c.signature.length)
      (fun c => leBytes 4 c.index ++ (leBytes 4 c.dealerIndex ++ (wDealR S.ser P.ser c.deal ++
        wBytes c.signature))) := by
  refine wire_of ((exact_u32.pair (exact_u32.pair ((exact_deal_rabin hS hP).pair exact_bytes))).iso (fun _ => rfl)
    (fun _ => rfl)) (fun _ => Iff.rfl) ?_
  intro c
  show leBytes 4 c.index ++ (leBytes 4 c.dealerIndex ++ ((VssR.binDeal S P).ser c.deal ++
    bytes.ser c.signature)) = _
  rw [bytes_ser, deal_ser_rabin]
  rfl

theorem C101_reconstruct_commits (hS : S.Exact fS) :
    Wire (DkgR.binReconstructCommits S)
      (fun r => W64 r.sessionId.length ∧ W32 r.index ∧ W32 r.dealerIndex ∧ ShareFits fS r.share ∧
        W64 r.signature.length)
      (fun r => wBytes r.sessionId ++ (leBytes 4 r.index ++ (leBytes 4 r.dealerIndex ++ (wShare S.ser r.share ++
        wBytes r.signature)))) := by
  refine wire_of ((exact_bytes.pair (exact_u32.pair (exact_u32.pair ((exact_share hS).pair exact_bytes)))).iso
    (fun _ => rfl) (fun _ => rfl)) (fun _ => Iff.rfl) ?_
  intro r
  show bytes.ser r.sessionId ++ (leBytes 4 r.index ++ (leBytes 4 r.dealerIndex ++ ((binShare S).ser r.share ++
    bytes.ser r.signature))) = _
  rw [bytes_ser, bytes_ser]
  rfl

end

/-- C101 on edwards25519: a scalar is any 32 bytes, a point any forty `i32` values and a flag, in 161
bytes. With this the other theorems speak about the messages of the suite. -/
theorem C101_edwards25519 :
    Wire Ed.binScalar (fun s => s.length = 32) id ∧ Wire Ed.binPoint Ed.Pt.I32s Ed.Pt.ser ∧
      (∀ p : Ed.Pt, p.I32s → p.ser.length = 161) ∧
      Wire (VssP.binDeal Ed.binScalar Ed.binPoint) (DealFits (fun s => s.length = 32) Ed.Pt.I32s)
        (wDeal id Ed.Pt.ser) :=
  ⟨wire_of Ed.exact_scalar (fun _ => Iff.rfl) (fun _ => rfl),
    wire_of Ed.exact_point (fun _ => Iff.rfl) (fun _ => rfl), Ed.length_ser,
    C101_deal Ed.exact_scalar Ed.exact_point⟩


/-! The other messages in the bytes of edwards25519. -/

example := C101_deal Ed.exact_scalar Ed.exact_point

example := C101_deal_rabin Ed.exact_scalar Ed.exact_point

example := C101_encrypted_deal Ed.exact_point

example := C101_justification Ed.exact_scalar Ed.exact_point

example := C101_justification_rabin Ed.exact_scalar Ed.exact_point

example := C101_dist_key_share Ed.exact_scalar Ed.exact_point

example := C101_dist_key_share_rabin Ed.exact_scalar Ed.exact_point

example := C101_dkg_deal Ed.exact_point

example := C101_dkg_deal_rabin Ed.exact_point

example := C101_dkg_justification Ed.exact_scalar Ed.exact_point

example := C101_secret_commits Ed.exact_point

example := C101_complaint_commits Ed.exact_scalar Ed.exact_point

example := C101_reconstruct_commits Ed.exact_scalar

/-- A deal to test with: one commitment, the neutral element as `add` returns it. -/
def sampleDeal : VssP.Deal Bytes Ed.Pt := ⟨[1, 2, 3], ⟨4, List.replicate 32 7⟩, 2, [Ed.null2]⟩

theorem null1_i32s : Ed.null1.I32s := by
  refine ⟨⟨by decide +kernel, by decide +kernel⟩, ⟨by decide +kernel, by decide +kernel⟩,
    ⟨by decide +kernel, by decide +kernel⟩, ⟨by decide +kernel, by decide +kernel⟩⟩

theorem null2_i32s : Ed.null2.I32s := by
  refine ⟨⟨by decide +kernel, by decide +kernel⟩, ⟨by decide +kernel, by decide +kernel⟩,
    ⟨by decide +kernel, by decide +kernel⟩, ⟨by decide +kernel, by decide +kernel⟩⟩

theorem sampleDeal_fits : DealFits (fun s : Bytes => s.length = 32) Ed.Pt.I32s sampleDeal := by
  refine ⟨?_, ⟨?_, ?_⟩, ?_, ?_, ?_⟩
  · show (3 : Nat) < 2 ^ 64; norm_num
  · show (4 : Nat) < 2 ^ 64; norm_num
  · rfl
  · show (2 : Nat) < 2 ^ 64; norm_num
  · show (1 : Nat) < 2 ^ 64; norm_num
  · intro c hc
    rw [List.mem_singleton.1 hc]
    exact null2_i32s

example : (VssP.binDeal Ed.binScalar Ed.binPoint).unmarshal
    ((VssP.binDeal Ed.binScalar Ed.binPoint).marshal sampleDeal ++ [9, 9]) = some sampleDeal :=
  C101_edwards25519.2.2.2.roundtrip sampleDeal_fits _

/-- A flag of a response that is neither 0 nor 1 is refused. -/
example : VssP.binResponse.unmarshal (List.replicate 8 0 ++ [5, 0, 0, 0] ++ [2] ++ List.replicate 8 0) = none := by
  decide +kernel

example : VssP.binResponse.unmarshal (List.replicate 8 0 ++ [5, 0, 0, 0] ++ [1] ++ List.replicate 8 0) =
    some ⟨[], 5, true, []⟩ := by
  decide +kernel

/-! ## C102 -/

/-- The full property: whoever accepts two byte strings as the same response has received the same
bytes. -/
def C102_statement : Prop :=
  ∀ (b b' : Bytes) (r : VssP.Response), VssP.binResponse.unmarshal b = some r →
    VssP.binResponse.unmarshal b' = some r → b = b'

/-- What may be appended is arbitrary: every form of every message of every type, followed by any bytes,
is read as the same message. -/
theorem C102_violated_trailing {α : Type} {B : Bin α} {fits : α → Prop} {layout : α → Bytes}
    (h : Wire B fits layout) (a : α) (ha : fits a) (r s : Bytes) :
    B.unmarshal (B.marshal a ++ r) = some a ∧ B.unmarshal (B.marshal a ++ s) = some a :=
  ⟨h.roundtrip ha r, h.roundtrip ha s⟩

theorem C102_violated : ¬ C102_statement := by
  intro h
  have hf : ResponseFits ⟨[], 5, true, []⟩ := by
    refine ⟨?_, ?_, ?_⟩
    · show (0 : Nat) < 2 ^ 64; norm_num
    · show (5 : Nat) < 2 ^ 32; norm_num
    · show (0 : Nat) < 2 ^ 64; norm_num
  obtain ⟨h1, h2⟩ := C102_violated_trailing C101_response _ hf [] [0]
  have := congrArg List.length (h _ _ _ h1 h2)
  simp at this

/-- What holds, for every type: two byte strings are read as the same value exactly when both begin with
its form; if they have no bytes beyond it they are the same. -/
theorem C102_exact_partial {α : Type} {B : Bin α} {fits : α → Prop} {layout : α → Bytes} (h : Wire B fits layout)
    (b b' : Bytes) (a : α) (h1 : B.unmarshal b = some a) :
    (B.unmarshal b' = some a ↔ B.marshal a <+: b') ∧
      (B.unmarshal b' = some a → b.length = (B.marshal a).length → b'.length = (B.marshal a).length → b = b') := by
  obtain ⟨hf, hp⟩ := (h.read _ _).1 h1
  rw [← h.write] at hp
  constructor
  · rw [h.read, h.write]
    exact ⟨fun h => h.2, fun h => ⟨hf, h⟩⟩
  · intro h2 l1 l2
    have hp' := ((h.read _ _).1 h2).2
    rw [← h.write] at hp'
    rw [← hp.eq_of_length l1.symm, ← hp'.eq_of_length l2.symm]

example : ∃ b, VssP.binResponse.unmarshal b = some ⟨[7], 1, false, [8, 9]⟩ :=
  ⟨[1, 0, 0, 0, 0, 0, 0, 0, 7, 1, 0, 0, 0, 0, 2, 0, 0, 0, 0, 0, 0, 0, 8, 9], by decide +kernel⟩

/-! ## C103 -/

open Kyber.Ed (dealEq justEq listEq shareEq null1 null2)

/-- The points of a deal come from the operations of the library. -/
def DealReach (d : VssP.Deal Bytes Ed.Pt) : Prop :=
  ∀ c ∈ d.commitments, Ed.PtReach c.ge ∧ c.varTime = false

/-- The full property: deals that compare equal have the same binary form, hence the same signed hash. -/
def C103_statement : Prop :=
  ∀ d d' : VssP.Deal Bytes Ed.Pt, DealReach d → DealReach d' → dealEq d d' = true →
    (VssP.binDeal Ed.binScalar Ed.binPoint).marshal d = (VssP.binDeal Ed.binScalar Ed.binPoint).marshal d'

theorem listEq_refl (l : List Ed.Pt) : listEq Ed.Pt.eq l l = true := by
  induction l with
  | nil => rfl
  | cons a l ih =>
    unfold listEq
    rw [ih, Ed.C97_cmp_eq_partial a a ((Ed.C97_cmp_exact a a).2 rfl)]
    rfl

/-- What holds: the same binary form means the same deal, with the same coordinates. -/
theorem C103_bytes_partial (d d' : VssP.Deal Bytes Ed.Pt)
    (hd : DealFits (fun s : Bytes => s.length = 32) Ed.Pt.I32s d)
    (hd' : DealFits (fun s : Bytes => s.length = 32) Ed.Pt.I32s d') :
    ((VssP.binDeal Ed.binScalar Ed.binPoint).marshal d = (VssP.binDeal Ed.binScalar Ed.binPoint).marshal d' ↔
      d = d') ∧
    ((VssP.binDeal Ed.binScalar Ed.binPoint).marshal d = (VssP.binDeal Ed.binScalar Ed.binPoint).marshal d' →
      dealEq d d' = true) := by
  have h : (VssP.binDeal Ed.binScalar Ed.binPoint).marshal d = (VssP.binDeal Ed.binScalar Ed.binPoint).marshal d' ↔
      d = d' := ⟨fun he => (exact_deal Ed.exact_scalar Ed.exact_point).inj hd hd' he, fun he => by rw [he]⟩
  refine ⟨h, fun he => ?_⟩
  rw [h.1 he]
  unfold dealEq shareEq
  rw [listEq_refl]
  simp

/-- The same deal with the other representation of its commitment. -/
def sampleDeal' : VssP.Deal Bytes Ed.Pt := { sampleDeal with commitments := [null1] }

theorem sampleDeal'_fits : DealFits (fun s : Bytes => s.length = 32) Ed.Pt.I32s sampleDeal' := by
  refine ⟨?_, ⟨?_, ?_⟩, ?_, ?_, ?_⟩
  · show (3 : Nat) < 2 ^ 64; norm_num
  · show (4 : Nat) < 2 ^ 64; norm_num
  · rfl
  · show (2 : Nat) < 2 ^ 64; norm_num
  · show (1 : Nat) < 2 ^ 64; norm_num
  · intro c hc
    rw [List.mem_singleton.1 hc]
    exact null1_i32s


example := C103_bytes_partial sampleDeal' sampleDeal sampleDeal'_fits sampleDeal_fits

theorem sample_eq : dealEq sampleDeal' sampleDeal = true := by
  show (_ && (_ && (_ && (Ed.Pt.eq null1 null2 && true)))) = true
  rw [Ed.C97_violated_null.1]
  decide +kernel

theorem sample_ne : sampleDeal' ≠ sampleDeal := by
  intro h
  have h1 := congrArg VssP.Deal.commitments h
  have h2 := List.head_eq_of_cons_eq h1
  have h3 := Ed.C97_violated_null.2
  rw [(Ed.C97_cmp_exact null1 null2).2 h2] at h3
  cases h3

theorem sample_reach : DealReach sampleDeal ∧ DealReach sampleDeal' := by
  constructor
  · intro c hc
    rw [List.mem_singleton.1 hc]
    exact ⟨.add _ _ .null .null, rfl⟩
  · intro c hc
    rw [List.mem_singleton.1 hc]
    exact ⟨.null, rfl⟩

theorem C103_violated : ¬ C103_statement := by
  intro h
  have := h sampleDeal' sampleDeal sample_reach.2 sample_reach.1 sample_eq
  exact sample_ne ((C103_bytes_partial _ _ sampleDeal'_fits sampleDeal_fits).1.1 this)

/-- Two justifications that compare equal and whose signed hashes differ, for every suite whose hash
does not collide on them: the signature of one is not a signature of the other. -/
theorem C103_violated_hash (S : Suite Bytes Ed.Pt) (D : Dh.Prims) (sid sig : Bytes) (i : Nat)
    (hS : Spec.Apart S (VssP.ascii "justification" ++ sid ++ u32le i ++ (VssP.binCodec Ed.binScalar Ed.binPoint).enc sampleDeal')
      (VssP.ascii "justification" ++ sid ++ u32le i ++ (VssP.binCodec Ed.binScalar Ed.binPoint).enc sampleDeal)) :
    justEq ⟨sid, i, sampleDeal', sig⟩ ⟨sid, i, sampleDeal, sig⟩ = true ∧
      VssP.Justification.hash ⟨S, D, VssP.binCodec Ed.binScalar Ed.binPoint⟩ ⟨sid, i, sampleDeal', sig⟩ ≠
      VssP.Justification.hash ⟨S, D, VssP.binCodec Ed.binScalar Ed.binPoint⟩ ⟨sid, i, sampleDeal, sig⟩ := by
  constructor
  · unfold justEq
    simp only [sample_eq, beq_self_eq_true, Bool.and_self]
  · intro h
    have h1 := List.append_cancel_left (hS h)
    exact sample_ne ((C103_bytes_partial _ _ sampleDeal'_fits sampleDeal_fits).1.1 h1)

end Kyber.Props
