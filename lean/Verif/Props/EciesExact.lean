/-
C149: which ciphertexts `ecies::decrypt` (`src/encrypt/ecies/ecies_impl.rs`) opens.
-/
import Verif.Props.EdDh
import Verif.Props.EdFair
import Verif.Props.EdNeighbours
import Verif.Props.EdSecrecy

set_option linter.unusedSectionVars false

namespace Kyber.Spec

open Kyber.Dh

/-- Decryption accepts only what encryption with the same key, nonce and additional data returns. AES-GCM with a tag of
fixed length has this property: the message determines the stream part, and stream part and key determine the tag. -/
def Exact (P : Prims) : Prop :=
  ∀ key nonce c aad d, P.gcmOpen key nonce c aad = some d → P.gcmSeal key nonce d aad = some c

/-- The toy cipher has the property. -/
theorem toy_exact : Exact Toy.prims := by
  intro key nonce c aad d h
  simp only [Toy.prims, Option.ite_none_right_eq_some, Option.some.injEq, List.isPrefixOf_iff_prefix] at h ⊢
  obtain ⟨⟨r, rfl⟩, rfl⟩ := h
  rw [List.drop_left]

end Kyber.Spec

namespace Kyber.Props

open Kyber Kyber.Dh Kyber.Spec

variable {F G : Type} [Field F] [AddCommGroup G] [SMul F G]

/-- C149: what `decrypt` opens, outright: the encoding of a point, followed by what the cipher opens with the key and
the nonce derived from that point and its product with the private key. -/
theorem C149_opens_iff (P : Prims) (hP : P.Lawful) (S : Suite F G) (x : F) (c msg : Bytes) :
    eciesDecrypt P S x c = .ok msg ↔
      ∃ (head body : Bytes) (R : G) (buf key : Bytes), c = head ++ body ∧ head.length = S.pointLen ∧
        S.decG head = some R ∧ P.hkdf (S.encG (x • R)) [] 44 = some buf ∧ P.hkdf (S.encG R) buf 32 = some key ∧
        P.gcmOpen key (buf.drop 32) body [] = some msg := by
  constructor
  · intro h
    unfold eciesDecrypt at h
    by_cases hl : c.length < S.pointLen
    · rw [if_pos hl] at h; cases h
    rw [if_neg hl] at h
    unfold AEAD.open_ aesDecrypt copyOut deriveKey hkdf AEAD.new hkdf at h
    simp only [Res.bind_eq_ok, Res.ite_err_eq_ok, Res.ofOption_eq_ok, Res.ok.injEq] at h
    obtain ⟨R, hR, buf, ⟨_, hbuf, -, rfl⟩, nonce, hn, _, ⟨key, hkey, -, rfl⟩, _, ⟨m, ⟨-, hm⟩, rfl⟩, rfl⟩ := h
    have hbl := hP.hkdf_length _ _ _ _ hbuf
    rw [sliceNonce_ok hbl, Res.ok.injEq] at hn
    subst hn
    rw [List.take_of_length_le (by change _ = 44 at hbl; omega)] at hm
    exact ⟨_, _, R, _, key, (List.take_append_drop _ _).symm, by rw [List.length_take]; omega, hR, hbuf, hkey, hm⟩
  · rintro ⟨head, body, R, buf, key, rfl, hl, hR, hbuf, hkey, hm⟩
    have hbl := hP.hkdf_length _ _ _ _ hbuf
    have hkl := hP.hkdf_length _ _ _ _ hkey
    unfold eciesDecrypt
    rw [if_neg (by rw [List.length_append]; omega), List.take_left' hl, List.drop_left' hl, hR]
    have e1 : deriveKey P S (x • R) (32 + nonceSize) = .ok buf := deriveKey_ok hP hbuf
    have e2 : sliceNonce buf (32 + nonceSize) = .ok ((buf.take 44).drop 32) := sliceNonce_ok hbl
    have e3 : AEAD.new P S R buf = .ok ⟨key⟩ := AEAD.new_ok hP hkey
    rw [List.take_of_length_le (by omega)] at e2
    simp only [e1, e2, e3, Res.bind_ok, Res.ofOption_some]
    unfold AEAD.open_ aesDecrypt copyOut
    rw [if_neg (by simpa using hkl), Option.getD_none, hm]
    rfl

/-- C149: `encrypt` returns exactly the ciphertexts that `decrypt` opens and that begin with the encoding of a multiple
of the base point. -/
theorem C149_made_iff (P : Prims) (hP : P.Lawful) (hE : Exact P) (S : Suite F G) (hS : S.Lawful) (x : F)
    (c msg : Bytes) :
    (∃ r : F, eciesEncrypt P S r (x • S.base) msg = .ok c) ↔
      eciesDecrypt P S x c = .ok msg ∧ ∃ r : F, c.take S.pointLen = S.encG (r • S.base) := by
  constructor
  · rintro ⟨r, h⟩
    obtain ⟨h1, body, rfl⟩ := C19_round_trip P hP S hS x r msg c h
    exact ⟨h1, r, List.take_left' (hS.encG_length _)⟩
  · rintro ⟨h, r, hr⟩
    obtain ⟨head, body, R, buf, key, rfl, hl, hR, hbuf, hkey, hm⟩ := (C149_opens_iff P hP S x c msg).1 h
    rw [List.take_left' hl] at hr
    subst hr
    rw [hS.decG_encG, Option.some.injEq] at hR
    subst hR
    have hbl := hP.hkdf_length _ _ _ _ hbuf
    have hkl := hP.hkdf_length _ _ _ _ hkey
    rw [hS.base_lin.comm x r] at hbuf
    refine ⟨r, ?_⟩
    unfold eciesEncrypt
    have e1 : deriveKey P S (r • x • S.base) (32 + nonceSize) = .ok buf := deriveKey_ok hP hbuf
    have e2 : sliceNonce buf (32 + nonceSize) = .ok ((buf.take 44).drop 32) := sliceNonce_ok hbl
    have e3 : AEAD.new P S (r • S.base) buf = .ok ⟨key⟩ := AEAD.new_ok hP hkey
    rw [List.take_of_length_le (by omega)] at e2
    simp only [e1, e2, e3, Res.bind_ok]
    unfold AEAD.seal_ aesEncrypt copyOut
    rw [if_neg (by simpa using hkl), Option.getD_none, hE _ _ _ _ _ hm]
    rfl

/-- C149: in a group that consists of the multiples of the base point and whose decoding accepts one encoding per point,
`decrypt` opens exactly what `encrypt` makes. -/
theorem C149_strict (P : Prims) (hP : P.Lawful) (hE : Exact P) (S : Suite F G) (hS : S.Lawful)
    (hgen : ∀ p : G, ∃ r : F, p = r • S.base) (hdec : ∀ b p, S.decG b = some p → b = S.encG p) (x : F) (c msg : Bytes) :
    (∃ r : F, eciesEncrypt P S r (x • S.base) msg = .ok c) ↔ eciesDecrypt P S x c = .ok msg := by
  rw [C149_made_iff P hP hE S hS]
  refine ⟨And.left, fun h => ⟨h, ?_⟩⟩
  obtain ⟨head, body, R, buf, key, rfl, hl, hR, -⟩ := (C149_opens_iff P hP S x c msg).1 h
  obtain ⟨r, rfl⟩ := hgen R
  exact ⟨r, by rw [List.take_left' hl, hdec _ _ hR]⟩

/-- C149: a message and the encoding of the ephemeral point determine the ciphertext. -/
theorem C149_one_body (P : Prims) (hP : P.Lawful) (hE : Exact P) (S : Suite F G) (x : F) (c c' msg : Bytes)
    (h : eciesDecrypt P S x c = .ok msg) (h' : eciesDecrypt P S x c' = .ok msg)
    (ht : c.take S.pointLen = c'.take S.pointLen) : c = c' := by
  obtain ⟨a, b, R, buf, key, rfl, hl, hR, hbuf, hkey, hm⟩ := (C149_opens_iff P hP S x c msg).1 h
  obtain ⟨a', b', R', buf', key', rfl, hl', hR', hbuf', hkey', hm'⟩ := (C149_opens_iff P hP S x c' msg).1 h'
  rw [List.take_left' hl, List.take_left' hl'] at ht
  subst ht
  rw [hR, Option.some.injEq] at hR'
  subst hR'
  rw [hbuf, Option.some.injEq] at hbuf'
  subst hbuf'
  rw [hkey, Option.some.injEq] at hkey'
  subst hkey'
  have e := (hE _ _ _ _ _ hm).symm.trans (hE _ _ _ _ _ hm')
  rw [Option.some.inj e]

/-- C149: only the point counts: another accepted encoding of the same point gives a second ciphertext that opens to
the same message. -/
theorem C149_reencoded (P : Prims) (S : Suite F G) (x : F) (head head' body : Bytes)
    (hl : head.length = S.pointLen) (hl' : head'.length = S.pointLen) (hd : S.decG head = S.decG head') :
    eciesDecrypt P S x (head ++ body) = eciesDecrypt P S x (head' ++ body) := by
  unfold eciesDecrypt
  rw [if_neg (by rw [List.length_append]; omega), if_neg (by rw [List.length_append]; omega), List.take_left' hl,
    List.take_left' hl', List.drop_left' hl, List.drop_left' hl', hd]

section
open Kyber.Toy

/-- A case for `C149_opens_iff`, `C149_made_iff`, `C149_one_body`: a ciphertext that opens. -/
example : ∃ c, eciesDecrypt Toy.prims Toy.suite (3 : ZMod 11) c = .ok [9, 9] ∧
    (∃ r : ZMod 11, c.take Toy.suite.pointLen = Toy.suite.encG (r • Toy.suite.base)) ∧ Exact Toy.prims ∧
    Toy.prims.Lawful ∧ Toy.suite.Lawful := by
  obtain ⟨c, hc⟩ := C19_encrypt_succeeds Toy.prims Toy.prims_lawful Toy.suite (4 : ZMod 11)
    ((3 : ZMod 11) • Toy.suite.base) [9, 9] (fun _ _ _ _ => ⟨_, rfl⟩) (fun _ _ _ _ _ _ => ⟨_, rfl⟩)
  obtain ⟨h1, h2⟩ := (C149_made_iff _ Toy.prims_lawful toy_exact _ Toy.lawful 3 c [9, 9]).1 ⟨_, hc⟩
  exact ⟨c, h1, h2, toy_exact, Toy.prims_lawful, Toy.lawful⟩

/-- `C149_strict`: in the toy group every element is a multiple of the base point, and has one encoding. -/
example (c : Bytes) : (∃ r : ZMod 11, eciesEncrypt Toy.prims Toy.suite r ((3 : ZMod 11) • Toy.suite.base) [9, 9] = .ok c) ↔
    eciesDecrypt Toy.prims Toy.suite (3 : ZMod 11) c = .ok [9, 9] :=
  C149_strict _ Toy.prims_lawful toy_exact _ Toy.lawful (by decide +kernel) Toy.enc_dec 3 c [9, 9]

end

end Kyber.Props

/-! ## On edwards25519 -/

namespace Kyber.Ed

open Kyber Kyber.ModInt Kyber.Schnorr Kyber.Dh Kyber.Props Kyber.Spec

/-- `decrypt` opens exactly what `encrypt` can return for the public key and some ephemeral scalar. -/
def C149_statement : Prop :=
  ∀ (P : Prims) (_ : P.Lawful) (_ : Exact P) (sha hash : Bytes → Bytes) (x : ZMod L) (c msg : Bytes),
    eciesDecrypt P (edSuite sha hash) x c = .ok msg →
      ∃ r : ZMod L, eciesEncrypt P (edSuite sha hash) r (x • basePt) msg = .ok c

/-- The exact extent: `encrypt` makes those ciphertexts that `decrypt` opens and that begin with the encoding,
in the form `marshal_binary` writes, of a point of the prime order subgroup. -/
theorem C149_edwards25519_partial (P : Prims) (hP : P.Lawful) (hE : Exact P) (sha hash : Bytes → Bytes) (x : ZMod L)
    (c msg : Bytes) :
    (∃ r : ZMod L, eciesEncrypt P (edSuite sha hash) r (x • basePt) msg = .ok c) ↔
      eciesDecrypt P (edSuite sha hash) x c = .ok msg ∧ ∃ p : EdPt, L • p = 0 ∧ c.take 32 = ptEnc p := by
  rw [show basePt = (edSuite sha hash).base from rfl, C149_made_iff P hP hE _ (edSuite_lawful sha hash)]
  refine and_congr_right fun _ => ⟨?_, ?_⟩
  · rintro ⟨r, hr⟩
    exact ⟨r • basePt, L_smul_act r, hr⟩
  · rintro ⟨p, hp, hc⟩
    obtain ⟨r, rfl⟩ := multiple_of_order hp
    exact ⟨r, hc⟩

/-- What decodes to a point, outright. -/
theorem edDec_eq_iff (b : Bytes) (p : EdPt) : edDec b = some p ↔
    b.length = 32 ∧ p.y = ((leNat b % 2 ^ 255 : Nat) : Fp) ∧ (p.x ≠ 0 → p.x.val % 2 = leNat b / 2 ^ 255) := by
  constructor
  · intro h
    obtain ⟨u, hu, hr⟩ := (edDec_iff b p).1 h
    have hu' : ptUnmarshal extDefault b = (u, true) := by
      unfold decodePt at hu
      split at hu
      · rename_i v hv
        rw [hv, Res.ok.inj hu]
      · cases hu
    obtain ⟨h1, -, h3, h4⟩ := C58_decode _ _ _ hu'
    rw [hr.ay_eq] at h3
    rw [hr.ax_eq] at h4
    exact ⟨h1, h3, h4⟩
  · rintro ⟨hl, hy, hx⟩
    obtain ⟨s1, s2⟩ := setBytes_spec extDefault hl
    have hok := s1.2 ⟨p, hy⟩
    obtain ⟨q, hq, qy, qx⟩ := s2 hok
    refine (edDec_iff _ _).2 ⟨_, decodePt_of hok, ?_⟩
    have hyy : q.y = p.y := qy.trans hy.symm
    have : q = p := by
      by_cases h0 : p.x = 0
      · have h2 := x_sq_eq hyy
        rw [h0, zero_pow two_ne_zero] at h2
        ext
        · rw [h0, pow_eq_zero_iff two_ne_zero |>.1 h2]
        · exact hyy
      · have hq0 : q.x ≠ 0 := fun e => h0 (by
          have h2 := x_sq_eq hyy
          rw [e, zero_pow two_ne_zero] at h2
          exact pow_eq_zero_iff two_ne_zero |>.1 h2.symm)
        apply ptEnc_inj
        unfold ptEnc
        rw [hyy, qx hq0, hx h0]
    rwa [this] at hq

/-- C149: which points have an accepted encoding besides the one that `marshal_binary` writes: those with `x = 0`, and
those whose `y` is below 19, because `y + 2^255 - 19` still fits. -/
theorem C149_encodings_partial (p : EdPt) :
    (∃ b, edDec b = some p ∧ b ≠ ptEnc p) ↔ p.x = 0 ∨ p.y.val < 19 := by
  have hp : P = 2 ^ 255 - 19 := by decide +kernel
  constructor
  · rintro ⟨b, hb, hne⟩
    obtain ⟨hl, hy, hx⟩ := (edDec_eq_iff b p).1 hb
    by_contra hcon
    rw [not_or, not_lt] at hcon
    obtain ⟨h0, h19⟩ := hcon
    have hxx := hx h0
    have hv : p.y.val = leNat b % 2 ^ 255 % P := by rw [hy, ZMod.val_natCast]
    have hlt : leNat b % 2 ^ 255 < 2 ^ 255 := Nat.mod_lt _ (by positivity)
    have hv' : p.y.val = leNat b % 2 ^ 255 := by
      by_cases hc : leNat b % 2 ^ 255 < P
      · rw [hv, Nat.mod_eq_of_lt hc]
      · rw [Nat.mod_eq_sub_mod (by omega), Nat.mod_eq_of_lt (by omega)] at hv
        omega
    apply hne
    have : leNat b = leNat (ptEnc p) := by
      rw [leNat_ptEnc, hv', hxx]
      omega
    exact leNat_inj (hl.trans (length_ptEnc p).symm) this
  · intro h
    have hyP : p.y.val < P := ZMod.val_lt _
    by_cases h0 : p.x = 0
    · refine ⟨leBytes 32 (p.y.val + 2 ^ 255), (edDec_eq_iff _ _).2 ⟨by simp, ?_, fun h => absurd h0 h⟩, ?_⟩
      · rw [leNat_leBytes, Nat.mod_eq_of_lt (a := p.y.val + 2 ^ 255) (by norm_num; omega), Nat.add_mod_right,
          Nat.mod_eq_of_lt (by omega), ZMod.natCast_zmod_val]
      · intro e
        have := congrArg leNat e
        rw [leNat_ptEnc, leNat_leBytes, Nat.mod_eq_of_lt (a := p.y.val + 2 ^ 255) (by norm_num; omega), h0,
          ZMod.val_zero] at this
        omega
    · have h19 := h.resolve_left h0
      have hx2 : p.x.val % 2 < 2 := Nat.mod_lt _ (by decide)
      have hlt : p.y.val + P + 2 ^ 255 * (p.x.val % 2) < 256 ^ 32 := by norm_num; omega
      refine ⟨leBytes 32 (p.y.val + P + 2 ^ 255 * (p.x.val % 2)), (edDec_eq_iff _ _).2 ⟨by simp, ?_, fun _ => ?_⟩, ?_⟩
      · rw [leNat_leBytes, Nat.mod_eq_of_lt hlt, Nat.add_mul_mod_self_left, Nat.mod_eq_of_lt (by omega), Nat.cast_add,
          ZMod.natCast_self, add_zero, ZMod.natCast_zmod_val]
      · rw [leNat_leBytes, Nat.mod_eq_of_lt hlt, Nat.add_mul_div_left _ _ (by positivity),
          Nat.div_eq_of_lt (by omega), zero_add]
      · intro e
        have := congrArg leNat e
        rw [leNat_ptEnc, leNat_leBytes, Nat.mod_eq_of_lt hlt] at this
        omega

/-- What opens begins with an accepted encoding of some point, and every accepted encoding can be continued to a
ciphertext that opens to a given message. -/
theorem C149_any_point_partial (P : Prims) (hP : P.Lawful) (sha hash : Bytes → Bytes) (x : ZMod L) (head msg : Bytes)
    (h1 : ∀ ikm info n, n ≤ 44 → ∃ out, P.hkdf ikm info n = some out)
    (h2 : ∀ key nonce data aad, key.length = 32 → nonce.length = 12 → ∃ c, P.gcmSeal key nonce data aad = some c) :
    (∃ body, head.length = 32 ∧ eciesDecrypt P (edSuite sha hash) x (head ++ body) = .ok msg) ↔
      ∃ R, edDec head = some R := by
  constructor
  · rintro ⟨body, hl, h⟩
    obtain ⟨a, b, R, buf, key, e, ha, hR, -⟩ := (C149_opens_iff P hP _ x _ msg).1 h
    obtain ⟨rfl, -⟩ := List.append_inj e (hl.trans ha.symm)
    exact ⟨R, hR⟩
  · rintro ⟨R, hR⟩
    obtain ⟨buf, hbuf⟩ := h1 (ptEnc (x • R)) [] 44 le_rfl
    have hbl := hP.hkdf_length _ _ _ _ hbuf
    obtain ⟨key, hkey⟩ := h1 (ptEnc R) buf 32 (by omega)
    obtain ⟨body, hb⟩ := h2 key (buf.drop 32) msg [] (hP.hkdf_length _ _ _ _ hkey) (by rw [List.length_drop]; omega)
    have hl := ((edDec_eq_iff _ _).1 hR).1
    exact ⟨body, hl, (C149_opens_iff P hP _ x _ msg).2 ⟨head, body, R, buf, key, rfl, hl, hR, hbuf, hkey,
      hP.open_seal _ _ _ _ _ hb⟩⟩

/-- C149 does not hold: a ciphertext that begins with the point of order two opens. -/
theorem C149_violated : ¬ C149_statement := by
  intro h
  obtain ⟨body, -, hb⟩ := (C149_any_point_partial Toy.prims Toy.prims_lawful id id 5 (ptEnc t2) [1, 2]
    (fun _ _ _ _ => ⟨_, rfl⟩) (fun _ _ _ _ _ _ => ⟨_, rfl⟩)).2 ⟨t2, edDec_enc t2⟩
  have hm := h Toy.prims Toy.prims_lawful toy_exact id id 5 _ _ hb
  obtain ⟨-, p, hp, he⟩ := (C149_edwards25519_partial Toy.prims Toy.prims_lawful toy_exact id id 5 _ _).1 hm
  rw [List.take_left' (length_ptEnc _)] at he
  rw [← ptEnc_inj he] at hp
  rw [t2_odd (by decide +kernel)] at hp
  exact t2_ne hp

/-- C149: a third party that knows no key can change a ciphertext whose ephemeral point has a second encoding so that
it still opens to the same message. -/
theorem C149_violated_altered (P : Prims) (hP : P.Lawful) (sha hash : Bytes → Bytes) (x r : ZMod L) (c msg : Bytes)
    (hc : eciesEncrypt P (edSuite sha hash) r (x • basePt) msg = .ok c) (hr : (r • basePt).x = 0 ∨ (r • basePt).y.val < 19) :
    ∃ c' ≠ c, c'.drop 32 = c.drop 32 ∧ eciesDecrypt P (edSuite sha hash) x c' = .ok msg := by
  obtain ⟨h1, body, rfl⟩ := C19_round_trip P hP _ (edSuite_lawful sha hash) x r msg c hc
  obtain ⟨b, hb, hne⟩ := (C149_encodings_partial (r • basePt)).2 hr
  have hl := ((edDec_eq_iff _ _).1 hb).1
  refine ⟨b ++ body, fun e => hne (List.append_cancel_right e), ?_, ?_⟩
  · rw [List.drop_left' hl]
    exact (List.drop_left' (length_ptEnc _)).symm
  · rw [← h1]
    exact C149_reencoded P _ x _ _ body hl (length_ptEnc _) (hb.trans (edDec_enc _).symm)

/-- A case for `C149_violated_altered`: the ephemeral scalar 0. -/
example (x : ZMod L) : ∃ c, eciesEncrypt Toy.prims (edSuite id id) 0 (x • basePt) [7] = .ok c ∧
    (((0 : ZMod L) • basePt).x = 0 ∨ ((0 : ZMod L) • basePt).y.val < 19) := by
  obtain ⟨c, hc⟩ := C19_encrypt_succeeds Toy.prims Toy.prims_lawful (edSuite id id) 0 (x • basePt) [7]
    (fun _ _ _ _ => ⟨_, rfl⟩) (fun _ _ _ _ _ _ => ⟨_, rfl⟩)
  refine ⟨c, hc, .inl ?_⟩
  rw [act_def, ZMod.val_zero, zero_smul]
  rfl

/-- A case for `C149_edwards25519_partial`: the base point begins a ciphertext that opens and that `encrypt` makes. -/
example (x : ZMod L) : ∃ c, eciesDecrypt Toy.prims (edSuite id id) x c = .ok [7] ∧
    ∃ p : EdPt, L • p = 0 ∧ c.take 32 = ptEnc p := by
  obtain ⟨body, -, hb⟩ := (C149_any_point_partial Toy.prims Toy.prims_lawful id id x (ptEnc basePt) [7]
    (fun _ _ _ _ => ⟨_, rfl⟩) (fun _ _ _ _ _ _ => ⟨_, rfl⟩)).2 ⟨_, edDec_enc basePt⟩
  exact ⟨_, hb, basePt, L_smul_base, List.take_left' (length_ptEnc _)⟩

end Kyber.Ed
