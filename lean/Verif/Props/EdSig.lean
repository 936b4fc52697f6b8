/-
C86 to C90: Schnorr and EdDSA signatures on edwards25519, byte for byte, against RFC 8032.
-/
import Verif.Lemmas.Ed.Sig
import Verif.Spec.Ed.Rfc8032
import Verif.Spec.Ok

namespace Kyber.Ed

open Kyber Kyber.ModInt Kyber.Schnorr

/-! ## Signing -/

theorem schnorrSign_eq (sha : Bytes → Bytes) (k x msg : Bytes) (hk : k.length = 32) (hx : x.length = 32)
    (hk2 : leNat k < 2 ^ 255) (hx2 : leNat x < 2 ^ 255) :
    schnorrSign sha k x msg = .ok (ptEnc (leNat k • basePt) ++ leBytes 32 ((leNat k + leNat x *
      leNat (sha (ptEnc (leNat k • basePt) ++ ptEnc (leNat x • basePt) ++ msg))) % L)) := by
  obtain ⟨c, e1, e2, e3⟩ := fromDigest (sha (ptEnc (leNat k • basePt) ++ ptEnc (leNat x • basePt) ++ msg))
  unfold schnorrSign schnorrHash
  simp only
  rw [marshal_rep (mulBase hk hk2), marshal_rep (mulBase hx hx2), e1, Res.bind_ok, scMarshal_eq, Res.mapErr_ok,
    Res.bind_ok, (C49_add k _ hk (C49_mul x c hx e2).1).2, (C49_mul x c hx e2).2, e3]
  congr 3
  rw [Nat.mod_mod]
  conv_lhs => rw [Nat.add_mod, Nat.mod_mod, Nat.mul_mod, Nat.mod_mod, ← Nat.mul_mod, ← Nat.add_mod]

theorem take_enc (p : EdPt) (b : Bytes) : (ptEnc p ++ b).take 32 = ptEnc p := by
  rw [List.take_append_of_le_length (by rw [length_ptEnc]), List.take_of_length_le (by rw [length_ptEnc])]

theorem drop_enc (p : EdPt) (b : Bytes) : (ptEnc p ++ b).drop 32 = b := by
  rw [List.drop_append, length_ptEnc, List.drop_of_length_le (by rw [length_ptEnc])]
  rfl

theorem leNat_leBytes_mod (n : Nat) : leNat (leBytes 32 (n % L)) = n % L := by
  rw [leNat_leBytes, Nat.mod_eq_of_lt]
  exact lt_of_lt_of_le (Nat.mod_lt _ L_pos) (by decide +kernel)

/-- A signature made from multiples of the base point satisfies the equation; whether it is accepted
depends on the two points alone. -/
theorem sigOk_iff (sha : Bytes → Bytes) (k x : Nat) (msg : Bytes) :
    SigOk sha (ptEnc (x • basePt)) msg (ptEnc (k • basePt) ++ leBytes 32 ((k + x *
      leNat (sha (ptEnc (k • basePt) ++ ptEnc (x • basePt) ++ msg))) % L)) ↔
    Accepted (k • basePt) ∧ Accepted (x • basePt) := by
  unfold SigOk SigEq
  simp only [take_enc, drop_enc, leNat_leBytes_mod]
  constructor
  · rintro ⟨-, R, A, h1, h2, h3, h4, -⟩
    rw [ptEnc_inj h1] at h3
    rw [ptEnc_inj h2] at h4
    exact ⟨h3, h4⟩
  · rintro ⟨h3, h4⟩
    refine ⟨by rw [List.length_append, length_ptEnc, length_leBytes], _, _, rfl, rfl, h3, h4, Nat.mod_lt _ L_pos, ?_⟩
    rw [mod_smul_base, mod_smul (by rw [smul_comm, L_smul_base, smul_zero]), add_smul, smul_smul, mul_comm x]

/-! ## C86: signatures verify -/

/-- Every signature made with a nonzero nonce and a nonzero key is accepted. -/
def C86_statement : Prop :=
  ∀ (sha : Bytes → Bytes) (k x msg : Bytes), k.length = 32 → x.length = 32 → leNat k < L → leNat x < L →
    leNat k ≠ 0 → leNat x ≠ 0 →
    ∃ sig, schnorrSign sha k x msg = .ok sig ∧ schnorrVerify sha (ptMarshal (ptMul x none)) msg sig = .ok ()

theorem small_base (k : Nat) : 8 • (k • basePt) = 0 ↔ L ∣ k := by
  rw [smul_smul, ← addOrderOf_dvd_iff_nsmul_eq_zero, addOrderOf_base]
  constructor
  · intro h
    exact (Nat.Coprime.dvd_of_dvd_mul_left (by decide +kernel) h)
  · exact fun h => Dvd.dvd.mul_left h 8

/-- What holds, exactly: signing succeeds, and the signature is accepted if and only if nonce and key are
not multiples of the order and the `y` coordinates of their points are below `p - 217`. -/
theorem C86_verifies_partial (sha : Bytes → Bytes) (k x msg : Bytes) (hk : k.length = 32) (hx : x.length = 32)
    (hk2 : leNat k < 2 ^ 255) (hx2 : leNat x < 2 ^ 255) :
    ∃ sig, schnorrSign sha k x msg = .ok sig ∧
      (schnorrVerify sha (ptMarshal (ptMul x none)) msg sig = .ok () ↔
        (¬ L ∣ leNat k ∧ (leNat k • basePt).y.val < P - 217) ∧
        (¬ L ∣ leNat x ∧ (leNat x • basePt).y.val < P - 217)) := by
  refine ⟨_, schnorrSign_eq sha k x msg hk hx hk2 hx2, ?_⟩
  rw [schnorrVerify_iff, marshal_rep (mulBase hx hx2), sigOk_iff]
  unfold Accepted
  rw [Ne, small_base, Ne, small_base, and_comm, and_comm (a := ¬ L ∣ leNat k), and_comm (a := ¬ L ∣ leNat x)]
  exact and_comm

/-- Nonce 1 and key 1: the base point is accepted, so the signature is. -/
theorem sample_accepted (sha : Bytes → Bytes) (msg : Bytes) : ∃ sig, schnorrSign sha (leBytes 32 1) (leBytes 32 1) msg = .ok sig ∧
    schnorrVerify sha (ptMarshal (ptMul (leBytes 32 1) none)) msg sig = .ok () := by
  obtain ⟨sig, h1, h2⟩ := C86_verifies_partial sha (leBytes 32 1) (leBytes 32 1) msg (length_leBytes _ _)
    (length_leBytes _ _) (by decide +kernel) (by decide +kernel)
  have e : leNat (leBytes 32 1) = 1 := by decide +kernel
  have hy : basePt.y.val < P - 217 := by
    show ((46316835694926478169428394003475163141307993866256225615783033603165251855960 : Nat) : Fp).val < _
    rw [ZMod.val_natCast]
    decide +kernel
  refine ⟨sig, h1, h2.2 ?_⟩
  rw [e, one_smul]
  exact ⟨⟨by decide +kernel, hy⟩, by decide +kernel, hy⟩

/-- A point of the subgroup with `y = p - 9`. -/
def highN : NPt :=
  ⟨20998110467665258077629620998309994886851780706327836337918840104339545710600,
   57896044618658097711785492504343953926634992332820282019728792003956564819940, 1⟩

theorem highPt_on : On dC (highN.x : Fp) (highN.y : Fp) := by
  have h : ((highN.y ^ 2 : Nat) : Fp) = ((1 + dN * highN.x ^ 2 * highN.y ^ 2 + highN.x ^ 2 : Nat) : Fp) := by
    rw [ZMod.natCast_eq_natCast_iff']
    decide +kernel
  simp only [Nat.cast_add, Nat.cast_mul, Nat.cast_pow, Nat.cast_one, show (dN : Fp) = dC from rfl] at h
  unfold On
  linear_combination h

def highPt : EdPt := ⟨highN.x, highN.y, highPt_on⟩

theorem highN_rep : highN.Rep highPt := by
  refine ⟨?_, ?_, ?_⟩ <;> simp [highN, highPt]

theorem highPt_mem : highPt ∈ Sub := by
  rw [mem_Sub_iff, (nMul_rep highN_rep 256 L (by decide +kernel)).eq_zero_iff]
  decide +kernel

theorem highPt_y : highPt.y.val = P - 9 := by
  show (highN.y : Fp).val = _
  rw [ZMod.val_natCast]
  decide +kernel

/-- There is a scalar whose multiple of the base point is refused. -/
theorem exists_high : ∃ k : Nat, k < L ∧ k ≠ 0 ∧ k • basePt = highPt := by
  obtain ⟨z, hz⟩ := AddSubgroup.mem_zmultiples_iff.1 highPt_mem
  have hLz : (0 : Int) < L := by exact_mod_cast L_pos
  obtain ⟨n, hn⟩ : ∃ n : Nat, (n : Int) = z % L := ⟨(z % L).toNat, Int.toNat_of_nonneg (Int.emod_nonneg _ hLz.ne')⟩
  have hlt := Int.emod_lt_of_pos z hLz
  have e : n • basePt = highPt := by
    rw [← hz, ← natCast_zsmul, hn]
    conv_rhs => rw [← Int.emod_add_mul_ediv z L]
    rw [add_smul, mul_comm (L : Int), mul_smul, natCast_zsmul basePt L, L_smul_base, smul_zero, add_zero]
  refine ⟨n, by omega, ?_, e⟩
  rintro rfl
  rw [zero_smul] at e
  have h1 := congrArg (fun q => (EdPt.y q).val) e
  simp only [highPt_y] at h1
  rw [zero_y] at h1
  revert h1
  decide +kernel

/-- The nonce `k` with `k B = (., p - 9)` gives a refused signature, for every key, message and hash
function. -/
theorem C86_violated_nonce : ∃ k : Bytes, k.length = 32 ∧ leNat k < L ∧ leNat k ≠ 0 ∧
    ∀ (sha : Bytes → Bytes) (x msg : Bytes), x.length = 32 → leNat x < 2 ^ 255 →
      ∃ sig, schnorrSign sha k x msg = .ok sig ∧
        schnorrVerify sha (ptMarshal (ptMul x none)) msg sig ≠ .ok () := by
  obtain ⟨k, h1, h2, h3⟩ := exists_high
  have hk : leNat (leBytes 32 k) = k := by
    have := leNat_leBytes_mod k
    rwa [Nat.mod_eq_of_lt h1] at this
  refine ⟨leBytes 32 k, length_leBytes _ _, by rw [hk]; exact h1, by rw [hk]; exact h2, ?_⟩
  intro sha x msg hx hx2
  obtain ⟨sig, e1, e2⟩ := C86_verifies_partial sha (leBytes 32 k) x msg (length_leBytes _ _) hx
    (by rw [hk]; exact h1.trans L_lt') hx2
  refine ⟨sig, e1, fun h => ?_⟩
  have := (e2.1 h).1.2
  rw [hk, h3, highPt_y] at this
  revert this
  decide +kernel

/-- Likewise for the secret key: none of its signatures is accepted. -/
theorem C86_violated_key : ∃ x : Bytes, x.length = 32 ∧ leNat x < L ∧ leNat x ≠ 0 ∧
    ∀ (sha : Bytes → Bytes) (k msg : Bytes), k.length = 32 → leNat k < 2 ^ 255 →
      ∃ sig, schnorrSign sha k x msg = .ok sig ∧
        schnorrVerify sha (ptMarshal (ptMul x none)) msg sig ≠ .ok () := by
  obtain ⟨k, h1, h2, h3⟩ := exists_high
  have hk : leNat (leBytes 32 k) = k := by
    have := leNat_leBytes_mod k
    rwa [Nat.mod_eq_of_lt h1] at this
  refine ⟨leBytes 32 k, length_leBytes _ _, by rw [hk]; exact h1, by rw [hk]; exact h2, ?_⟩
  intro sha x msg hx hx2
  obtain ⟨sig, e1, e2⟩ := C86_verifies_partial sha x (leBytes 32 k) msg hx (length_leBytes _ _) hx2
    (by rw [hk]; exact h1.trans L_lt')
  refine ⟨sig, e1, fun h => ?_⟩
  have := (e2.1 h).2.2
  rw [hk, h3, highPt_y] at this
  revert this
  decide +kernel

theorem C86_violated : ¬ C86_statement := by
  intro h
  obtain ⟨k, h1, h2, h3, h4⟩ := C86_violated_nonce
  have e : leNat (leBytes 32 1) = 1 := by decide +kernel
  obtain ⟨sig, a, b⟩ := h (fun b => b) k (leBytes 32 1) [] h1 (length_leBytes _ _) h2 (by rw [e]; decide +kernel) h3
    (by rw [e]; decide)
  obtain ⟨sig', a', b'⟩ := h4 (fun b => b) (leBytes 32 1) [] (length_leBytes _ _) (by rw [e]; decide +kernel)
  rw [a] at a'
  cases a'
  exact b' b

/-- The failing scalars are few: at most 435 of the `L` residues. -/
theorem C86_rare_partial :
    Nat.card {k : Fin L // ¬ (¬ L ∣ k.val ∧ (k.val • basePt).y.val < P - 217)} ≤ 435 := by
  classical
  let f : {k : Fin L // ¬ (¬ L ∣ k.val ∧ (k.val • basePt).y.val < P - 217)} → Option (Fin 217 × Fin 2) := fun k =>
    if h : L ∣ k.1.val then none else
      some (⟨(k.1.val • basePt).y.val - (P - 217), by
        have h1 := k.2
        have h2 := ZMod.val_lt (k.1.val • basePt).y
        have h3 : P = (P - 217) + 217 := by decide +kernel
        have h4 : ¬ (k.1.val • basePt).y.val < P - 217 := fun hc => h1 ⟨h, hc⟩
        omega⟩, ⟨(k.1.val • basePt).x.val % 2, Nat.mod_lt _ (by decide)⟩)
  have hf : Function.Injective f := by
    intro a b hab
    have hz : ∀ k : Fin L, L ∣ k.val → k.val = 0 := fun k h => Nat.eq_zero_of_dvd_of_lt h k.2
    by_cases ha : L ∣ a.1.val
    · by_cases hb : L ∣ b.1.val
      · exact Subtype.ext (Fin.ext ((hz _ ha).trans (hz _ hb).symm))
      · simp [f, ha, hb] at hab
    · by_cases hb : L ∣ b.1.val
      · simp [f, ha, hb] at hab
      · simp only [f, ha, hb, dite_false, Option.some.injEq, Prod.mk.injEq, Fin.mk.injEq] at hab
        obtain ⟨h1, h2⟩ := hab
        have h3 : ¬ (a.1.val • basePt).y.val < P - 217 := fun hc => a.2 ⟨ha, hc⟩
        have h4 : ¬ (b.1.val • basePt).y.val < P - 217 := fun hc => b.2 ⟨hb, hc⟩
        have hy : (a.1.val • basePt).y.val = (b.1.val • basePt).y.val := by omega
        have he : a.1.val • basePt = b.1.val • basePt := by
          apply ptEnc_inj
          unfold ptEnc
          rw [hy, h2]
        have := nsmul_injOn_Iio_addOrderOf (x := basePt) (by rw [addOrderOf_base]; exact a.1.2)
          (by rw [addOrderOf_base]; exact b.1.2) he
        exact Subtype.ext (Fin.ext this)
  have := Nat.card_le_card_of_injective f hf
  refine this.trans ?_
  rw [Nat.card_eq_fintype_card, Fintype.card_option, Fintype.card_prod, Fintype.card_fin, Fintype.card_fin]

/-! ## C87: EdDSA signing is that of RFC 8032 -/

theorem clamp_low' (v : UInt8) : (v &&& 0xf8).toNat = v.toNat / 8 * 8 := by
  have h : ∀ n < 256, (UInt8.ofNat n &&& 0xf8).toNat = (UInt8.ofNat n).toNat / 8 * 8 := by decide +kernel
  have := h v.toNat v.toNat_lt
  rwa [UInt8.ofNat_toNat] at this

theorem clamp_top' (v : UInt8) : ((v &&& 0x7f) ||| 0x40).toNat = 64 + v.toNat % 64 := by
  have h : ∀ n < 256, ((UInt8.ofNat n &&& 0x7f) ||| 0x40).toNat = 64 + (UInt8.ofNat n).toNat % 64 := by
    decide +kernel
  have := h v.toNat v.toNat_lt
  rwa [UInt8.ofNat_toNat] at this

theorem clamp_value (digest : Bytes) (hd : digest.length = 64) :
    leNat (clampKey digest).1 = 2 ^ 254 + 8 * (leNat (digest.take 32) / 8 % 2 ^ 251) := by
  obtain ⟨v, m, w, t, rfl, hm⟩ : ∃ v m w t, digest = v :: (m ++ w :: t) ∧ m.length = 30 := by
    obtain ⟨v, rest, rfl⟩ : ∃ v rest, digest = v :: rest := by
      cases digest with
      | nil => simp at hd
      | cons v r => exact ⟨v, r, rfl⟩
    have hr : rest.length = 63 := by simpa using hd
    refine ⟨v, rest.take 30, rest[30], rest.drop 31, ?_, by rw [List.length_take]; omega⟩
    congr 1
    conv_lhs => rw [← List.take_append_drop 30 rest]
    congr 1
    rw [List.drop_eq_getElem_cons (by omega)]
  have g31 : ∀ (a c : UInt8), (a :: (m ++ c :: t)).getD 31 0 = c := by
    intro a c
    rw [List.getD_cons_succ, List.getD_eq_getElem?_getD, List.getElem?_append_right (by omega), hm]
    rfl
  have s31 : ∀ (a c e : UInt8), (a :: (m ++ c :: t)).set 31 e = a :: (m ++ e :: t) := by
    intro a c e
    rw [List.set_cons_succ, List.set_append_right _ _ (by omega), hm]
    rfl
  have tk : ∀ (a c : UInt8), (a :: (m ++ c :: t)).take 32 = a :: (m ++ [c]) := by
    intro a c
    rw [List.take_succ_cons, List.take_append, hm, List.take_of_length_le (by omega)]
    rfl
  have e : (clampKey (v :: (m ++ w :: t))).1 = (v &&& 0xf8) :: (m ++ [(w &&& 0x7f) ||| 0x40]) := by
    unfold clampKey
    simp only [List.getD_cons_zero, List.set_cons_zero, s31, g31, tk]
  have hnat : ∀ a c : UInt8, leNat (a :: (m ++ [c])) = a.toNat + 256 * (leNat m + 256 ^ 30 * c.toNat) := by
    intro a c
    rw [leNat, leNat_append, hm, leNat, leNat]; ring
  rw [e, tk, hnat, hnat, clamp_low', clamp_top']
  have c3 := leNat_lt m
  rw [hm] at c3
  have c4 := v.toNat_lt
  have c5 := w.toNat_lt
  omega

/-- The public key of a new EdDSA key is that of RFC 8032. -/
theorem C87_rfc_key (sha : Bytes → Bytes) (seed : Bytes) (hd : (sha seed).length = 64) :
    ptMarshal (edKeyNew sha seed).pub = Rfc8032.pubKey sha seed ∧
      leNat (edKeyNew sha seed).secret = Rfc8032.secret sha seed := by
  obtain ⟨h1, h2, h3, h4, h5, h6⟩ := C60_clamp _ hd
  refine ⟨?_, clamp_value _ hd⟩
  show ptMarshal (ptMul (clampKey (sha seed)).1 none) = _
  rw [marshal_rep (mulBase h1 h4), clamp_value _ hd]
  rfl


example := C87_rfc_key (fun _ => leBytes 64 5) [1, 2, 3] (length_leBytes _ _)

/-- For every seed and message the signature is, byte for byte, the one of RFC 8032. -/
theorem C87_rfc_sign (sha : Bytes → Bytes) (seed msg : Bytes) (hd : (sha seed).length = 64) :
    eddsaSign sha (edKeyNew sha seed) msg = .ok (Rfc8032.sign sha seed msg) := by
  obtain ⟨h1, h2, h3, h4, h5, h6⟩ := C60_clamp _ hd
  obtain ⟨k1, k2⟩ := C87_rfc_key sha seed hd
  have hs : (edKeyNew sha seed).secret.length = 32 := h1
  have hp : (edKeyNew sha seed).prefix_ = (sha seed).drop 32 := h5
  generalize edKeyNew sha seed = e at *
  obtain ⟨r, r1, r2, r3⟩ := fromDigest (sha ((sha seed).drop 32 ++ msg))
  have hR : ptMarshal (ptMul r none) = Rfc8032.enc (leNat (sha ((sha seed).drop 32 ++ msg)) • basePt) := by
    rw [marshal_rep (mulBase r2 (by rw [r3]; exact lt255 _)), r3, mod_smul_base]
    rfl
  obtain ⟨c, c1, c2, c3⟩ := fromDigest (sha (Rfc8032.enc (leNat (sha ((sha seed).drop 32 ++ msg)) • basePt) ++
    Rfc8032.pubKey sha seed ++ msg))
  have hsum : leNat (scAdd r (scMul e.secret c)) % L =
      (leNat (sha ((sha seed).drop 32 ++ msg)) + leNat (sha (Rfc8032.enc (leNat (sha ((sha seed).drop 32 ++ msg)) • basePt) ++
        Rfc8032.pubKey sha seed ++ msg)) * Rfc8032.secret sha seed) % L := by
    rw [(C49_add r _ r2 (C49_mul e.secret c hs c2).1).2, (C49_mul e.secret c hs c2).2, r3, c3, k2, Nat.mod_mod]
    conv_lhs => rw [Nat.add_mod, Nat.mod_mod, Nat.mod_mod, Nat.mul_mod, Nat.mod_mod, ← Nat.mul_mod, ← Nat.add_mod]
    rw [mul_comm (Rfc8032.secret sha seed)]
  unfold eddsaSign
  rw [hp, r1, Res.bind_ok]
  simp only
  rw [hR, k1, c1, Res.bind_ok, scMarshal_eq, Res.mapErr_ok, Res.bind_ok, if_neg (by
    unfold Rfc8032.enc; rw [length_leBytes]; simp), if_neg (by rw [length_leBytes]; simp), hsum]
  rfl

/-- The condition on the digest is met by every seed if the hash function is SHA-512; here one with constant
output. -/
example : eddsaSign (fun _ => leBytes 64 5) (edKeyNew (fun _ => leBytes 64 5) []) [1] =
    .ok (Rfc8032.sign (fun _ => leBytes 64 5) [] [1]) :=
  C87_rfc_sign _ _ _ (length_leBytes _ _)

/-! ## C88: verification against RFC 8032 -/

theorem decodes_enc (p : EdPt) : Rfc8032.Decodes (ptEnc p) p := by
  refine ⟨length_ptEnc p, ?_, (enc_y p).symm, (enc_div p).symm⟩
  rw [enc_mod]
  exact ZMod.val_lt _

theorem enc_of_decodes {b : Bytes} {p : EdPt} (h : Rfc8032.Decodes b p) : ptEnc p = b := by
  obtain ⟨h1, h2, h3, h4⟩ := h
  apply leNat_inj ((length_ptEnc p).trans h1.symm)
  rw [leNat_ptEnc, h4, h3, ZMod.val_natCast_of_lt h2]
  exact Nat.mod_add_div _ _

/-- Every signature made as in RFC 8032 is accepted. -/
def C88_statement : Prop :=
  ∀ (sha : Bytes → Bytes), (∀ b, (sha b).length = 64) → ∀ seed msg : Bytes, seed.length = 32 →
    eddsaVerify sha (Rfc8032.pubKey sha seed) msg (Rfc8032.sign sha seed msg) = .ok ()

/-- An accepted signature satisfies the verification of RFC 8032 (multiplied by the cofactor); without the
cofactor too if the public key lies in the subgroup of the base point. -/
theorem C88_sound (sha : Bytes → Bytes) (pub msg sig : Bytes) (h : eddsaVerify sha pub msg sig = .ok ()) :
    Rfc8032.Verifies sha 8 pub msg sig ∧
      ((∃ A : EdPt, Rfc8032.Decodes pub A ∧ L • A = 0) → Rfc8032.Verifies sha 1 pub msg sig) := by
  obtain ⟨h1, R, A, h2, h3, h4, h5, h6, h7⟩ := (eddsaVerify_iff sha pub msg sig).1 h
  unfold SigEq at h7
  constructor
  · refine ⟨h1, R, A, h2 ▸ decodes_enc R, h3 ▸ decodes_enc A, h6, ?_⟩
    have e : 8 • (leNat (sha (sig.take 32 ++ pub ++ msg)) % L) • A = 8 • leNat (sha (sig.take 32 ++ pub ++ msg)) • A := by
      have h8 : L • (8 • A) = 0 := (mem_Sub_iff _).1 (eight_smul_mem A)
      generalize leNat (sha (sig.take 32 ++ pub ++ msg)) = n
      rw [smul_comm 8 (n % L) A, mod_smul h8, smul_comm n 8 A]
    rw [h7, smul_add, e]
  · rintro ⟨A', hA', hL⟩
    have : A' = A := ptEnc_inj ((enc_of_decodes hA').trans h3.symm)
    subst this
    refine ⟨h1, R, A', h2 ▸ decodes_enc R, h3 ▸ decodes_enc A', h6, ?_⟩
    rw [h7, one_smul, one_smul, one_smul, mod_smul hL]

/-- For a public key in the subgroup: accepted exactly if RFC 8032 without cofactor accepts, neither point
has small order, and both have `y < p - 217`. -/
theorem C88_exact_partial (sha : Bytes → Bytes) (pub msg sig : Bytes) (A : EdPt) (hA : Rfc8032.Decodes pub A)
    (hL : L • A = 0) :
    eddsaVerify sha pub msg sig = .ok () ↔ Rfc8032.Verifies sha 1 pub msg sig ∧ A ≠ 0 ∧ A.y.val < P - 217 ∧
      ∀ R, Rfc8032.Decodes (sig.take 32) R → R ≠ 0 ∧ R.y.val < P - 217 := by
  have tors : ∀ p : EdPt, L • p = 0 → (8 • p ≠ 0 ↔ p ≠ 0) := by
    intro p hp
    constructor
    · rintro h rfl
      exact h (smul_zero _)
    · intro h h8
      obtain ⟨k, rfl⟩ := AddSubgroup.mem_zmultiples_iff.1 ((mem_Sub_iff p).2 hp)
      obtain ⟨a, b, hab⟩ := bezout
      apply h
      have : (k • basePt : EdPt) = a • (8 • (k • basePt)) + b • (L • (k • basePt)) := by
        generalize k • basePt = q
        rw [← natCast_zsmul q L, ← natCast_zsmul q 8, ← mul_smul, ← mul_smul, ← add_smul]
        have : a * ((8 : Nat) : Int) + b * (L : Int) = 1 := by push_cast; linear_combination hab
        rw [this, one_smul]
      rw [this, h8, hp, smul_zero, smul_zero, add_zero]
  have hR0 : ∀ R : EdPt, leNat (sig.drop 32) • basePt = R + leNat (sha (sig.take 32 ++ pub ++ msg)) • A → L • R = 0 := by
    intro R h
    have : R = leNat (sig.drop 32) • basePt - leNat (sha (sig.take 32 ++ pub ++ msg)) • A := by rw [h]; abel
    rw [this, smul_sub, smul_comm, L_smul_base, smul_zero, smul_comm, hL, smul_zero, sub_zero]
  rw [eddsaVerify_iff]
  constructor
  · intro h
    have hs := (C88_sound sha pub msg sig ((eddsaVerify_iff _ _ _ _).2 h)).2 ⟨A, hA, hL⟩
    obtain ⟨h1, R, A', h2, h3, h4, h5, h6, h7⟩ := h
    have : A' = A := ptEnc_inj (h3.trans (enc_of_decodes hA).symm)
    subst this
    refine ⟨hs, (tors _ hL).1 h5.2, h5.1, ?_⟩
    intro R' hR'
    have : R' = R := ptEnc_inj ((enc_of_decodes hR').trans h2.symm)
    subst this
    unfold SigEq at h7
    rw [mod_smul hL] at h7
    exact ⟨(tors _ (hR0 _ h7)).1 h4.2, h4.1⟩
  · rintro ⟨⟨h1, R, A', h2, h3, h4, h5⟩, h6, h7, h8⟩
    have : A' = A := ptEnc_inj ((enc_of_decodes h3).trans (enc_of_decodes hA).symm)
    subst this
    rw [one_smul, one_smul, one_smul] at h5
    obtain ⟨r1, r2⟩ := h8 R h2
    refine ⟨h1, R, A', enc_of_decodes h2, enc_of_decodes h3, ⟨r2, (tors _ (hR0 _ h5)).2 r1⟩, ⟨h7, (tors _ hL).2 h6⟩, h4, ?_⟩
    unfold SigEq
    rw [mod_smul hL]
    exact h5

/-- For the signatures of RFC 8032 themselves. -/
theorem C88_rfc_signature_partial (sha : Bytes → Bytes) (hd : ∀ b, (sha b).length = 64) (seed msg : Bytes) :
    eddsaVerify sha (Rfc8032.pubKey sha seed) msg (Rfc8032.sign sha seed msg) = .ok () ↔
      (Rfc8032.secret sha seed • basePt).y.val < P - 217 ∧
      ¬ L ∣ leNat (sha ((sha seed).drop 32 ++ msg)) ∧
      (leNat (sha ((sha seed).drop 32 ++ msg)) • basePt).y.val < P - 217 := by
  have e : Rfc8032.sign sha seed msg = ptEnc (leNat (sha ((sha seed).drop 32 ++ msg)) • basePt) ++
      leBytes 32 ((leNat (sha ((sha seed).drop 32 ++ msg)) + Rfc8032.secret sha seed *
        leNat (sha (ptEnc (leNat (sha ((sha seed).drop 32 ++ msg)) • basePt) ++
          ptEnc (Rfc8032.secret sha seed • basePt) ++ msg))) % L) := by
    rw [mul_comm (Rfc8032.secret sha seed)]
    rfl
  have hsec : ¬ L ∣ Rfc8032.secret sha seed := by
    have h := (C60_subgroups (sha seed) (hd seed) _ base_valid).2
    rw [clamp_value _ (hd seed)] at h
    intro hdv
    exact h (Nat.mod_eq_zero_of_dvd hdv)
  rw [eddsaVerify_iff, e, show Rfc8032.pubKey sha seed = ptEnc (Rfc8032.secret sha seed • basePt) from rfl, sigOk_iff]
  unfold Accepted
  rw [Ne, small_base, Ne, small_base]
  constructor
  · rintro ⟨⟨a, b⟩, c, d⟩; exact ⟨c, b, a⟩
  · rintro ⟨c, b, a⟩; exact ⟨⟨a, b⟩, c, hsec⟩


example := C88_rfc_signature_partial (fun _ => leBytes 64 5) (fun _ => length_leBytes _ _) [1, 2, 3] [4]

theorem C88_violated : ¬ C88_statement := by
  intro h
  obtain ⟨k, h1, h2, h3⟩ := exists_high
  have hlen : ∀ b : Bytes, ((fun _ => leBytes 64 k) b : Bytes).length = 64 := fun _ => length_leBytes _ _
  have := h (fun _ => leBytes 64 k) hlen (List.replicate 32 0) [] (by simp)
  rw [C88_rfc_signature_partial _ hlen] at this
  have hk : leNat (leBytes 64 k) = k := by
    rw [leNat_leBytes, Nat.mod_eq_of_lt]
    exact h1.trans (by decide +kernel)
  have h4 := this.2.2
  simp only [hk, h3, highPt_y] at h4
  revert h4
  decide +kernel

/-! ## C89: both verification functions agree -/

/-- `schnorr::verify` and `eddsa::verify` accept the same keys, messages and signatures. -/
theorem C89_agree (sha : Bytes → Bytes) (pub msg sig : Bytes) :
    schnorrVerify sha pub msg sig = .ok () ↔ eddsaVerify sha pub msg sig = .ok () :=
  (schnorrVerify_iff sha pub msg sig).trans (eddsaVerify_iff sha pub msg sig).symm

/-- A Schnorr signature with the nonce and the secret of an EdDSA key is the EdDSA signature. -/
theorem C89_same_signature (sha : Bytes → Bytes) (seed msg k : Bytes) (hd : (sha seed).length = 64)
    (hk : scFromDigest (sha ((sha seed).drop 32 ++ msg)) = .ok k) :
    schnorrSign sha k (edKeyNew sha seed).secret msg = eddsaSign sha (edKeyNew sha seed) msg := by
  obtain ⟨h1, h2, h3, h4, h5, h6⟩ := C60_clamp _ hd
  obtain ⟨r, r1, r2, r3⟩ := fromDigest (sha ((sha seed).drop 32 ++ msg))
  obtain rfl : r = k := by rw [r1] at hk; exact Res.ok.inj hk
  have hR : ptEnc (leNat r • basePt) = Rfc8032.enc (leNat (sha ((sha seed).drop 32 ++ msg)) • basePt) := by
    rw [r3, mod_smul_base]; rfl
  have hA : ptEnc (leNat (edKeyNew sha seed).secret • basePt) = Rfc8032.pubKey sha seed := by
    rw [(C87_rfc_key sha seed hd).2]; rfl
  rw [C87_rfc_sign sha seed msg hd, schnorrSign_eq sha r (edKeyNew sha seed).secret msg r2 h1 (by rw [r3]; exact lt255 _) h4, hR, hA,
    (C87_rfc_key sha seed hd).2, r3]
  unfold Rfc8032.sign
  simp only
  congr 3
  conv_lhs => rw [Nat.add_mod, Nat.mod_mod, ← Nat.add_mod]
  rw [mul_comm (Rfc8032.secret sha seed)]


example : ∃ k, schnorrSign (fun _ => leBytes 64 5) k (edKeyNew (fun _ => leBytes 64 5) [1]).secret [2] =
    eddsaSign (fun _ => leBytes 64 5) (edKeyNew (fun _ => leBytes 64 5) [1]) [2] :=
  have ⟨k, hk⟩ : ∃ k, scFromDigest (leBytes 64 5) = .ok k := Res.exists_ok (by decide +kernel)
  ⟨k, C89_same_signature _ [1] [2] k (length_leBytes _ _) hk⟩

/-! ## C90: accepted signatures -/

/-- An accepted signature is determined by the key, the message and its first half. -/
theorem C90_unique (sha : Bytes → Bytes) (pub msg sig sig' : Bytes) (h : eddsaVerify sha pub msg sig = .ok ())
    (h' : eddsaVerify sha pub msg sig' = .ok ()) (he : sig.take 32 = sig'.take 32) : sig = sig' := by
  obtain ⟨a1, R, A, a2, a3, a4, a5, a6, a7⟩ := (eddsaVerify_iff sha pub msg sig).1 h
  obtain ⟨b1, R', A', b2, b3, b4, b5, b6, b7⟩ := (eddsaVerify_iff sha pub msg sig').1 h'
  have e1 : R = R' := ptEnc_inj (a2.trans (he.trans b2.symm))
  have e2 : A = A' := ptEnc_inj (a3.trans b3.symm)
  subst e1 e2
  unfold SigEq at a7 b7
  rw [← he, ← a7] at b7
  have h3 := nsmul_injOn_Iio_addOrderOf (x := basePt) (by rw [addOrderOf_base]; exact b6)
    (by rw [addOrderOf_base]; exact a6) b7
  have h4 : sig'.drop 32 = sig.drop 32 := leNat_inj (by simp [a1, b1]) h3
  rw [← List.take_append_drop 32 sig, ← List.take_append_drop 32 sig', he, h4]

/-- The public key of an accepted signature is the encoding of exactly one point, no other string stands for
that point, and if the point lies in the subgroup so does the commitment. -/
theorem C90_points (sha : Bytes → Bytes) (pub msg sig : Bytes) (h : eddsaVerify sha pub msg sig = .ok ()) :
    ∃ R A : EdPt, Rfc8032.Decodes pub A ∧ Rfc8032.Decodes (sig.take 32) R ∧ 8 • A ≠ 0 ∧ 8 • R ≠ 0 ∧
      (L • A = 0 → L • R = 0) ∧
      ∀ pub' : Bytes, (∃ u, decodePt pub' = .ok u ∧ u.Rep A) → pub' ≠ pub →
        eddsaVerify sha pub' msg sig ≠ .ok () := by
  obtain ⟨a1, R, A, a2, a3, a4, a5, a6, a7⟩ := (eddsaVerify_iff sha pub msg sig).1 h
  refine ⟨R, A, a3 ▸ decodes_enc A, a2 ▸ decodes_enc R, a5.2, a4.2, ?_, ?_⟩
  · intro hL
    have : R = leNat (sig.drop 32) • basePt - (leNat (sha (sig.take 32 ++ pub ++ msg)) % L) • A := by
      unfold SigEq at a7; rw [a7]; abel
    rw [this, smul_sub, smul_comm, L_smul_base, smul_zero, smul_comm, hL, smul_zero, sub_zero]
  · rintro pub' ⟨u, hu, hr⟩ hne hok
    obtain ⟨-, R', A', -, c3, -, c5, -⟩ := (eddsaVerify_iff sha pub' msg sig).1 hok
    obtain ⟨u', d1, d2, -⟩ := decode_of c5
    rw [c3, hu] at d1
    cases d1
    have : A' = A := d2.pt_eq.symm.trans hr.pt_eq
    exact hne (by rw [← c3, ← a3, this])

/-- There are accepted signatures for every hash function and message. -/
example (sha : Bytes → Bytes) (msg : Bytes) : ∃ pub sig, eddsaVerify sha pub msg sig = .ok () ∧
    Rfc8032.Verifies sha 8 pub msg sig := by
  obtain ⟨sig, h1, h2⟩ := sample_accepted sha msg
  exact ⟨_, sig, (C89_agree _ _ _ _).1 h2, (C88_sound _ _ _ _ ((C89_agree _ _ _ _).1 h2)).1⟩

/-- `C90_unique`: the signature made with key and nonce 1 is the only one with that first half. -/
example (sha : Bytes → Bytes) (msg sig' : Bytes) : ∃ pub sig, eddsaVerify sha pub msg sig = .ok () ∧
    (eddsaVerify sha pub msg sig' = .ok () → sig.take 32 = sig'.take 32 → sig = sig') := by
  obtain ⟨sig, -, h2⟩ := sample_accepted sha msg
  exact ⟨_, sig, (C89_agree _ _ _ _).1 h2, C90_unique sha _ msg sig sig' ((C89_agree _ _ _ _).1 h2)⟩

/-- Neither verification function panics, whatever the input. -/
theorem C90_no_panic (sha : Bytes → Bytes) (pub msg sig : Bytes) :
    eddsaVerify sha pub msg sig ≠ .panic ∧ schnorrVerify sha pub msg sig ≠ .panic := by
  have hd : ∀ b, decodePt b ≠ .panic := by
    intro b
    unfold decodePt
    split <;> simp
  have hf : ∀ b, scFromDigest b ≠ .panic := by
    intro b h
    obtain ⟨x, hx, -⟩ := fromDigest b
    rw [hx] at h
    cases h
  have hb : ∀ {α β : Type} (r : Res SigError α) (f : α → Res SigError β), r ≠ .panic → (∀ a, f a ≠ .panic) →
      (r >>= f) ≠ .panic := by
    intro α β r f h1 h2
    cases r with
    | ok a => exact h2 a
    | err e => intro h; cases h
    | panic => exact absurd rfl h1
  have hi : ∀ {α : Type} (c : Prop) [Decidable c] (e : SigError) (r : Res SigError α), r ≠ .panic →
      (if c then Res.err e else r) ≠ .panic := by
    intro α c _ e r h
    split
    · intro h; cases h
    · exact h
  constructor
  · unfold eddsaVerify
    refine hi _ _ _ (hi _ _ _ (hi _ _ _ (hb _ _ (hd _) fun r => hi _ _ _ (hi _ _ _ (hb _ _ (hd _) fun p => hi _ _ _
      (hb _ _ (hf _) fun c => hi _ _ _ ?_))))))
    intro h; cases h
  · unfold schnorrVerify
    refine hi _ _ _ (hb _ _ (hd _) fun r => hi _ _ _ (hi _ _ _ (hi _ _ _ (hb _ _ (hd _) fun p => hi _ _ _ (hi _ _ _
      (hb _ _ (hf _) fun c => hi _ _ _ ?_))))))
    intro h; cases h

end Kyber.Ed
