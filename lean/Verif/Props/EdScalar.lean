/-
C49 to C52 and C68: scalars of edwards25519.

`leNat` reads a byte string as a little-endian number; `L` is the order of the base point.
-/
import Verif.Lemmas.Ed.ScalarOps

namespace Kyber.Ed

open Kyber Kyber.ModInt

/-- Twenty-two times the order plus five, not reduced. -/
private def wide : Bytes := List.replicate 32 0xff

private def five : Bytes := 5 :: List.replicate 31 0

/-! ## C49: the four routines -/

theorem leNat_of_val {b : Bytes} {x : Fl} (h : b = leBytes 32 x.val) : leNat b = x.val := by
  rw [h]; exact leNat_scEnc x

/-- `sc_mul_add` is exact and its result is reduced, whatever the 32-byte operands. -/
theorem C49_mul_add (a b c : Bytes) (ha : a.length = 32) (hb : b.length = 32) (hc : c.length = 32) :
    (scMulAdd a b c).length = 32 ∧ leNat (scMulAdd a b c) = (leNat a * leNat b + leNat c) % L := by
  refine ⟨rfl, ?_⟩
  rw [leNat_of_val (scMulAdd_val a b c ha hb hc)]
  unfold scVal
  rw [← Nat.cast_mul, ← Nat.cast_add, ZMod.val_natCast]

example : wide.length = 32 ∧ five.length = 32 ∧ L < leNat wide := by decide +kernel

theorem C49_mul (a b : Bytes) (ha : a.length = 32) (hb : b.length = 32) :
    (scMul a b).length = 32 ∧ leNat (scMul a b) = leNat a * leNat b % L := by
  refine ⟨rfl, ?_⟩
  rw [leNat_of_val (scMul_val a b ha hb)]
  unfold scVal
  rw [← Nat.cast_mul, ZMod.val_natCast]

example : leNat (scMul wide five) = leNat wide * 5 % L := (C49_mul wide five rfl rfl).2

theorem C49_add (a c : Bytes) (ha : a.length = 32) (hc : c.length = 32) :
    (scAdd a c).length = 32 ∧ leNat (scAdd a c) = (leNat a + leNat c) % L := by
  refine ⟨rfl, ?_⟩
  rw [leNat_of_val (scAdd_val a c ha hc)]
  unfold scVal
  rw [← Nat.cast_add, ZMod.val_natCast]

example : leNat (scAdd wide wide) = (leNat wide + leNat wide) % L := (C49_add wide wide rfl rfl).2

theorem C49_sub (a c : Bytes) (ha : a.length = 32) (hc : c.length = 32) :
    (scSub a c).length = 32 ∧ (leNat (scSub a c) : Int) = ((leNat a : Int) - leNat c) % L := by
  refine ⟨rfl, ?_⟩
  rw [leNat_of_val (scSub_val a c ha hc)]
  unfold scVal
  have : ((leNat a : Fl) - (leNat c : Fl)) = (((leNat a : Int) - leNat c : Int) : Fl) := by push_cast; rfl
  rw [this, ZMod.val_intCast]

example : leNat (scSub five wide) = (5 + 16 * L - leNat wide) % L := by decide +kernel

/-- No addition, multiplication or shift of the routines wraps around: the sums before the
reduction are the mathematical ones, and the reduction with 64-bit arithmetic is the reduction
with unbounded integers. -/
theorem C49_no_overflow (a b c : Bytes) (ha : a.length = 32) (hb : b.length = 32) (hc : c.length = 32) :
    (∀ k < 24, limb (scConv (scLimbs a) (scLimbs b) (scLimbs c)) k = limb (scLimbs c) k +
      ((List.range (k + 1)).map (fun i => limb (scLimbs a) i * limb (scLimbs b) (k - i))).sum) ∧
    runOps 64 reduceOps (scConv (scLimbs a) (scLimbs b) (scLimbs c)) =
      runOpsX reduceOps (scConv (scLimbs a) (scLimbs b) (scLimbs c)) := by
  obtain ⟨h1, h2⟩ := scConv_eq (scLimbs_inA a ha) (scLimbs_inA b hb) (scLimbs_inA c hc)
  refine ⟨fun k hk => ?_, ?_⟩
  · rw [h1, limb_range24 _ _ hk]
  · obtain ⟨B2, hB2⟩ := Option.isSome_iff_exists.1 bnd2
    have b3 : bndOps 64 ops3 B2 = some scB3 := by
      have := bnd3
      rw [hB2] at this
      exact this
    have hb : bndOps 64 reduceOps scB = some scB3 := by
      rw [reduceOps_split]
      unfold bndOps
      rw [List.foldlM_append]
      have e1 : List.foldlM (fun B o => LOp.bnd 64 o B) scB ops1 = some scB1 := bnd1
      rw [e1]
      exact bndOps_cons hB2 b3
    exact (runOps_sound 64 (by norm_num) reduceOps _ scB scB3 h2 hb).1

/-- Also for the largest limbs. -/
example := C49_no_overflow wide wide wide rfl rfl rfl

/-! ## C50: the field -/

/-- The order is a prime. -/
theorem C50_prime : L.Prime ∧ L = 2 ^ 252 + 27742317777372353535851937790883648493 := ⟨prime_L, L_eq⟩

theorem scAdd_enc (a b : Bytes) (ha : a.length = 32) (hb : b.length = 32) :
    scAdd a b = scEnc (scVal a + scVal b) := scAdd_val a b ha hb

theorem scSub_enc (a b : Bytes) (ha : a.length = 32) (hb : b.length = 32) :
    scSub a b = scEnc (scVal a - scVal b) := scSub_val a b ha hb

theorem scMul_enc (a b : Bytes) (ha : a.length = 32) (hb : b.length = 32) :
    scMul a b = scEnc (scVal a * scVal b) := scMul_val a b ha hb

/-- Every operation returns a reduced 32-byte string. -/
theorem C50_closed (a b : Bytes) (ha : a.length = 32) (hb : b.length = 32) :
    ∀ r ∈ [scAdd a b, scSub a b, scMul a b, scNeg a, scInv a, scDiv a b, scZero, scOne],
      r.length = 32 ∧ leNat r < L := by
  have key : ∀ x : Fl, (scEnc x).length = 32 ∧ leNat (scEnc x) < L := fun x =>
    ⟨length_scEnc x, (leNat_scEnc x).symm ▸ ZMod.val_lt x⟩
  intro r hr
  simp only [List.mem_cons, List.not_mem_nil, or_false] at hr
  rcases hr with h | h | h | h | h | h | h | h
  · rw [h, scAdd_enc a b ha hb]; exact key _
  · rw [h, scSub_enc a b ha hb]; exact key _
  · rw [h, scMul_enc a b ha hb]; exact key _
  · rw [h, scNeg_val a ha]; exact key _
  · rw [h, scInv_val a ha]; exact key _
  · rw [h, scDiv_val a b ha hb]; exact key _
  · rw [h, scZero_eq]; exact key _
  · rw [h, scOne_eq]; exact key _

example := C50_closed wide five rfl rfl

/-- The laws of a commutative ring, as equalities of byte strings, for all 32-byte operands. -/
theorem C50_ring (a b c : Bytes) (ha : a.length = 32) (hb : b.length = 32) (hc : c.length = 32) :
    scAdd a b = scAdd b a ∧ scAdd (scAdd a b) c = scAdd a (scAdd b c) ∧
    scMul a b = scMul b a ∧ scMul (scMul a b) c = scMul a (scMul b c) ∧
    scMul a (scAdd b c) = scAdd (scMul a b) (scMul a c) ∧
    scAdd a (scNeg a) = scZero ∧ scSub a b = scAdd a (scNeg b) ∧ scMulAdd a b c = scAdd (scMul a b) c := by
  have hA : ∀ x y : Bytes, x.length = 32 → y.length = 32 → scAdd x y = scEnc (scVal x + scVal y) := scAdd_val
  have hM : ∀ x y : Bytes, x.length = 32 → y.length = 32 → scMul x y = scEnc (scVal x * scVal y) := scMul_val
  have hS : ∀ x y : Bytes, x.length = 32 → y.length = 32 → scSub x y = scEnc (scVal x - scVal y) := scSub_val
  have hMA : scMulAdd a b c = scEnc (scVal a * scVal b + scVal c) := scMulAdd_val a b c ha hb hc
  have l := length_scEnc
  refine ⟨?_, ?_, ?_, ?_, ?_, ?_, ?_, ?_⟩
  · rw [hA a b ha hb, hA b a hb ha, add_comm]
  · rw [hA a b ha hb, hA b c hb hc, hA _ c (l _) hc, hA a _ ha (l _), scVal_scEnc, scVal_scEnc, add_assoc]
  · rw [hM a b ha hb, hM b a hb ha, mul_comm]
  · rw [hM a b ha hb, hM b c hb hc, hM _ c (l _) hc, hM a _ ha (l _), scVal_scEnc, scVal_scEnc, mul_assoc]
  · rw [hA b c hb hc, hM a _ ha (l _), hM a b ha hb, hM a c ha hc, hA _ _ (l _) (l _), scVal_scEnc, scVal_scEnc,
      scVal_scEnc, mul_add]
  · rw [scNeg_val a ha, hA a _ ha (l _), scVal_scEnc, add_neg_cancel, scZero_eq]
  · rw [scNeg_val b hb, hA a _ ha (l _), scVal_scEnc, hS a b ha hb, sub_eq_add_neg]
  · rw [hMA, hM a b ha hb, hA _ c (l _) hc, scVal_scEnc]

example : scMul wide (scAdd five wide) = scAdd (scMul wide five) (scMul wide wide) :=
  (C50_ring wide five wide rfl rfl rfl).2.2.2.2.1

/-- Zero and one are the neutral elements on reduced scalars. -/
theorem C50_neutral (a : Bytes) (ha : a.length = 32) (hr : leNat a < L) :
    scAdd a scZero = a ∧ scMul a scOne = a ∧ scZero ≠ scOne := by
  refine ⟨?_, ?_, by decide⟩
  · rw [scAdd_val a _ ha rfl, scZero_eq, scVal_scEnc, add_zero]
    exact scEnc_scVal ha hr
  · rw [scMul_val a _ ha rfl, scOne_eq, scVal_scEnc, mul_one]
    exact scEnc_scVal ha hr

example : scMul five scOne = five := (C50_neutral five rfl (by decide +kernel)).2.1

theorem scVal_ne_zero {a : Bytes} (h : ¬ L ∣ leNat a) : scVal a ≠ 0 := by
  unfold scVal
  rwa [Ne, ZMod.natCast_eq_zero_iff]

/-- `inv` gives the multiplicative inverse of everything that is not a multiple of the order. -/
theorem C50_inv (a : Bytes) (ha : a.length = 32) (h : ¬ L ∣ leNat a) : scMul (scInv a) a = scOne := by
  rw [scInv_val a ha, scMul_val _ _ (length_scEnc _) ha, scVal_scEnc, inv_mul_cancel₀ (scVal_ne_zero h), scOne_eq]
  rfl

example : ¬ L ∣ leNat wide ∧ ¬ L ∣ leNat five := by decide +kernel

/-- `inv` of a multiple of the order is zero; it does not fail. -/
theorem C50_inv_zero (a : Bytes) (ha : a.length = 32) (h : L ∣ leNat a) : scInv a = scZero := by
  have h0 : scVal a = 0 := by unfold scVal; rwa [ZMod.natCast_eq_zero_iff]
  rw [scInv_val a ha, h0, inv_zero, scZero_eq]

example : scInv (leBytes 32 (3 * L)) = scZero := C50_inv_zero _ (by decide +kernel) (by decide +kernel)

/-- Division undoes multiplication. -/
theorem C50_div (a b : Bytes) (ha : a.length = 32) (hb : b.length = 32) (hr : leNat a < L)
    (h : ¬ L ∣ leNat b) : scDiv (scMul a b) b = a ∧ scMul (scDiv a b) b = a := by
  have h0 := scVal_ne_zero h
  have hm : scMul a b = scEnc (scVal a * scVal b) := scMul_val a b ha hb
  constructor
  · rw [scDiv_val _ b (length_scMul a b) hb, hm, scVal_scEnc, mul_div_cancel_right₀ _ h0]
    exact scEnc_scVal ha hr
  · rw [scDiv_val a b ha hb, scMul_val _ b (length_scEnc _) hb, scVal_scEnc, div_mul_cancel₀ _ h0]
    exact scEnc_scVal ha hr

example : five.length = 32 ∧ leNat five < L := by decide +kernel

/-- There are no zero divisors. -/
theorem C50_no_zero_divisors (a b : Bytes) (ha : a.length = 32) (hb : b.length = 32)
    (h : scMul a b = scZero) : L ∣ leNat a ∨ L ∣ leNat b := by
  have h1 := (C49_mul a b ha hb).2
  rw [h, show leNat scZero = 0 by decide] at h1
  exact (prime_L.dvd_mul).1 (Nat.dvd_of_mod_eq_zero h1.symm)

example : L ∣ leNat (leBytes 32 (3 * L)) ∨ L ∣ leNat five :=
  C50_no_zero_divisors _ five (by decide +kernel) rfl (by decide +kernel)

/-- On reduced scalars equality of the byte strings is equality of the residues. -/
theorem C50_eq (a b : Bytes) (ha : a.length = 32) (hb : b.length = 32) (hra : leNat a < L) (hrb : leNat b < L) :
    a = b ↔ leNat a ≡ leNat b [MOD L] := by
  constructor
  · rintro rfl; rfl
  · intro h
    apply leNat_inj (ha.trans hb.symm)
    unfold Nat.ModEq at h
    rwa [Nat.mod_eq_of_lt hra, Nat.mod_eq_of_lt hrb] at h

example : scAdd five five = scMul five (leBytes 32 2) ↔ leNat (scAdd five five) ≡ leNat (scMul five (leBytes 32 2)) [MOD L] :=
  C50_eq _ _ rfl rfl (by decide +kernel) (by decide +kernel)

/-! ## C51: setters -/

/-- The result of `set_int64` does not depend on the receiver. -/
def C51_statement : Prop :=
  ∀ (r₁ r₂ : Bytes) (v : Int), r₁.length = 32 → r₂.length = 32 → -2 ^ 63 ≤ v → v < 2 ^ 63 →
    scSetInt64 r₁ v = scSetInt64 r₂ v

/-- The same for `set_bytes`. -/
def C51_bytes_statement : Prop :=
  ∀ r₁ r₂ b : Bytes, r₁.length = 32 → r₂.length = 32 → scSetBytes r₁ b = scSetBytes r₂ b

/-- Bytes of the old value above the new one survive. -/
theorem C51_violated_set_int64 : ¬ C51_statement := by
  intro h
  have := h scZero wide 5 rfl (by decide) (by norm_num) (by norm_num)
  revert this
  decide +kernel

theorem C51_violated_set_bytes : ¬ C51_bytes_statement := by
  intro h
  have := h scZero wide [5] rfl (by decide)
  revert this
  decide +kernel

theorem L_lt_full : L < fullOrder := by decide +kernel

/-- A small integer set on a zero receiver (the way all code of the library calls it) gives the
canonical encoding of its residue; negative integers included. -/
theorem C51_set_int64_partial (v : Int) (h1 : -2 ^ 63 ≤ v) (h2 : v < 2 ^ 63) :
    ∃ b, scSetInt64 scZero v = .ok b ∧ b.length = 32 ∧ (leNat b : Int) = v % L := by
  have hL : (L : Int) = 2 ^ 252 + 27742317777372353535851937790883648493 := by rw [L_eq]; rfl
  have hfull : (fullOrder : Int) = 8 * L := by unfold fullOrder; push_cast; ring
  obtain ⟨n, hn⟩ : ∃ n : Nat, (n : Int) = v % L := ⟨(v % L).toNat, Int.toNat_of_nonneg (Int.emod_nonneg _ (by rw [hL]; norm_num))⟩
  have hnL : n < L := by
    have := Int.emod_lt_of_pos v (b := (L : Int)) (by rw [hL]; norm_num)
    omega
  have hnf : n < fullOrder := lt_trans hnL L_lt_full
  have hi : newInt64 v L = .ok ⟨(n : Int), L, .bigEndian⟩ := by
    unfold newInt64
    split
    · rename_i hv
      rw [rem_eq (by rw [hL]; norm_num), Res.bind_ok]
      have e : v.tmod L = v := by
        obtain ⟨w, rfl⟩ : ∃ w, v = -w := ⟨-v, by ring⟩
        rw [Int.neg_tmod, Int.tmod_eq_of_lt (by omega) (by rw [hL]; norm_num at *; omega)]
      have e2 : v % (L : Int) = v + L := by
        rw [← Int.add_emod_right]
        exact Int.emod_eq_of_lt (by rw [hL]; norm_num at *; omega) (by omega)
      rw [e, hn, e2]
      rfl
    · rw [rem_eq (by rw [hL]; norm_num), Res.bind_ok, tmod_eq _ _ (by omega), hn]
  unfold scSetInt64
  rw [hi, Res.bind_ok, scSetInt_eq scZero rfl _ (marshalSize_L _ _) n rfl hnf]
  refine ⟨leBytes 32 n, ?_, by simp, ?_⟩
  · rw [setInt_clean hnf (show scZero.drop _ = _ from List.drop_replicate ..)]
  · have h3 := leNat_scEnc ((n : Nat) : Fl)
    unfold scEnc at h3
    rw [ZMod.val_natCast_of_lt hnL] at h3
    rw [h3, hn]

example : (-2 ^ 63 : Int) ≤ -7 ∧ (-7 : Int) < 2 ^ 63 := by decide

/-- Bytes of any length set on a zero receiver: the residue of the little-endian number. -/
theorem C51_set_bytes_partial (b : Bytes) :
    ∃ r, scSetBytes scZero b = .ok r ∧ r.length = 32 ∧ leNat r = leNat b % L := by
  have hnL := Nat.mod_lt (leNat b) (show 0 < L by decide)
  have hnf : leNat b % L < fullOrder := lt_trans hnL L_lt_full
  unfold scSetBytes
  rw [newIntBytes_L, Res.bind_ok, scSetInt_eq scZero rfl _ (marshalSize_L _ _) _ rfl hnf]
  refine ⟨leBytes 32 (leNat b % L), ?_, by simp, ?_⟩
  · rw [setInt_clean hnf (show scZero.drop _ = _ from List.drop_replicate ..)]
  · have h3 := leNat_scEnc ((leNat b % L : Nat) : Fl)
    unfold scEnc at h3
    rwa [ZMod.val_natCast_of_lt hnL] at h3

/-- A drawn number below the order is taken as it is. -/
theorem C51_pick_partial (n : Nat) (hn : n < L) :
    ∃ r, scPickFrom scZero n = .ok r ∧ r.length = 32 ∧ leNat r = n := by
  have hL : (L : Int) = 2 ^ 252 + 27742317777372353535851937790883648493 := by rw [L_eq]; rfl
  have hnf := lt_trans hn L_lt_full
  unfold scPickFrom newInt
  rw [rem_eq (by rw [hL]; norm_num), Res.bind_ok, Res.bind_ok, tmod_eq _ _ (by omega),
    Int.emod_eq_of_lt (by omega) (by exact_mod_cast hn),
    scSetInt_eq scZero rfl _ (marshalSize_L _ _) n rfl hnf]
  refine ⟨leBytes 32 n, ?_, by simp, ?_⟩
  · rw [setInt_clean hnf (show scZero.drop _ = _ from List.drop_replicate ..)]
  · have h3 := leNat_scEnc ((n : Nat) : Fl)
    unfold scEnc at h3
    rwa [ZMod.val_natCast_of_lt hn] at h3

example : ∃ r, scPickFrom scZero (L - 1) = .ok r ∧ r.length = 32 ∧ leNat r = L - 1 := C51_pick_partial (L - 1) (by decide)

/-- What a setter does to an arbitrary receiver: it replaces the low bytes, as many as the new value
needs, and keeps the others. -/
theorem C51_exact (self b : Bytes) (hs : self.length = 32) :
    scSetBytes self b = .ok (toBytesLE (leNat b % L) ++ self.drop (toBytesLE (leNat b % L)).length) := by
  have hnL := Nat.mod_lt (leNat b) (show 0 < L by decide)
  unfold scSetBytes
  rw [newIntBytes_L, Res.bind_ok, scSetInt_eq self hs _ (marshalSize_L _ _) _ rfl (lt_trans hnL L_lt_full)]
  have hl : (toBytesLE (leNat b % L)).length = byteLen (leNat b % L) := by
    have := length_toBytesBE (leNat b % L)
    rwa [toBytesBE, List.length_reverse] at this
  rw [hl]

example : scSetBytes wide [5] = .ok (5 :: List.replicate 31 0xff) := by decide +kernel

/-! ## C52: the canonicity test -/

/-- The test accepts exactly the 32-byte encodings of numbers below the order. -/
theorem C52_is_canonical (b : Bytes) : scIsCanonical b = true ↔ b.length = 32 ∧ leNat b < L :=
  scIsCanonical_iff b

example : scIsCanonical (leBytes 32 (L - 1)) = true ∧ scIsCanonical (leBytes 32 L) = false := by
  decide +kernel

/-- Everything the arithmetic and `marshal_binary` produce passes the test. -/
theorem C52_outputs_canonical (a b : Bytes) (ha : a.length = 32) (hb : b.length = 32) :
    scIsCanonical (scAdd a b) = true ∧ scIsCanonical (scMul a b) = true ∧ scIsCanonical (scSub a b) = true ∧
    ∃ m, scMarshal a = .ok m ∧ scIsCanonical m = true := by
  have h := C50_closed a b ha hb
  refine ⟨(scIsCanonical_iff _).2 (h _ (by simp)), (scIsCanonical_iff _).2 (h _ (by simp)),
    (scIsCanonical_iff _).2 (h _ (by simp)), _, scMarshal_eq a, (scIsCanonical_iff _).2 ⟨by simp, ?_⟩⟩
  have hl := Nat.mod_lt (leNat a) (show 0 < L by decide)
  have h3 := leNat_scEnc ((leNat a % L : Nat) : Fl)
  unfold scEnc at h3
  rw [ZMod.val_natCast_of_lt hl] at h3
  rwa [h3]

example := C52_outputs_canonical wide five rfl rfl

/-! ## C68: encoding of scalars -/

/-- `marshal_binary` never fails and encodes the residue. -/
theorem C68_marshal (v : Bytes) : ∃ m, scMarshal v = .ok m ∧ m.length = 32 ∧ leNat m = leNat v % L := by
  refine ⟨_, scMarshal_eq v, by simp, ?_⟩
  have hl := Nat.mod_lt (leNat v) (show 0 < L by decide)
  have h3 := leNat_scEnc ((leNat v % L : Nat) : Fl)
  unfold scEnc at h3
  rwa [ZMod.val_natCast_of_lt hl] at h3

/-- A reduced scalar survives encoding and decoding, whatever the receiver. -/
theorem C68_round_trip (v self : Bytes) (hv : v.length = 32) (hr : leNat v < L) :
    ∃ m, scMarshal v = .ok m ∧ scUnmarshal self m = (v, .ok ()) := by
  refine ⟨_, scMarshal_eq v, ?_⟩
  rw [Nat.mod_eq_of_lt hr, ← hv, leBytes_leNat]
  unfold scUnmarshal
  rw [if_neg (by simpa using hv)]

example : ∃ m, scMarshal five = .ok m ∧ scUnmarshal wide m = (five, .ok ()) :=
  C68_round_trip five wide rfl (by decide +kernel)

/-- Decoding fails exactly on a wrong length, and then leaves the receiver alone. -/
theorem C68_unmarshal (self data : Bytes) :
    (data.length = 32 → scUnmarshal self data = (data, .ok ())) ∧
    (data.length ≠ 32 → scUnmarshal self data = (self, .err .wrongSize)) := by
  unfold scUnmarshal
  constructor <;> intro h <;> simp [h]

/-- Scalars with the same encoding are equal. -/
def C68_statement : Prop :=
  ∀ a b : Bytes, a.length = 32 → b.length = 32 → scMarshal a = scMarshal b → a = b

/-- Decoding does not reduce, and `==` compares the stored bytes: the scalars decoded from the
encodings of zero and of the order differ although they encode equally. -/
theorem C68_violated : ¬ C68_statement := by
  intro h
  have := h scZero (leBytes 32 L) rfl (by simp) (by rw [scMarshal_eq, scMarshal_eq]; decide +kernel)
  revert this
  decide +kernel

/-- It holds for reduced scalars, in particular for all results of the arithmetic. -/
theorem C68_injective_partial (a b : Bytes) (ha : a.length = 32) (hb : b.length = 32) (hra : leNat a < L)
    (hrb : leNat b < L) (h : scMarshal a = scMarshal b) : a = b := by
  obtain ⟨m, h1, h2⟩ := C68_round_trip a scZero ha hra
  obtain ⟨m', h3, h4⟩ := C68_round_trip b scZero hb hrb
  rw [h1, h3] at h
  injection h with h
  subst h
  rw [h2] at h4
  exact (Prod.mk.inj h4).1

/-- Read the other way round: different reduced scalars have different encodings. -/
example : scMarshal five ≠ scMarshal scOne := fun h => absurd
  (C68_injective_partial five scOne rfl rfl (by decide +kernel) (by decide +kernel) h) (by decide +kernel)

/-- `new_scalar_int`, which makes the constants of the group, keeps numbers below eight times the
order unreduced. -/
theorem C68_constants (n : Nat) (hn : n < 8 * L) : newScalarInt n = .ok (leBytes 32 n) := by
  have hnf : n < fullOrder := by unfold fullOrder; omega
  have hfull : (0 : Int) < fullOrder := by exact_mod_cast (by omega : 0 < fullOrder)
  unfold newScalarInt newInt
  rw [rem_eq hfull, Res.bind_ok, Res.bind_ok, tmod_eq _ _ (by omega),
    Int.emod_eq_of_lt (by omega) (by exact_mod_cast hnf),
    scSetInt_eq scZero rfl _ (by
      show (bitLen (Int.natAbs (fullOrder : Int)) + 7) / 8 = 32
      decide +kernel) n rfl hnf]
  rw [setInt_clean hnf (show scZero.drop _ = _ from List.drop_replicate ..)]

example : L < 8 * L ∧ 8 < 8 * L := by decide

end Kyber.Ed
