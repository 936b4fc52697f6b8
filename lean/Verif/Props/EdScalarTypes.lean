/-
Properties C139 and C140: the two further scalar types that the crate exports.
-/
import Verif.Model.Ed.ScalarTypes
import Verif.Props.EdScalar

namespace Kyber.Ed

open Kyber Kyber.ModInt

private def wide : Bytes := List.replicate 32 0xff

private def five : Bytes := 5 :: List.replicate 31 0

theorem bind_of {x : Res IntError Bytes} {m : Bytes} (h : x = .ok m) (f : Bytes → Res IntError Bytes) :
    (x >>= f) = f m := by rw [h]; rfl

/-! ## C139: arithmetic -/

/-- C139: every exported type that implements the trait `Scalar` adds, multiplies and subtracts modulo the order,
whatever the values and the receiver. -/
def C139_statement : Prop :=
  ∀ (T : ScType) (self a b : Bytes), self.length = 32 → a.length = 32 → b.length = 32 →
    (∃ r, T.add a b = .ok r ∧ leNat r = (leNat a + leNat b) % L) ∧
    (∃ r, T.mul a b = .ok r ∧ leNat r = leNat a * leNat b % L) ∧
    (∃ r, T.sub self a b = .ok r ∧ (leNat r : Int) = ((leNat a : Int) - leNat b) % L)

theorem ONE_eq : ONE = .ok scOne := by decide +kernel

theorem MINUS_ONE_eq : ∃ m, MINUS_ONE = .ok m ∧ m.length = 32 ∧ leNat m = L - 1 :=
  ⟨leBytes 32 (L - 1), by decide +kernel, by simp, by decide +kernel⟩

/-- C139 for `Scalar`. -/
theorem C139_scalar (self a b : Bytes) (ha : a.length = 32) (hb : b.length = 32) :
    (∃ r, ScType.scalar.add a b = .ok r ∧ leNat r = (leNat a + leNat b) % L) ∧
    (∃ r, ScType.scalar.mul a b = .ok r ∧ leNat r = leNat a * leNat b % L) ∧
    (∃ r, ScType.scalar.sub self a b = .ok r ∧ (leNat r : Int) = ((leNat a : Int) - leNat b) % L) :=
  ⟨⟨_, rfl, (C49_add a b ha hb).2⟩, ⟨_, rfl, (C49_mul a b ha hb).2⟩, ⟨_, rfl, (C49_sub a b ha hb).2⟩⟩

/-- C139 for `SimpleCTScalar`: sums and products are exact, and byte for byte those of `Scalar`. -/
theorem C139_simple_partial (a b : Bytes) (ha : a.length = 32) (hb : b.length = 32) :
    ScType.simple.add a b = ScType.scalar.add a b ∧ ScType.simple.mul a b = ScType.scalar.mul a b ∧
    (∃ r, ScType.simple.add a b = .ok r ∧ leNat r = (leNat a + leNat b) % L) ∧
    (∃ r, ScType.simple.mul a b = .ok r ∧ leNat r = leNat a * leNat b % L) := by
  have e1 : ScType.simple.add a b = ScType.scalar.add a b := by
    refine (bind_of ONE_eq _).trans (congrArg Res.ok ?_)
    rw [scMulAdd_val a scOne b ha (by decide) hb, scAdd_val a b ha hb, scOne_eq, scVal_scEnc, mul_one]
  have e2 : ScType.simple.mul a b = ScType.scalar.mul a b := by
    refine congrArg Res.ok ?_
    unfold ZERO
    rw [scMulAdd_val a b scZero ha hb (by decide), scMul_val a b ha hb, scZero_eq, scVal_scEnc, add_zero]
  have h := C139_scalar scZero a b ha hb
  refine ⟨e1, e2, ?_, ?_⟩
  · rw [e1]; exact h.1
  · rw [e2]; exact h.2.1


example := C139_scalar scZero five wide rfl rfl

example : ScType.simple.add five wide = .ok (leBytes 32 ((5 + leNat wide) % L)) := by decide +kernel

/-- C139 for `SimpleCTScalar`: `sub(s1, s2)` returns `s2 - s1`. -/
theorem C139_simple_sub (self a b : Bytes) (ha : a.length = 32) (hb : b.length = 32) :
    ScType.simple.sub self a b = ScType.scalar.sub self b a ∧
    (∃ r, ScType.simple.sub self a b = .ok r ∧ (leNat r : Int) = ((leNat b : Int) - leNat a) % L) := by
  have e : ScType.simple.sub self a b = ScType.scalar.sub self b a := by
    obtain ⟨m, hm, hl, hv⟩ := MINUS_ONE_eq
    refine (bind_of hm _).trans (congrArg Res.ok ?_)
    rw [scMulAdd_val m a b hl ha hb, scSub_val b a hb ha]
    have : scVal m = -1 := by
      unfold scVal
      rw [hv, Nat.cast_sub (by decide +kernel), Nat.cast_one, ZMod.natCast_self, zero_sub]
    rw [this]
    congr 2
    ring
  refine ⟨e, ?_⟩
  rw [e]
  exact (C139_scalar self b a hb ha).2.2


example := C139_simple_sub scZero five wide rfl rfl

/-- C139: so the difference is the right one exactly when it is zero. -/
theorem C139_simple_sub_iff (self a b : Bytes) (ha : a.length = 32) (hb : b.length = 32) :
    ScType.simple.sub self a b = ScType.scalar.sub self a b ↔ leNat a % L = leNat b % L := by
  rw [(C139_simple_sub self a b ha hb).1]
  unfold ScType.sub
  simp only [Res.ok.injEq]
  rw [scSub_val b a hb ha, scSub_val a b ha hb]
  have hinj : ∀ x y : Fl, leBytes 32 x.val = leBytes 32 y.val ↔ x = y := by
    intro x y
    constructor
    · intro h
      have := congrArg scVal (show scEnc x = scEnc y from h)
      rwa [scVal_scEnc, scVal_scEnc] at this
    · rintro rfl; rfl
  rw [hinj]
  have h2 : (2 : Fl) ≠ 0 := by
    have : ((2 : Nat) : Fl) ≠ 0 := by
      rw [Ne, ZMod.natCast_eq_zero_iff]
      intro h
      have := Nat.le_of_dvd (by norm_num) h
      revert this
      decide
    exact_mod_cast this
  have hab : scVal a = scVal b ↔ leNat a % L = leNat b % L := by
    unfold scVal
    exact ZMod.natCast_eq_natCast_iff' _ _ _
  rw [← hab]
  constructor
  · intro h
    have : 2 * (scVal a - scVal b) = 0 := by linear_combination -h
    rcases mul_eq_zero.1 this with h | h
    · exact absurd h h2
    · exact sub_eq_zero.1 h
  · intro h
    rw [h]

example : ScType.simple.sub scZero five scOne = .ok (leBytes 32 (L - 4)) ∧
    ScType.scalar.sub scZero five scOne = .ok (leBytes 32 4) := by decide +kernel

/-- C139 for `FactoredScalar`: every sum and every product is zero, and a difference is the receiver. -/
theorem C139_factored (self a b : Bytes) :
    ScType.factored.add a b = .ok scZero ∧ ScType.factored.mul a b = .ok scZero ∧
    ScType.factored.sub self a b = .ok self := ⟨rfl, rfl, rfl⟩

/-- C139: when the results of `FactoredScalar` are right. -/
theorem C139_factored_iff (self a b : Bytes) (hs : self.length = 32) (ha : a.length = 32) (hb : b.length = 32) :
    (ScType.factored.add a b = ScType.scalar.add a b ↔ L ∣ leNat a + leNat b) ∧
    (ScType.factored.mul a b = ScType.scalar.mul a b ↔ L ∣ leNat a ∨ L ∣ leNat b) ∧
    (ScType.factored.sub self a b = ScType.scalar.sub self a b ↔
      (leNat self : Int) = ((leNat a : Int) - leNat b) % L) := by
  have hz : ∀ x : Bytes, x.length = 32 → (scZero = x ↔ leNat x = 0) := by
    intro x hx
    constructor
    · rintro rfl; decide
    · intro h
      have := leBytes_leNat x
      rw [h, hx] at this
      rw [← this]
      decide
  refine ⟨?_, ?_, ?_⟩
  · show (Res.ok scZero : Res IntError Bytes) = .ok (scAdd a b) ↔ _
    rw [Res.ok.injEq, hz _ rfl, (C49_add a b ha hb).2, Nat.dvd_iff_mod_eq_zero]
  · show (Res.ok scZero : Res IntError Bytes) = .ok (scMul a b) ↔ _
    rw [Res.ok.injEq, hz _ rfl, (C49_mul a b ha hb).2, ← Nat.dvd_iff_mod_eq_zero, prime_L.dvd_mul]
  · show (Res.ok self : Res IntError Bytes) = .ok (scSub a b) ↔ _
    rw [Res.ok.injEq, ← (C49_sub a b ha hb).2]
    constructor
    · rintro h; rw [h]
    · intro h
      have h : leNat self = leNat (scSub a b) := by exact_mod_cast h
      rw [← leBytes_leNat self, ← leBytes_leNat (scSub a b), h, hs]
      rfl


/-- The sum of 5 and L - 5 is the one that comes out right. -/
example : ScType.factored.add five (leBytes 32 (L - 5)) = ScType.scalar.add five (leBytes 32 (L - 5)) :=
  (C139_factored_iff scZero five (leBytes 32 (L - 5)) rfl rfl (by decide +kernel)).1.2 (by decide +kernel)

/-- The reduction that `FactoredScalar` computes in its local array, before forgetting it, does not overflow and keeps
the residue. -/
theorem fact_value {h : List Int} (hB : InB h scB) :
    runOps 64 factOps h = runOpsX factOps h ∧ InB (runOps 64 factOps h) scB3 ∧
    dot (scW Fl) (runOps 64 factOps h) = dot (scW Fl) h := by
  have hb : bndOps 64 factOps scB = some scB3 := by decide +kernel
  have hk : factOps.all (LOp.keepsMod L (scW Int)) = true := by decide +kernel
  obtain ⟨h1, h2⟩ := runOps_sound 64 (by norm_num) factOps h scB scB3 hB hb
  refine ⟨h1, h1 ▸ h2, runOps_value (scW Fl) 64 (by norm_num) factOps h scB scB3 hB hb ?_ ?_⟩
  · rw [hB.1]; rfl
  · intro o ho
    rw [scW_cast]
    exact LOp.keeps_of_mod (List.all_eq_true.1 hk o ho)

/-- C139: the limbs `FactoredScalar` computes and does not store stand for the right residue, and computing them never
overflows, so that also a build with overflow checks does not panic. -/
theorem C139_factored_limbs (self a b : Bytes) (ha : a.length = 32) (hb : b.length = 32) :
    dot (scW Fl) (scAddFact self a b).2 = ((leNat a + leNat b : Nat) : Fl) ∧
    dot (scW Fl) (scMulFact self a b).2 = ((leNat a * leNat b : Nat) : Fl) ∧
    dot (scW Fl) (scSubFact self a b).2 = (((leNat a : Int) - leNat b : Int) : Fl) ∧
    InB (scAddFact self a b).2 scB3 ∧ InB (scMulFact self a b).2 scB3 ∧ InB (scSubFact self a b).2 scB3 ∧
    (∀ k < 24, limb (scConv (scLimbs a) (scLimbs b) []) k =
      ((List.range (k + 1)).map (fun i => limb (scLimbs a) i * limb (scLimbs b) (k - i))).sum) ∧
    (scMulFact self a b).2 = runOpsX factOps (scConv (scLimbs a) (scLimbs b) []) ∧
    (scAddFact self a b).2 =
      runOpsX factOps ((List.range 24).map (fun k => limb (scLimbs b) k + limb (scLimbs a) k)) ∧
    (scSubFact self a b).2 = runOpsX factOps
      ((List.range 24).map (fun k => limb subConst k - limb (scLimbs b) k + limb (scLimbs a) k)) := by
  have hA := scLimbs_inA a ha
  have hC := scLimbs_inA b hb
  have hadd : ∀ k < 24, limb scA k + limb scA k ≤ (scB.getD k (0, 0)).2 ∧ (scB.getD k (0, 0)).1 ≤ 0 := by
    decide +kernel
  have hsub : ∀ k < 24, limb subConst k + limb scA k ≤ (scB.getD k (0, 0)).2 ∧
      (scB.getD k (0, 0)).1 ≤ limb subConst k - limb scA k := by
    decide +kernel
  have h1 := inB_of (fun k => limb (scLimbs b) k + limb (scLimbs a) k) (by
    intro k hk
    have h1 := hA k
    have h2 := hC k
    have h3 := hadd k hk
    constructor <;> linarith [h1.1, h1.2, h2.1, h2.2, h3.1, h3.2])
  have h3 := inB_of (fun k => limb subConst k - limb (scLimbs b) k + limb (scLimbs a) k) (by
    intro k hk
    have h1 := hA k
    have h2 := hC k
    have h3 := hsub k hk
    constructor <;> linarith [h1.1, h1.2, h2.1, h2.2, h3.1, h3.2])
  obtain ⟨e2, h2⟩ := scConv_eq hA hC InA_nil
  have ez : (fun k => limb ([] : List Int) k + ((List.range (k + 1)).map (fun i => limb (scLimbs a) i *
      limb (scLimbs b) (k - i))).sum) =
      (fun k => ((List.range (k + 1)).map (fun i => limb (scLimbs a) i * limb (scLimbs b) (k - i))).sum) := by
    funext k
    rw [show limb ([] : List Int) k = 0 by simp [limb], zero_add]
  rw [ez] at e2
  have ec : (List.range 24).map (fun k => limb subConst k) = subConst := rfl
  have v1 := fact_value h1.2
  have v2 := fact_value h2
  have v3 := fact_value h3.2
  unfold scAddFact scMulFact scSubFact
  simp only [h1.1, h3.1]
  refine ⟨?_, ?_, ?_, v1.2.1, v2.2.1, v3.2.1, ?_, v2.1, v1.1, v3.1⟩
  · rw [v1.2.2, dot_add, dot_limb _ (length_scLimbs a), dot_limb _ (length_scLimbs b), scLimbs_dot a ha,
      scLimbs_dot b hb, Nat.cast_add, add_comm]
    rfl
  · rw [v2.2.2, e2, scW_pow, conv_dot _ (length_scLimbs a) (length_scLimbs b), ← scW_pow, scLimbs_dot a ha,
      scLimbs_dot b hb, Nat.cast_mul]
    rfl
  · rw [v3.2.2, dot_add, dot_sub, dot_limb _ (length_scLimbs a), dot_limb _ (length_scLimbs b), scLimbs_dot a ha,
      scLimbs_dot b hb, ec, subConst_dot]
    push_cast
    unfold scVal
    ring
  · intro k hk
    rw [e2, limb_range24 _ _ hk]

example : (scMulFact scZero five wide).1 = scZero ∧
    dot (scW Int) (scMulFact scZero five wide).2 = ((5 * leNat wide % L : Nat) : Int) := by decide +kernel

/-- C139: storing the limbs would not be enough. Since the second loop of carries goes over the even limbs again, the
result need not be between zero and the order: for (3l - 1)(2l + 1) the limbs stand for -1. -/
theorem C139_factored_unreduced : ∃ a b : Bytes, a.length = 32 ∧ b.length = 32 ∧
    dot (scW Int) (scMulFact scZero a b).2 = -1 ∧ scBytes (scMulFact scZero a b).2 ≠ scMul a b :=
  ⟨leBytes 32 (3 * L - 1), leBytes 32 (2 * L + 1), by simp, by simp, by decide +kernel, by decide +kernel⟩

/-- The one test there is for the two types, scalar_test.rs:73-80: `2 * s == s + s`. Both types pass it for every
scalar, `FactoredScalar` with `0 == 0`. -/
theorem C139_test_passes (T : ScType) (s : Bytes) (hs : s.length = 32) :
    ∃ two, T.setInt64 scZero 2 = .ok two ∧ T.mul two s = T.add s s := by
  refine ⟨leBytes 32 2, by cases T <;> decide +kernel, ?_⟩
  have h2 : (leBytes 32 2).length = 32 := by simp
  have hv : scVal (leBytes 32 2) = 2 := by
    unfold scVal
    rw [show leNat (leBytes 32 2) = 2 by decide]
    norm_num
  have key : scMul (leBytes 32 2) s = scAdd s s := by
    rw [scMul_val _ s h2 hs, scAdd_val s s hs hs, hv]
    congr 2
    ring
  cases T with
  | scalar => exact congrArg Res.ok key
  | simple =>
    rw [(C139_simple_partial _ s h2 hs).2.1, (C139_simple_partial s s hs hs).1]
    exact congrArg Res.ok key
  | factored => rfl


example := C139_test_passes .factored wide rfl

/-- C139 is violated by `FactoredScalar`: 5 + 1 = 0. -/
theorem C139_violated_factored : ¬ ∀ (a b : Bytes), a.length = 32 → b.length = 32 →
    (∃ r, ScType.factored.add a b = .ok r ∧ leNat r = (leNat a + leNat b) % L) := by
  intro h
  obtain ⟨r, hr, hv⟩ := h five scOne (by decide) (by decide)
  rw [(C139_factored scZero five scOne).1] at hr
  cases hr
  revert hv
  decide +kernel

/-- C139 is violated by `SimpleCTScalar`: 5 - 1 = -4. -/
theorem C139_violated_simple : ¬ ∀ (self a b : Bytes), self.length = 32 → a.length = 32 → b.length = 32 →
    (∃ r, ScType.simple.sub self a b = .ok r ∧ (leNat r : Int) = ((leNat a : Int) - leNat b) % L) := by
  intro h
  obtain ⟨r, hr, hv⟩ := h scZero five scOne (by decide) (by decide) (by decide)
  obtain ⟨r', hr', hv'⟩ := (C139_simple_sub scZero five scOne (by decide) (by decide)).2
  rw [hr] at hr'
  cases hr'
  rw [hv] at hv'
  revert hv'
  decide +kernel

theorem C139_violated : ¬ C139_statement :=
  fun h => C139_violated_factored fun a b ha hb => (h .factored scZero a b (by decide) ha hb).1

/-- C139 for the operations in which the three types agree: they are exact for all of them, the setters on a zero
receiver. -/
theorem C139_rest (T : ScType) (self a b : Bytes) (ha : a.length = 32) (hb : b.length = 32) :
    (leNat (T.neg self a) : Int) = -(leNat a : Int) % L ∧
    (¬ L ∣ leNat a → leNat (T.inv self a) * leNat a % L = 1) ∧
    (¬ L ∣ leNat b → leNat (T.div self a b) * leNat b % L = leNat a % L) ∧
    (∀ data, ∃ r, T.setBytes scZero data = .ok r ∧ leNat r = leNat data % L) ∧
    (∀ n < L, ∃ r, T.pickFrom scZero n = .ok r ∧ leNat r = n) ∧
    (∀ v : Int, -2 ^ 63 ≤ v → v < 2 ^ 63 → ∃ r, T.setInt64 scZero v = .ok r ∧ (leNat r : Int) = v % L) := by
  have hn : T.neg self a = scNeg a := by cases T <;> rfl
  have hi : T.inv self a = scInv a := by cases T <;> rfl
  have hd : T.div self a b = scDiv a b := by cases T <;> rfl
  have hl := C50_closed a b ha hb
  refine ⟨?_, fun h => ?_, fun h => ?_, fun data => ?_, fun n h => ?_, fun v h1 h2 => ?_⟩
  · rw [hn, scNeg_val a ha, leNat_scEnc]
    unfold scVal
    rw [show -((leNat a : Nat) : Fl) = ((-(leNat a : Int) : Int) : Fl) by push_cast; rfl, ZMod.val_intCast]
  · rw [hi, ← (C49_mul (scInv a) a (hl _ (by simp)).1 ha).2, C50_inv a ha h]
    decide
  · have h0 := scVal_ne_zero h
    rw [hd, ← (C49_mul (scDiv a b) b (hl _ (by simp)).1 hb).2, scDiv_val a b ha hb,
      leNat_of_val (scMul_val _ b (length_scEnc _) hb), scVal_scEnc, div_mul_cancel₀ _ h0]
    unfold scVal
    rw [ZMod.val_natCast]
  · obtain ⟨r, h1, -, h2⟩ := C51_set_bytes_partial data
    exact ⟨r, by cases T <;> exact h1, h2⟩
  · obtain ⟨r, h1, -, h2⟩ := C51_pick_partial n h
    exact ⟨r, by cases T <;> exact h1, h2⟩
  · obtain ⟨r, h3, -, h4⟩ := C51_set_int64_partial v h1 h2
    exact ⟨r, by cases T <;> exact h3, h4⟩

example : wide.length = 32 ∧ five.length = 32 ∧ ¬ L ∣ leNat wide ∧ ¬ L ∣ leNat five := by decide +kernel

/-! ## C140: the binary form -/

/-- C140: for every exported scalar type the two ways of writing a value write the same bytes, and reading accepts
exactly 32 bytes. -/
def C140_statement : Prop :=
  ∀ (T : ScType) (v w self data : Bytes), v.length = 32 → self.length = 32 →
    (∃ m, T.marshal v = .ok m ∧ T.marshalTo v w = .ok (w ++ m)) ∧
    ((T.unmarshal self data).2 = true ↔ data.length = 32)

theorem marshalTo_eq (T : ScType) (v w : Bytes) : T.marshalTo v w = .ok (w ++ leBytes 32 (leNat v % L)) := by
  have h : (Obj.scalar v).marshal = .ok (leBytes 32 (leNat v % L)) := by
    show Res.mapErr (fun _ => MarshErr.invalid) (scMarshal v) = _
    rw [scMarshal_eq]
    rfl
  show ((Obj.scalar v).marshal >>= fun buf => Res.ok (w ++ buf)) = _
  rw [h]
  rfl

/-- C140 holds for `Scalar`. -/
theorem C140_scalar (v w self data : Bytes) :
    (∃ m, ScType.scalar.marshal v = .ok m ∧ ScType.scalar.marshalTo v w = .ok (w ++ m)) ∧
    ((ScType.scalar.unmarshal self data).2 = true ↔ data.length = 32) ∧
    (data.length = 32 → (ScType.scalar.unmarshal self data).1 = data) := by
  refine ⟨⟨_, scMarshal_eq v, marshalTo_eq _ v w⟩, ?_, ?_⟩
  · unfold ScType.unmarshal scUnmarshal
    by_cases h : data.length = 32
    · rw [if_neg (by omega)]; simp [h]
    · rw [if_pos h]
      simp only [h, iff_false]
      decide
  · intro h
    unfold ScType.unmarshal scUnmarshal
    rw [if_neg (by omega)]

/-- C140 for the two other types: `marshal_binary` writes the 32 bytes as they are, `marshal_to` writes the residue;
the two agree exactly for values below the order. Reading takes the first 32 bytes, whatever follows them. -/
theorem C140_others_partial (T : ScType) (hT : T ≠ .scalar) (v w self data : Bytes) (hv : v.length = 32) :
    T.marshal v = .ok v ∧ T.marshalTo v w = .ok (w ++ leBytes 32 (leNat v % L)) ∧
    (T.marshalTo v w = .ok (w ++ v) ↔ leNat v < L) ∧
    T.unmarshal self data = if 32 ≤ data.length then (data.take 32, true) else (self, false) := by
  have hm : T.marshal v = .ok v := by
    cases T with
    | scalar => exact absurd rfl hT
    | simple => rfl
    | factored => rfl
  refine ⟨hm, marshalTo_eq T v w, ?_, ?_⟩
  · rw [marshalTo_eq, Res.ok.injEq, List.append_cancel_left_eq]
    constructor
    · intro h
      have := congrArg leNat h
      rw [leNat_leBytes, Nat.mod_eq_of_lt] at this
      · rw [← this]
        exact Nat.mod_lt _ prime_L.pos
      · exact lt_trans (Nat.mod_lt _ prime_L.pos) (by decide)
    · intro h
      rw [Nat.mod_eq_of_lt h, ← hv, leBytes_leNat]
  · have : T.unmarshal self data = (match binScalar.unmarshal data with
        | some v => (v, true)
        | none => (self, false)) := by
      cases T with
      | scalar => exact absurd rfl hT
      | simple => rfl
      | factored => rfl
    rw [this]
    unfold binScalar Bin.unmarshal Bin.array
    by_cases h : data.length < 32
    · simp only [if_pos h, Option.map_none]
      rw [if_neg (by omega)]
    · simp only [if_neg h, Option.map_some]
      rw [if_pos (by omega)]


example := C140_others_partial .simple (by decide) wide [1] scZero (five ++ [7]) rfl

/-- C140: what `marshal_binary` writes is read back as the same value, by all three types below the order, and by the
two others always. -/
theorem C140_round_trip (T : ScType) (v self : Bytes) (hv : v.length = 32) (h : T ≠ .scalar ∨ leNat v < L) :
    ∃ m, T.marshal v = .ok m ∧ T.unmarshal self m = (v, true) := by
  by_cases hT : T = .scalar
  · subst hT
    have hr : leNat v < L := by simpa using h
    have hm := scMarshal_eq v
    rw [Nat.mod_eq_of_lt hr, ← hv, leBytes_leNat] at hm
    refine ⟨v, hm, ?_⟩
    have h1 := C140_scalar v [] self v
    exact Prod.ext (h1.2.2 hv) (h1.2.1.2 hv)
  · obtain ⟨h1, -, -, h2⟩ := C140_others_partial T hT v [] self v hv
    refine ⟨v, h1, ?_⟩
    rw [h2, if_pos (by omega), List.take_of_length_le (by omega)]

example : ScType.simple.marshal wide = .ok wide ∧ ScType.scalar.marshal wide ≠ .ok wide ∧
    ScType.factored.unmarshal scZero (five ++ [7]) = (five, true) ∧
    ScType.scalar.unmarshal scZero (five ++ [7]) = (scZero, false) := by decide +kernel

/-- C140 is violated: a value not below the order is written in two ways. -/
theorem C140_violated_write : ¬ C140_statement := by
  intro h
  obtain ⟨⟨m, h1, h2⟩, -⟩ := h .simple wide [] scZero [] (by decide) (by decide)
  obtain ⟨e1, -, e2, -⟩ := C140_others_partial .simple (by decide) wide [] scZero [] (by decide)
  rw [e1] at h1
  cases h1
  have := e2.1 h2
  revert this
  decide +kernel

/-- C140 is violated: 33 bytes are read as a scalar. -/
theorem C140_violated_read : ¬ C140_statement := by
  intro h
  have := (h .factored five [] scZero (five ++ [7]) (by decide) (by decide)).2.1 (by decide +kernel)
  revert this
  decide

end Kyber.Ed
