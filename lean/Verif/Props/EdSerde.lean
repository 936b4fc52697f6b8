/-
C97: order, equality and hash of `Point`. C98: points read with serde.
-/
import Verif.Lemmas.Ed.Vartime
import Verif.Props.EdPoint

namespace Kyber.Ed

open Kyber Kyber.ModInt

/-! ## C97 -/

theorem cmpList_eq (a b : List Int) : cmpList a b = .eq ↔ a = b := by
  induction a generalizing b with
  | nil => cases b <;> simp [cmpList]
  | cons x a ih =>
    cases b with
    | nil => simp [cmpList]
    | cons y b =>
      rw [cmpList, Ordering.then_eq_eq, ih, compare_eq_iff_eq, List.cons.injEq]

theorem length_bytes {s : Ext} (h : s.Valid) : s.bytes.length = 32 := by
  rw [bytes_eq h.rep, length_ptEnc]

/-- The order calls two values equal exactly when all limbs and the flag agree. -/
theorem C97_cmp_exact (p q : Pt) : p.cmp q = .eq ↔ p = q := by
  unfold Pt.cmp
  rw [Ordering.then_eq_eq, Ordering.then_eq_eq, Ordering.then_eq_eq, Ordering.then_eq_eq, cmpList_eq, cmpList_eq,
    cmpList_eq, cmpList_eq, compare_eq_iff_eq]
  obtain ⟨⟨x, y, z, t⟩, v⟩ := p
  obtain ⟨⟨x', y', z', t'⟩, v'⟩ := q
  simp only [Pt.mk.injEq, Ext.mk.injEq]
  constructor
  · rintro ⟨h1, h2, h3, h4, h5⟩
    refine ⟨⟨h1, h2, h3, h4⟩, ?_⟩
    cases v <;> cases v' <;> simp_all
  · rintro ⟨⟨h1, h2, h3, h4⟩, h5⟩
    exact ⟨h1, h2, h3, h4, by rw [h5]⟩

/-- Equality of valid points is equality of the curve points, whatever the coordinates and flags. -/
theorem C97_eq_exact (p q : Pt) (hp : p.ge.Valid) (hq : q.ge.Valid) :
    p.eq q = true ↔ p.ge.ax = q.ge.ax ∧ p.ge.ay = q.ge.ay := by
  unfold Pt.eq
  rw [ptEq_iff hp.rep hq.rep]
  simp only [Ext.Valid.pt, EdPt.mk.injEq]


example := C97_eq_exact ⟨baseExt, true⟩ ⟨extZero, false⟩ base_valid null_valid

/-- Equal points are hashed alike, and points hashed alike are equal. -/
theorem C97_hash (p q : Pt) (hp : p.ge.Valid) (hq : q.ge.Valid) : p.eq q = true ↔ p.hashed = q.hashed := by
  unfold Pt.eq Pt.hashed
  rw [ptEq_iff hp.rep hq.rep, bytes_eq hp.rep, bytes_eq hq.rep]
  exact ⟨fun h => by rw [h], fun h => ptEnc_inj h⟩


example := C97_hash ⟨baseExt, true⟩ ⟨extZero, false⟩ base_valid null_valid

/-- The full property, what `Ord` asks of a type with `Eq`: the order calls exactly the equal values
equal. -/
def C97_statement : Prop :=
  ∀ p q : Pt, PtReach p.ge → PtReach q.ge → p.varTime = false → q.varTime = false →
    (p.cmp q = .eq ↔ p.eq q = true)

/-- One direction holds. -/
theorem C97_cmp_eq_partial (p q : Pt) (h : p.cmp q = .eq) : p.eq q = true := by
  rw [(C97_cmp_exact p q).1 h]
  unfold Pt.eq ptEq
  simp


example := C97_cmp_eq_partial ⟨baseExt, true⟩ ⟨baseExt, true⟩ (by decide +kernel)

/-- The neutral element, and the neutral element added to itself. -/
def null1 : Pt := ⟨extZero, false⟩
def null2 : Pt := Pt.new.add null1 null1

theorem null2_gt : null1.cmp null2 = .lt := by decide +kernel

/-- The neutral element is equal to its sum with itself and yet comes before it in the order: a set
that sorts by the order keeps both. -/
theorem C97_violated_null : null1.eq null2 = true ∧ null1.cmp null2 = .lt :=
  ⟨(ptEq_iff extZero_rep (ptAdd_rep extZero_rep extZero_rep)).2 (add_zero 0).symm, null2_gt⟩

theorem C97_violated : ¬ C97_statement := by
  intro h
  have := (h null1 null2 .null (.add _ _ .null .null) rfl rfl).2 C97_violated_null.1
  rw [C97_violated_null.2] at this
  cases this

/-! ## C98 -/

/-- Ten entries that fit `i32`. -/
def I32s (f : Fe) : Prop := f.length = 10 ∧ ∀ x ∈ f, -2 ^ 31 ≤ x ∧ x < 2 ^ 31

def Pt.I32s (p : Pt) : Prop := Ed.I32s p.ge.x ∧ Ed.I32s p.ge.y ∧ Ed.I32s p.ge.z ∧ Ed.I32s p.ge.t

theorem length_i32Bytes (x : Int) : (i32Bytes x).length = 4 := length_leBytes _ _

theorem length_feSer (f : Fe) : (feSer f).length = 4 * f.length := by
  unfold feSer
  induction f with
  | nil => rfl
  | cons x f ih => rw [List.flatMap_cons, List.length_append, length_i32Bytes, ih, List.length_cons]; ring

theorem i32_read {x : Int} (h1 : -2 ^ 31 ≤ x) (h2 : x < 2 ^ 31) : wrap 32 (leNat (i32Bytes x) : Int) = x := by
  unfold i32Bytes wrap
  rw [leNat_leBytes, Nat.mod_eq_of_lt (by omega)]
  have : ((x % 2 ^ 32).toNat : Int) = x % 2 ^ 32 := Int.toNat_of_nonneg (Int.emod_nonneg _ (by norm_num))
  rw [this]
  have e : Int.bmod (x % 2 ^ 32) (2 ^ 32) = Int.bmod x (2 ^ 32) := by
    have := Int.emod_bmod x (2 ^ 32)
    exact_mod_cast this
  rw [e]
  apply Int.bmod_eq_of_le <;> norm_num <;> omega

theorem feSer_entry (f : Fe) (i : Nat) (hi : i < f.length) (r : Bytes) :
    (((feSer f ++ r).drop (4 * i)).take 4) = i32Bytes (f.getD i 0) := by
  induction f generalizing i with
  | nil => simp at hi
  | cons x f ih =>
    have e : feSer (x :: f) ++ r = i32Bytes x ++ (feSer f ++ r) := by
      unfold feSer
      rw [List.flatMap_cons, List.append_assoc]
    rw [e]
    cases i with
    | zero =>
      rw [mul_zero, List.drop_zero, List.getD_cons_zero, List.take_append_of_le_length (by rw [length_i32Bytes]),
        List.take_of_length_le (by rw [length_i32Bytes])]
    | succ i =>
      rw [List.getD_cons_succ, ← ih i (by simpa using hi), show 4 * (i + 1) = 4 + 4 * i by ring, ← List.drop_drop,
        List.drop_left' (length_i32Bytes x)]

theorem feDe_ser (f : Fe) (h : I32s f) (r : Bytes) : feDe ((feSer f ++ r).take 40) = f := by
  have hl := h.1
  have h40 : (feSer f ++ r).take 40 = feSer f := by
    rw [List.take_append_of_le_length (by rw [length_feSer, hl]),
      List.take_of_length_le (by rw [length_feSer, hl])]
  rw [h40]
  unfold feDe
  apply List.ext_getElem
  · rw [List.length_map, List.length_range, hl]
  · intro i hi _
    rw [List.length_map, List.length_range] at hi
    rw [List.getElem_map, List.getElem_range]
    have := feSer_entry f i (by omega) []
    rw [List.append_nil] at this
    rw [this, List.getD_eq_getElem?_getD, List.getElem?_eq_getElem (by omega)]
    obtain ⟨b1, b2⟩ := h.2 _ (List.getElem_mem (by omega : i < f.length))
    exact i32_read b1 b2

theorem length_ser (p : Pt) (h : p.I32s) : p.ser.length = 161 := by
  unfold Pt.ser
  simp only [List.length_append, length_feSer, h.1.1, h.2.1.1, h.2.2.1.1, h.2.2.2.1, List.length_cons, List.length_nil]

/-- Reading what was written gives the same coordinates and the same flag, also when more bytes
follow. -/
theorem C98_roundtrip (p : Pt) (h : p.I32s) (r : Bytes) : Pt.de (p.ser ++ r) = some p := by
  have hl := length_ser p h
  obtain ⟨hx, hy, hz, ht⟩ := h
  obtain ⟨⟨x, y, z, t⟩, v⟩ := p
  simp only at hx hy hz ht
  unfold Pt.de
  rw [if_neg (by rw [List.length_append, hl]; omega)]
  unfold Pt.ser
  simp only [List.append_assoc]
  have lx : (feSer x).length = 40 := by rw [length_feSer, hx.1]
  have ly : (feSer y).length = 40 := by rw [length_feSer, hy.1]
  have lz : (feSer z).length = 40 := by rw [length_feSer, hz.1]
  have lt : (feSer t).length = 40 := by rw [length_feSer, ht.1]
  generalize hw : ([if v = true then (1 : UInt8) else 0] : Bytes) ++ r = w
  have d1 : (feSer x ++ (feSer y ++ (feSer z ++ (feSer t ++ w)))).drop 40 = feSer y ++ (feSer z ++ (feSer t ++ w)) :=
    List.drop_left' lx
  have d2 : (feSer x ++ (feSer y ++ (feSer z ++ (feSer t ++ w)))).drop 80 = feSer z ++ (feSer t ++ w) := by
    rw [show 80 = 40 + 40 from rfl, ← List.drop_drop, d1, List.drop_left' ly]
  have d3 : (feSer x ++ (feSer y ++ (feSer z ++ (feSer t ++ w)))).drop 120 = feSer t ++ w := by
    rw [show 120 = 80 + 40 from rfl, ← List.drop_drop, d2, List.drop_left' lz]
  have d4 : (feSer x ++ (feSer y ++ (feSer z ++ (feSer t ++ w)))).drop 160 = w := by
    rw [show 160 = 120 + 40 from rfl, ← List.drop_drop, d3, List.drop_left' lt]
  have fl : (feSer x ++ (feSer y ++ (feSer z ++ (feSer t ++ w)))).getD 160 0 = if v = true then 1 else 0 := by
    have := congrArg (fun l => List.getD l 0 0) d4
    simp only [List.getD_eq_getElem?_getD, List.getElem?_drop] at this ⊢
    rw [show 160 + 0 = 160 from rfl] at this
    rw [this, ← hw]
    rfl
  rw [d1, d2, d3, fl, feDe_ser x hx, feDe_ser y hy, feDe_ser z hz, feDe_ser t ht]
  cases v <;> simp


example := C98_roundtrip ⟨baseExt, true⟩ (by unfold Pt.I32s I32s; decide +kernel) [1, 2]

theorem feDe_i32s (b : Bytes) : I32s (feDe b) := by
  refine ⟨by simp [feDe], ?_⟩
  intro x hx
  unfold feDe at hx
  obtain ⟨i, _, rfl⟩ := List.mem_map.1 hx
  unfold wrap
  have h1 := @Int.le_bmod ((leNat ((b.drop (4 * i)).take 4) : Nat) : Int) (2 ^ 32) (by norm_num)
  have h2 := @Int.bmod_lt ((leNat ((b.drop (4 * i)).take 4) : Nat) : Int) (2 ^ 32) (by norm_num)
  norm_num at h1 h2 ⊢
  exact ⟨h1, h2⟩

/-- What can be read: every choice of forty `i32` values and a flag, and nothing else. -/
theorem C98_exact_partial (p : Pt) : (∃ b, Pt.de b = some p) ↔ p.I32s := by
  constructor
  · rintro ⟨b, h⟩
    unfold Pt.de at h
    split at h
    · cases h
    · simp only at h
      split at h
      · cases h
        exact ⟨feDe_i32s _, feDe_i32s _, feDe_i32s _, feDe_i32s _⟩
      · cases h
  · intro h
    exact ⟨p.ser, by simpa using C98_roundtrip p h []⟩

/-- The full property: a point that was read without error is a point of the curve, and a point equal
to another one can take its place in a sum. -/
def C98_statement : Prop :=
  (∀ b p, Pt.de b = some p → p.ge.Valid) ∧
    ∀ b b' p q r, Pt.de b = some p → Pt.de b' = some q → r.ge.Valid → p.eq q = true →
      (Pt.new.add p r).eq (Pt.new.add q r) = true

/-- Points that are on the curve can take each other's place. -/
theorem C98_congr_partial (p q r : Pt) (hp : p.ge.Valid) (hq : q.ge.Valid) (hr : r.ge.Valid) (h : p.eq q = true) :
    (Pt.new.add p r).eq (Pt.new.add q r) = true := by
  unfold Pt.eq Pt.add at *
  rw [ptEq_iff hp.rep hq.rep] at h
  rw [ptEq_iff (ptAdd_rep hp.rep hr.rep) (ptAdd_rep hq.rep hr.rep), h]


example := C98_congr_partial ⟨baseExt, true⟩ ⟨baseExt, false⟩ ⟨extZero, false⟩ base_valid base_valid null_valid
  ((C97_eq_exact _ _ base_valid base_valid).2 ⟨rfl, rfl⟩)

/-- The base point with the coordinate `T` overwritten by zero. -/
def badBase : Pt := ⟨{ baseExt with t := feZero }, false⟩

theorem badBase_i32s : badBase.I32s := by
  unfold Pt.I32s I32s
  decide +kernel

set_option maxRecDepth 100000 in
theorem badBase_sum : ptEq (ptAdd badBase.ge baseExt) (ptAdd baseExt baseExt) = false := by decide +kernel

/-- Forty limbs can be read that encode, compare and hash as the base point, and whose sum with the
base point is something else. -/
theorem C98_violated_sum : ∃ b, Pt.de b = some badBase ∧ ¬ badBase.ge.Valid ∧
    ptMarshal badBase.ge = ptMarshal baseExt ∧ badBase.eq ⟨baseExt, false⟩ = true ∧
    (Pt.new.add badBase ⟨baseExt, false⟩).eq (Pt.new.add ⟨baseExt, false⟩ ⟨baseExt, false⟩) = false := by
  have hb : badBase.ge.bytes = baseExt.bytes := rfl
  have he : ptEq badBase.ge baseExt = true := by
    unfold ptEq
    rw [hb]
    simp
  have hv : ¬ badBase.ge.Valid := by
    intro hv
    have h1 := C98_congr_partial badBase ⟨baseExt, false⟩ ⟨baseExt, false⟩ hv base_valid base_valid he
    unfold Pt.eq Pt.add at h1
    rw [badBase_sum] at h1
    cases h1
  exact ⟨badBase.ser, by simpa using C98_roundtrip badBase badBase_i32s [], hv, hb, he, badBase_sum⟩

theorem C98_violated : ¬ C98_statement := by
  rintro ⟨h, _⟩
  obtain ⟨b, h1, h2, _⟩ := C98_violated_sum
  exact h2 (h b badBase h1)

/-- Also the second half fails. -/
theorem C98_violated_congr : ¬ ∀ b b' p q r, Pt.de b = some p → Pt.de b' = some q → r.ge.Valid → p.eq q = true →
    (Pt.new.add p r).eq (Pt.new.add q r) = true := by
  intro h
  obtain ⟨b, h1, _, _, h4, h5⟩ := C98_violated_sum
  have hb : (⟨baseExt, false⟩ : Pt).I32s := by unfold Pt.I32s I32s; decide +kernel
  have h6 := h b _ badBase ⟨baseExt, false⟩ ⟨baseExt, false⟩ h1 (by simpa using C98_roundtrip _ hb []) base_valid h4
  rw [h5] at h6
  cases h6

/-- The flag for variable time can be read, too. -/
example : ∃ b, Pt.de b = some ⟨baseExt, true⟩ :=
  (C98_exact_partial _).2 (by unfold Pt.I32s I32s; decide +kernel)

end Kyber.Ed
