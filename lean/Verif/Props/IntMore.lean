/-
Property C115: Jacobi symbols, machine words and the order of modular integers (`integer.rs`).
-/
import Verif.Props.Int
import Verif.Model.Random
import Mathlib.Tactic.NormNum.Prime

namespace Kyber.Props

open Kyber Kyber.ModInt

/-! ## Jacobi symbols -/

/-- C115, the intended property of `jacobi` (its documentation): for every odd modulus the result
is a modular integer that tells zero, squares and non-squares apart, as a value and as an
encoding. -/
def C115_jacobi_statement : Prop :=
  ∀ (i a : MInt), Reduced a → a.m % 2 = 1 → ∃ c, i.jacobi a = .ok c ∧ Reduced c ∧
    (c.v = 0 ↔ a.v = 0) ∧
    (c.v = 1 ↔ a.v ≠ 0 ∧ ∃ x : Int, x * x ≡ a.v [ZMOD a.m])

/-- C115: what `jacobi` returns for an odd positive modulus. -/
theorem jacobi_eq (i a : MInt) (hm : 0 < a.m) (hodd : a.m % 2 = 1) :
    i.jacobi a = .ok ⟨jacobiSym a.v a.m.natAbs, a.m, i.bo⟩ := by
  unfold MInt.jacobi bigJacobi
  rw [if_neg (by omega), if_neg (by omega)]
  rfl

/-- C115 does not hold: the symbol of a non-square is stored as `-1`, outside the documented
range. -/
theorem C115_violated_range : ¬ C115_jacobi_statement := by
  intro h
  obtain ⟨c, hc, hr, -⟩ := h ⟨0, 7, .bigEndian⟩ ⟨3, 7, .bigEndian⟩ (by decide) (by decide)
  rw [jacobi_eq _ _ (by decide) (by decide)] at hc
  have : jacobiSym 3 7 = -1 := by norm_num
  obtain rfl := Res.ok.inj hc
  have h2 : (0 : Int) ≤ jacobiSym 3 7 := hr.2.1
  omega

/-- C115 does not hold for composite moduli: the symbol of `2` over `15` is one, although `2` is
not a square modulo `15`. -/
theorem C115_violated_composite : ¬ C115_jacobi_statement := by
  intro h
  obtain ⟨c, hc, -, -, h1⟩ := h ⟨0, 15, .bigEndian⟩ ⟨2, 15, .bigEndian⟩ (by decide) (by decide)
  rw [jacobi_eq _ _ (by decide) (by decide)] at hc
  have : jacobiSym 2 15 = 1 := by norm_num
  obtain rfl := Res.ok.inj hc
  obtain ⟨-, x, hx⟩ := h1.1 this
  have hx3 : x * x % 3 = 2 := by
    have : x * x % 15 = 2 := hx
    omega
  rcases (by omega : x % 3 = 0 ∨ x % 3 = 1 ∨ x % 3 = 2) with h | h | h <;>
    rw [Int.mul_emod, h] at hx3 <;> revert hx3 <;> decide

/-- C115: `jacobi` panics exactly for even moduli (zero among them). -/
theorem C115_jacobi_panics (i a : MInt) : i.jacobi a = .panic ↔ 2 ∣ a.m := by
  unfold MInt.jacobi bigJacobi
  split
  · simp only [Res.bind_panic, true_iff]; omega
  · simp only [Res.bind_ok, reduceCtorEq, false_iff]; omega

/-- C115, what holds: for an odd prime modulus the three values tell zero, squares and
non-squares apart, for every argument, also one out of range. -/
theorem C115_jacobi_prime_partial (i a : MInt) (p : Nat) (hp : p.Prime) (h2 : p ≠ 2) (hm : a.m = p) :
    ∃ c, i.jacobi a = .ok c ∧ c.m = a.m ∧ (c.v = 0 ∨ c.v = 1 ∨ c.v = -1) ∧
      (c.v = 0 ↔ (p : Int) ∣ a.v) ∧
      (c.v = 1 ↔ ¬ (p : Int) ∣ a.v ∧ ∃ x : Int, x * x ≡ a.v [ZMOD p]) ∧
      (c.v = -1 ↔ ∀ x : Int, ¬ x * x ≡ a.v [ZMOD p]) := by
  haveI : Fact p.Prime := ⟨hp⟩
  have hodd : a.m % 2 = 1 := by
    have := hp.eq_two_or_odd
    omega
  have hpos : 0 < a.m := by have := hp.pos; omega
  refine ⟨_, jacobi_eq i a hpos hodd, rfl, ?_⟩
  have hn : a.m.natAbs = p := by omega
  simp only [hn, ← jacobiSym.legendreSym.to_jacobiSym]
  have hdvd : ((a.v : ZMod p) = 0) ↔ (p : Int) ∣ a.v := ZMod.intCast_zmod_eq_zero_iff_dvd a.v p
  have hsq : IsSquare (a.v : ZMod p) ↔ ∃ x : Int, x * x ≡ a.v [ZMOD p] := by
    constructor
    · rintro ⟨y, hy⟩
      refine ⟨y.val, ?_⟩
      rw [← ZMod.intCast_eq_intCast_iff]
      push_cast
      rw [ZMod.natCast_zmod_val]
      exact hy.symm
    · rintro ⟨x, hx⟩
      rw [← ZMod.intCast_eq_intCast_iff] at hx
      exact ⟨x, by rw [← hx]; push_cast; rfl⟩
  have h0 := legendreSym.eq_zero_iff p a.v
  have h1 := legendreSym.eq_neg_one_iff p (a := a.v)
  have htri : legendreSym p a.v = 0 ∨ legendreSym p a.v = 1 ∨ legendreSym p a.v = -1 := by
    by_cases h : (a.v : ZMod p) = 0
    · exact .inl (h0.2 h)
    · exact .inr (legendreSym.eq_one_or_neg_one p h)
  refine ⟨htri, h0.trans hdvd, ?_, ?_⟩
  · constructor
    · intro h
      have hne : (a.v : ZMod p) ≠ 0 := by
        intro hz; rw [h0.2 hz] at h; omega
      exact ⟨fun hd => hne (hdvd.2 hd), hsq.1 ((legendreSym.eq_one_iff p hne).1 h)⟩
    · rintro ⟨hd, hx⟩
      exact (legendreSym.eq_one_iff p (fun hz => hd (hdvd.1 hz))).2 (hsq.2 hx)
  · rw [h1, hsq]
    push Not
    rfl

example (i : MInt) := C115_jacobi_prime_partial i ⟨5, 1009, .bigEndian⟩ 1009 (by norm_num) (by decide) rfl

/-- C115: for every odd modulus the value `-1` is a proof that the argument is not a square. -/
theorem C115_jacobi_nonsquare (i a c : MInt) (hm : 0 < a.m) (h : i.jacobi a = .ok c)
    (hc : c.v = -1) (x : Int) : ¬ x * x ≡ a.v [ZMOD a.m] := by
  intro hx
  have hodd : a.m % 2 = 1 := by
    by_contra ho
    rw [(C115_jacobi_panics i a).2 (by omega)] at h
    cases h
  rw [jacobi_eq i a hm hodd] at h
  obtain rfl := Res.ok.inj h
  have hc : jacobiSym a.v a.m.natAbs = -1 := hc
  have hn : ((a.m.natAbs : Nat) : Int) = a.m := by omega
  refine ZMod.nonsquare_of_jacobiSym_eq_neg_one hc ⟨(x : ZMod a.m.natAbs), ?_⟩
  rw [← hn, ← ZMod.intCast_eq_intCast_iff] at hx
  rw [← hx]
  push_cast
  rfl

/-- 2 is not a square modulo 15 (the symbol is 1), 7 is not either and its symbol says so. -/
example (x : Int) : ¬ x * x ≡ 7 [ZMOD 15] :=
  C115_jacobi_nonsquare ⟨0, 15, .bigEndian⟩ ⟨7, 15, .bigEndian⟩ ⟨-1, 15, .bigEndian⟩ (by decide) (by decide +kernel) rfl x

/-- C115: the symbols of products multiply, for one odd modulus. -/
theorem C115_jacobi_mul (i a b ab ja jb j : MInt) (ha : Reduced a) (hb : Reduced b) (hm : b.m = a.m)
    (hab : a.mul b = .ok ab) (h1 : i.jacobi a = .ok ja) (h2 : i.jacobi b = .ok jb)
    (h3 : i.jacobi ab = .ok j) : j.v = ja.v * jb.v := by
  have hodd : a.m % 2 = 1 := by
    by_contra ho
    rw [(C115_jacobi_panics i a).2 (by omega)] at h1
    cases h1
  obtain ⟨c, hc, hv, hcm, -⟩ := C41_mul a b ha hb
  rw [hab] at hc
  obtain rfl := Res.ok.inj hc
  have ha0 := ha.1
  rw [jacobi_eq _ _ (by omega) (by omega)] at h1 h2 h3
  obtain rfl := Res.ok.inj h1
  obtain rfl := Res.ok.inj h2
  obtain rfl := Res.ok.inj h3
  show jacobiSym ab.v ab.m.natAbs = jacobiSym a.v a.m.natAbs * jacobiSym b.v b.m.natAbs
  rw [hv, hcm, hm, ← jacobiSym.mul_left]
  have hn : ((a.m.natAbs : Nat) : Int) = a.m := by omega
  conv_lhs => rw [← hn]
  simp only [Int.natAbs_natCast]
  exact (jacobiSym.mod_left _ _).symm

example : (1 : Int) = -1 * -1 :=
  C115_jacobi_mul ⟨0, 23, .bigEndian⟩ ⟨5, 23, .bigEndian⟩ ⟨10, 23, .bigEndian⟩ ⟨4, 23, .bigEndian⟩ ⟨-1, 23, .bigEndian⟩
    ⟨-1, 23, .bigEndian⟩ ⟨1, 23, .bigEndian⟩ (by decide) (by decide) rfl (by decide +kernel) (by decide +kernel)
    (by decide +kernel) (by decide +kernel)

/-- C115: the sign is lost in the encoding. Whenever both are not zero, the symbols of a square and
of a non-square have the same bytes, in either byte order. -/
theorem C115_jacobi_encoding (i a b ja jb : MInt) (hm : b.m = a.m) (hpos : 0 < a.m)
    (h1 : i.jacobi a = .ok ja) (h2 : i.jacobi b = .ok jb) :
    (ja.v = 1 → jb.v = -1 → ja.marshal = jb.marshal) ∧
    (ja.v = 1 → jb.v = -1 → ja.equal jb = false) := by
  have hodd : a.m % 2 = 1 := by
    by_contra ho
    rw [(C115_jacobi_panics i a).2 (by omega)] at h1
    cases h1
  rw [jacobi_eq _ _ (by omega) (by omega)] at h1 h2
  obtain rfl := Res.ok.inj h1
  obtain rfl := Res.ok.inj h2
  refine ⟨fun e1 e2 => ?_, fun e1 e2 => ?_⟩
  · simp only at e1 e2
    rw [e1, e2, hm]
    rfl
  · simp only [MInt.equal] at e1 e2 ⊢
    rw [e1, e2]
    rfl

/-- A square, a non-square and zero modulo `23`; the encodings of the first two agree. -/
example : Nat.Prime 23 ∧
    (⟨0, 23, .bigEndian⟩ : MInt).jacobi ⟨2, 23, .bigEndian⟩ = .ok ⟨1, 23, .bigEndian⟩ ∧
    (⟨0, 23, .bigEndian⟩ : MInt).jacobi ⟨5, 23, .bigEndian⟩ = .ok ⟨-1, 23, .bigEndian⟩ ∧
    (⟨0, 23, .bigEndian⟩ : MInt).jacobi ⟨10, 23, .bigEndian⟩ = .ok ⟨-1, 23, .bigEndian⟩ ∧
    (⟨0, 23, .bigEndian⟩ : MInt).jacobi ⟨46, 23, .bigEndian⟩ = .ok ⟨0, 23, .bigEndian⟩ ∧
    (⟨1, 23, .bigEndian⟩ : MInt).marshal = .ok [1] ∧
    (⟨-1, 23, .bigEndian⟩ : MInt).marshal = .ok [1] := by
  have h2 : jacobiSym 2 23 = 1 := by norm_num
  have h5 : jacobiSym 5 23 = -1 := by norm_num
  have h10 : jacobiSym 10 23 = -1 := by norm_num
  have h46 : jacobiSym 46 23 = 0 := by norm_num
  refine ⟨by norm_num, ?_, ?_, ?_, ?_, by decide +kernel, by decide +kernel⟩ <;>
    rw [jacobi_eq _ _ (by decide) (by decide)] <;> simp [h2, h5, h10, h46]

/-! ## Machine words -/

theorem leNat_take (bs : Bytes) (k : Nat) : leNat (bs.take k) = leNat bs % 256 ^ k := by
  induction bs generalizing k with
  | nil => simp [leNat]
  | cons b bs ih =>
    cases k with
    | zero => simp [leNat, Nat.mod_one]
    | succ k =>
      have hb := b.toNat_lt
      rw [List.take_succ_cons, leNat, leNat, ih, pow_succ, mul_comm (256 ^ k) 256, Nat.mod_mul]
      have h1 : (b.toNat + 256 * leNat bs) % 256 = b.toNat := by omega
      have h2 : (b.toNat + 256 * leNat bs) / 256 = leNat bs := by omega
      rw [h1, h2]

/-- C115: `uint64` is the value modulo `2^64`, for every value, negative and large ones too. -/
theorem C115_uint64 (a : MInt) : (a.uint64 : Int) = a.v % 2 ^ 64 := by
  have key : leNat ((toBytesLE a.v.natAbs ++ List.replicate 8 0).take 8) = a.v.natAbs % 2 ^ 64 := by
    rw [leNat_take, leNat_append, leNat_replicate_zero, leNat_toBytesLE]
    norm_num
  unfold MInt.uint64
  simp only [key]
  split <;> omega

/-- C115: `int64` is exact for every value in the range of `i64`, and otherwise the value of that
range with the same residue modulo `2^64`. -/
theorem C115_int64 (a : MInt) :
    -2 ^ 63 ≤ a.int64 ∧ a.int64 < 2 ^ 63 ∧ a.int64 ≡ a.v [ZMOD 2 ^ 64] ∧
    (a.int64 = a.v ↔ -2 ^ 63 ≤ a.v ∧ a.v < 2 ^ 63) := by
  have h := C115_uint64 a
  unfold MInt.int64 Int.ModEq
  split <;> omega

/-- C115: reading back what `set_int64` stored. A negative number comes back as its residue. -/
theorem C115_int64_round_trip (i : MInt) (v : Int) (hm : i.m ≤ 2 ^ 63) (h1 : -i.m < v) (h2 : v < i.m) :
    ∃ c, i.setInt64 v = .ok c ∧ c.int64 = if v < 0 then v + i.m else v := by
  unfold MInt.setInt64
  have hm0 : 0 < i.m := by omega
  split
  · rename_i hv
    rw [rem_eq hm0, Res.bind_ok]
    refine ⟨_, rfl, ?_⟩
    have : v.tmod i.m = v := by
      have h := Int.tmod_eq_of_lt (a := -v) (b := i.m) (by omega) (by omega)
      rw [Int.neg_tmod] at h
      omega
    rw [((C115_int64 _).2.2.2).2] <;> simp only [this] <;> omega
  · rw [rem_eq hm0, Res.bind_ok]
    refine ⟨_, rfl, ?_⟩
    have : v.tmod i.m = v := Int.tmod_eq_of_lt (by omega) h2
    rw [((C115_int64 _).2.2.2).2] <;> simp only [this] <;> omega

example : (⟨-5, 7, .bigEndian⟩ : MInt).int64 = -5 ∧
    (⟨2 ^ 63, 2 ^ 65, .bigEndian⟩ : MInt).int64 = -2 ^ 63 ∧
    (⟨2 ^ 64 + 3, 2 ^ 65, .bigEndian⟩ : MInt).uint64 = 3 ∧
    (⟨0, 1000, .bigEndian⟩ : MInt).setInt64 (-1) = .ok ⟨999, 1000, .bigEndian⟩ := by decide +kernel

/-! ## Order -/

/-- C115: `cmp` is the order of the values: a total order that agrees with `==`. -/
theorem C115_order (a b c : MInt) :
    (a.cmpr b = .eq ↔ a.equal b = true) ∧ (a.cmpr b = .lt ↔ a.v < b.v) ∧
    b.cmpr a = (a.cmpr b).swap ∧
    (a.cmpr b ≠ .gt → b.cmpr c ≠ .gt → a.cmpr c ≠ .gt) := by
  unfold MInt.cmpr MInt.equal
  refine ⟨?_, ?_, ?_, ?_⟩
  · simp
  · exact compare_lt_iff_lt
  · exact (Std.OrientedOrd.eq_swap)
  · simp only [ne_eq, compare_gt_iff_gt, not_lt]
    omega

/-- C115: for values in range, of one modulus, `==` is equality of residue classes, and equal
values have equal encodings if the byte orders agree. -/
theorem C115_equal_residues (a b : MInt) (ha : Reduced a) (hb : Reduced b) (hm : b.m = a.m) :
    (a.equal b = true ↔ a.v ≡ b.v [ZMOD a.m]) ∧
    (a.equal b = true → a.bo = b.bo → a.marshal = b.marshal) := by
  obtain ⟨h1, h2, h3⟩ := ha
  obtain ⟨h4, h5, h6⟩ := hb
  unfold MInt.equal
  refine ⟨?_, ?_⟩
  · rw [beq_iff_eq, Int.ModEq, Int.emod_eq_of_lt h2 h3, Int.emod_eq_of_lt h5 (by omega)]
  · intro h hbo
    have : a = b := by
      cases a; cases b
      simp_all
    rw [this]

example := C115_equal_residues ⟨5, 1009, .bigEndian⟩ ⟨700, 1009, .bigEndian⟩ (by decide) (by decide) rfl

/-- C115: but the modulus does not count for `==` and `cmp`: every value has an equal that differs
in modulus and, for a large enough one, in its encoding. -/
theorem C115_equal_ignores_modulus (a : MInt) (m : Int) :
    a.equal { a with m := m } = true ∧ a.cmpr { a with m := m } = .eq := by
  simp [MInt.equal, MInt.cmpr]

example : (⟨5, 7, .bigEndian⟩ : MInt).equal ⟨5, 1000, .bigEndian⟩ = true ∧
    (⟨5, 7, .bigEndian⟩ : MInt).marshal = .ok [5] ∧
    (⟨5, 1000, .bigEndian⟩ : MInt).marshal = .ok [0, 5] ∧
    (⟨5, 7, .bigEndian⟩ : MInt).cmpr ⟨6, 7, .bigEndian⟩ = .lt := by decide +kernel

end Kyber.Props
