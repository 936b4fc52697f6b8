/-
Property C141: modular integers read with serde.
-/
import Verif.Model.IntSerde
import Verif.Lemmas.Bincode
import Verif.Props.Int

namespace Kyber.Props

open Kyber Kyber.Bin Kyber.ModInt

/-- A `BigInt` whose digits can be counted in a `usize`. -/
def Storable (z : Int) : Prop := (Nat.digits (2 ^ 32) z.natAbs).length < 2 ^ 64

theorem storable_of_lt {z : Int} (h : z.natAbs < 2 ^ 128) : Storable z := by
  unfold Storable
  have : (Nat.digits (2 ^ 32) z.natAbs).length ≤ 4 := by
    rw [Nat.digits_length_le_iff (by norm_num)]
    rw [← pow_mul]
    exact h
  omega

theorem reads_piso {α β : Type} {A : Bin α} {P : α → Prop} (hA : A.Reads P) {f : α → Option β} {g : β → α}
    (hfg : ∀ y, f (g y) = some y) : (A.piso f g).Reads (fun y => P (g y)) := by
  intro y r h
  simp only [Bin.piso]
  rw [hA _ r h, Option.bind_some, hfg]
  rfl

theorem reads_big : binBig.Reads Storable := by
  have h := reads_piso (exact_u8.reads.pair exact_u32.reads.vec)
    (f := fun x => ofSign x.1 (Nat.ofDigits (2 ^ 32) x.2))
    (g := fun z => (signByte z, Nat.digits (2 ^ 32) z.natAbs)) (by
      intro z
      simp only [Nat.ofDigits_digits, signByte, ofSign]
      rcases lt_trichotomy z 0 with h | h | h
      · simp only [h, if_true, Option.some.injEq]; omega
      · subst h; simp
      · simp only [not_lt.2 h.le, h.ne', if_false]
        rw [if_neg (by decide), if_neg (by decide), if_pos trivial, Option.some.injEq]
        omega)
  intro z r hz
  exact h z r ⟨trivial, hz, fun d hd => Nat.digits_lt_base (by norm_num) hd⟩

theorem reads_order : binOrder.Reads (fun _ => True) := by
  intro o r _
  refine reads_piso exact_u32.reads (by intro y; cases y <;> rfl) o r ?_
  cases o <;> norm_num

theorem reads_mint : binMInt.Reads (fun a => Storable a.v ∧ Storable a.m) := by
  intro a r h
  exact (reads_big.pair (reads_big.pair reads_order)).iso (f := fun x => (⟨x.1, x.2.1, x.2.2⟩ : MInt))
    (g := fun a => (a.v, a.m, a.bo)) (fun _ => rfl) a r ⟨h.1, h.2, trivial⟩

/-- C141: the intended statement. What can be read is an integer from `0` through `m-1`, as the
documentation of the field says. -/
def C141_statement : Prop := ∀ b a, binMInt.unmarshal b = some a → 0 ≤ a.v ∧ a.v < a.m

/-- C141: writing and reading give back the value, the modulus and the byte order, and further bytes do
not matter. -/
theorem C141_round_trip (a : MInt) (hv : Storable a.v) (hm : Storable a.m) (r : Bytes) :
    binMInt.unmarshal (binMInt.marshal a ++ r) = some a := by
  unfold Bin.unmarshal marshal
  rw [reads_mint a r ⟨hv, hm⟩]
  rfl

/-- Two integers with one form are the same. -/
theorem C141_inj (a c : MInt) (ha : Storable a.v ∧ Storable a.m) (hc : Storable c.v ∧ Storable c.m)
    (h : binMInt.marshal a = binMInt.marshal c) : a = c := by
  have h1 := reads_mint.unmarshal ha
  rw [h, reads_mint.unmarshal hc] at h1
  exact (Option.some.inj h1).symm

example : binMInt.unmarshal (binMInt.marshal ⟨-5, 2 ^ 40, .littleEndian⟩ ++ [7]) = some ⟨-5, 2 ^ 40, .littleEndian⟩ :=
  C141_round_trip _ (storable_of_lt (by norm_num)) (storable_of_lt (by norm_num)) _

theorem piso_de {α β : Type} (A : Bin α) (f : α → Option β) (g : β → α) (b : Bytes) (y : β) (r : Bytes) :
    (A.piso f g).de b = some (y, r) ↔ ∃ x, A.de b = some (x, r) ∧ f x = some y := by
  simp only [Bin.piso, Option.bind_eq_some_iff, Option.map_eq_some_iff, Prod.mk.injEq, Prod.exists]
  constructor
  · rintro ⟨x, r', h, y', h1, rfl, rfl⟩
    exact ⟨x, h, h1⟩
  · rintro ⟨x, h, h1⟩
    exact ⟨x, r, h, y, h1, rfl, rfl⟩

theorem pair_de {α β : Type} (A : Bin α) (B : Bin β) (b : Bytes) (x : α) (y : β) (r : Bytes) :
    (A.pair B).de b = some ((x, y), r) ↔ ∃ b', A.de b = some (x, b') ∧ B.de b' = some (y, r) := by
  simp only [Bin.pair, Option.bind_eq_bind, Option.bind_eq_some_iff, Option.some.injEq, Prod.mk.injEq, Prod.exists]
  constructor
  · rintro ⟨x', b', h, y', r', h1, ⟨rfl, rfl⟩, rfl⟩
    exact ⟨b', h, h1⟩
  · rintro ⟨b', h, h1⟩
    exact ⟨x, b', h, y, r, h1, ⟨rfl, rfl⟩, rfl⟩

theorem iso_de {α β : Type} (A : Bin α) (f : α → β) (g : β → α) (b : Bytes) (y : β) (r : Bytes) :
    (A.iso f g).de b = some (y, r) ↔ ∃ x, A.de b = some (x, r) ∧ f x = y := by
  simp only [Bin.iso, Option.map_eq_some_iff, Prod.mk.injEq, Prod.exists]
  constructor
  · rintro ⟨x, r', h, h1, rfl⟩
    exact ⟨x, h, h1⟩
  · rintro ⟨x, h, h1⟩
    exact ⟨x, r, h, h1, rfl⟩

/-- The bytes of a `BigInt` with a byte for the sign and digits, and the integer they stand for. -/
def BigForm (z : Int) (b : Bytes) : Prop :=
  ∃ (s : UInt8) (d : List Nat), b = s :: (leBytes 8 d.length ++ d.flatMap (leBytes 4)) ∧
    d.length < 2 ^ 64 ∧ (∀ x ∈ d, x < 2 ^ 32) ∧
    (s = 255 ∧ z = -(Nat.ofDigits (2 ^ 32) d : Nat) ∨ s = 0 ∧ z = 0 ∨ s = 1 ∧ z = (Nat.ofDigits (2 ^ 32) d : Nat))

theorem ofSign_iff (s : UInt8) (n : Nat) (z : Int) :
    ofSign s n = some z ↔ (s = 255 ∧ z = -(n : Int) ∨ s = 0 ∧ z = 0 ∨ s = 1 ∧ z = n) := by
  unfold ofSign
  by_cases h1 : s = 255
  · subst h1; simp [eq_comm]
  · by_cases h2 : s = 0
    · subst h2; simp [eq_comm]
    · by_cases h3 : s = 1
      · subst h3; simp [eq_comm]
      · simp [h1, h2, h3]

theorem big_de (b : Bytes) (z : Int) (r : Bytes) :
    binBig.de b = some (z, r) ↔ ∃ w, BigForm z w ∧ b = w ++ r := by
  have he := exact_u8.pair exact_u32.vec
  unfold binBig
  rw [piso_de]
  constructor
  · rintro ⟨⟨s, d⟩, h, h1⟩
    obtain ⟨⟨-, h2, h3⟩, h4⟩ := (he _ _ _).1 h
    exact ⟨_, ⟨s, d, rfl, h2, h3, (ofSign_iff _ _ _).1 h1⟩, h4⟩
  · rintro ⟨w, ⟨s, d, rfl, h2, h3, h4⟩, rfl⟩
    exact ⟨(s, d), (he _ _ _).2 ⟨⟨trivial, h2, h3⟩, rfl⟩, (ofSign_iff _ _ _).2 h4⟩

theorem order_de (b : Bytes) (o : ByteOrder) (r : Bytes) :
    binOrder.de b = some (o, r) ↔ b = leBytes 4 (if o = .littleEndian then 0 else 1) ++ r := by
  unfold binOrder
  rw [piso_de]
  constructor
  · rintro ⟨n, h, h1⟩
    obtain ⟨-, h4⟩ := (exact_u32 _ _ _).1 h
    rw [h4]
    split at h1
    · next h0 => subst h0; cases h1; rfl
    · split at h1
      · next h0 => subst h0; cases h1; rfl
      · exact absurd h1 (by simp)
  · intro h
    refine ⟨_, (exact_u32 _ _ _).2 ⟨?_, h⟩, ?_⟩
    · split <;> norm_num
    · cases o <;> rfl

/-- C141: which bytes are read as which integer. No condition relates value and modulus. -/
theorem C141_reads_iff (b : Bytes) (a : MInt) :
    binMInt.unmarshal b = some a ↔ ∃ w x r, BigForm a.v w ∧ BigForm a.m x ∧
      b = w ++ (x ++ (leBytes 4 (if a.bo = .littleEndian then 0 else 1) ++ r)) := by
  unfold Bin.unmarshal
  simp only [Option.map_eq_some_iff, Prod.exists]
  unfold binMInt
  constructor
  · rintro ⟨a', r, h, rfl⟩
    rw [iso_de] at h
    obtain ⟨⟨v, m, o⟩, h, rfl⟩ := h
    rw [pair_de] at h
    obtain ⟨b1, h1, h⟩ := h
    rw [pair_de] at h
    obtain ⟨b2, h2, h3⟩ := h
    obtain ⟨w, hw, rfl⟩ := (big_de _ _ _).1 h1
    obtain ⟨x, hx, rfl⟩ := (big_de _ _ _).1 h2
    exact ⟨w, x, r, hw, hx, by rw [(order_de _ _ _).1 h3]⟩
  · rintro ⟨w, x, r, hw, hx, rfl⟩
    refine ⟨a, r, ?_, rfl⟩
    rw [iso_de]
    refine ⟨(a.v, a.m, a.bo), ?_, rfl⟩
    rw [pair_de]
    refine ⟨_, (big_de _ _ _).2 ⟨w, hw, rfl⟩, ?_⟩
    rw [pair_de]
    exact ⟨_, (big_de _ _ _).2 ⟨x, hx, rfl⟩, (order_de _ _ _).2 rfl⟩

/-- Two digits, of which the upper is zero, and the sign of a negative number. -/
example : BigForm (-3) [255, 2, 0, 0, 0, 0, 0, 0, 0, 3, 0, 0, 0, 0, 0, 0, 0] :=
  ⟨255, [3, 0], by decide, by norm_num, by simp, Or.inl ⟨rfl, by simp [Nat.ofDigits_cons]⟩⟩

/-- C141 fails: reading checks neither the range of the value nor the modulus. -/
theorem C141_violated : ¬ C141_statement := by
  intro h
  have := h _ _ (reads_mint.unmarshal (a := ⟨9, 7, .bigEndian⟩)
    ⟨storable_of_lt (by norm_num), storable_of_lt (by norm_num)⟩)
  exact absurd this (by decide)

/-- C141, what holds: the range holds for what was written from a value in range. -/
theorem C141_range_partial (a c : MInt) (r : Bytes) (h : Reduced a) (hm : Storable a.m)
    (hr : binMInt.unmarshal (binMInt.marshal a ++ r) = some c) : Reduced c := by
  have hv : Storable a.v := by
    unfold Storable at hm ⊢
    have h1 := Nat.le_length_digits_le (2 ^ 32) a.v.natAbs a.m.natAbs (by have := h.2; omega)
    omega
  rw [C141_round_trip a hv hm] at hr
  rwa [← Option.some.inj hr]

example : Reduced ⟨3, 7, .bigEndian⟩ ∧ Storable 7 := ⟨by decide, storable_of_lt (by norm_num)⟩

/-- C141: bytes that are read as an integer whose modulus is zero. Every sum and product with it on the
left panics, and so does every difference. -/
theorem C141_zero_modulus (v : Int) (hv : Storable v) (o : ByteOrder) :
    ∃ b a, binMInt.unmarshal b = some a ∧ a.v = v ∧
      ∀ x i : MInt, a.add x = .panic ∧ a.mul x = .panic ∧ i.sub a x = .panic := by
  refine ⟨binMInt.marshal ⟨v, 0, o⟩, ⟨v, 0, o⟩,
    reads_mint.unmarshal ⟨hv, storable_of_lt (by norm_num)⟩, rfl, fun x i => ⟨rfl, rfl, rfl⟩⟩

example : Storable (-3) := storable_of_lt (by norm_num)

theorem tmod_nonneg_iff {a m : Int} : 0 ≤ a.tmod m ↔ 0 ≤ a ∨ m ∣ a := by
  constructor
  · intro h
    by_contra hc
    push Not at hc
    have h2 : a.tmod m ≤ 0 := by
      have := Int.neg_tmod (-a) m
      rw [neg_neg] at this
      rw [this]
      have := Int.tmod_nonneg m (a := -a) (by omega)
      omega
    exact hc.2 (Int.dvd_of_tmod_eq_zero (le_antisymm h2 h))
  · rintro (h | h)
    · exact Int.tmod_nonneg _ h
    · rw [Int.tmod_eq_zero_of_dvd h]

/-- C141: with a positive modulus a sum always exists, has the right residue, and lies in the range
exactly when the integers read add to something not negative or divisible by the modulus. -/
theorem C141_add (a b : MInt) (hm : 0 < a.m) :
    ∃ c, a.add b = .ok c ∧ c.m = a.m ∧ c.v ≡ a.v + b.v [ZMOD a.m] ∧
      ((0 ≤ c.v ∧ c.v < c.m) ↔ (0 ≤ a.v + b.v ∨ a.m ∣ a.v + b.v)) := by
  refine ⟨⟨(a.v + b.v).tmod a.m, a.m, a.bo⟩, ?_, rfl, tmod_modEq _ _, ?_⟩
  · unfold MInt.add; rw [rem_eq hm]; rfl
  · have := Int.tmod_lt_of_pos (a.v + b.v) hm
    rw [← tmod_nonneg_iff]
    simp only [this, and_true]

/-- A stored value out of range: the sum is out of range. -/
example := C141_add ⟨-9, 7, .bigEndian⟩ ⟨1, 7, .bigEndian⟩ (by decide)

/-- C141: the same for products. -/
theorem C141_mul (a b : MInt) (hm : 0 < a.m) :
    ∃ c, a.mul b = .ok c ∧ c.m = a.m ∧ c.v ≡ a.v * b.v [ZMOD a.m] ∧
      ((0 ≤ c.v ∧ c.v < c.m) ↔ (0 ≤ a.v * b.v ∨ a.m ∣ a.v * b.v)) := by
  refine ⟨⟨(a.v * b.v).tmod a.m, a.m, a.bo⟩, ?_, rfl, tmod_modEq _ _, ?_⟩
  · unfold MInt.mul; rw [rem_eq hm]; rfl
  · have := Int.tmod_lt_of_pos (a.v * b.v) hm
    rw [← tmod_nonneg_iff]
    simp only [this, and_true]

/-- A value read with serde stays out of range in a sum. -/
example : (⟨-9, 7, .bigEndian⟩ : MInt).add ⟨1, 7, .bigEndian⟩ = .ok ⟨-1, 7, .bigEndian⟩ := by decide

/-- C141: a value read with serde can make `marshal_binary` panic: for a big-endian integer it does so
exactly when the value needs more bytes than the modulus. -/
theorem C141_marshal_panics (a : MInt) (hb : a.bo = .bigEndian) :
    a.marshal = .panic ↔ 256 ^ a.marshalSize ≤ a.v.natAbs ∨ a.m = 0 := by
  unfold MInt.marshal
  simp only [hb, reduceCtorEq, if_false, length_toBytesBE]
  have hlt : a.marshalSize < byteLen a.v.natAbs ↔ (256 ^ a.marshalSize ≤ a.v.natAbs ∨ a.m = 0) := by
    constructor
    · intro h
      by_contra hc
      push Not at hc
      have hs : 1 ≤ a.marshalSize := by
        have hb : bitLen a.m.natAbs ≠ 0 := by
          unfold bitLen
          rw [if_neg (by omega)]
          omega
        unfold MInt.marshalSize
        omega
      unfold byteLen at h
      split at h
      · omega
      · next h0 =>
        have h1 := two_pow_bitLen_le _ h0
        have h2 := lt_of_le_of_lt h1 hc.1
        rw [show (256 : Nat) = 2 ^ 8 by norm_num, ← pow_mul] at h2
        have h3 := (Nat.pow_lt_pow_iff_right (a := 2) (by norm_num)).1 h2
        omega
    · rintro (h | h)
      · by_contra hc
        have h1 := lt_pow_byteLen a.v.natAbs
        have h2 : 256 ^ byteLen a.v.natAbs ≤ 256 ^ a.marshalSize := Nat.pow_le_pow_right (by norm_num) (by omega)
        omega
      · unfold MInt.marshalSize byteLen
        rw [h]
        simp only [Int.natAbs_zero, bitLen, if_true]
        split
        · norm_num
        · omega
  split
  · simp only [true_iff]; exact hlt.1 ‹_›
  · simp only [reduceCtorEq, false_iff]; exact fun h => ‹¬ _› (hlt.2 h)

/-- Bytes read with serde as such an integer. -/
example : ∃ b a, binMInt.unmarshal b = some a ∧ a.marshal = .panic :=
  ⟨_, _, reads_mint.unmarshal (a := ⟨300, 7, .bigEndian⟩)
    ⟨storable_of_lt (by norm_num), storable_of_lt (by norm_num)⟩,
    (C141_marshal_panics _ rfl).2 (Or.inl (by decide))⟩

end Kyber.Props
