/-
C107: values written to a stream can be read back. C108: reading from an XOF.
-/
import Verif.Model.Ed.Marshal
import Verif.Props.EdPoint
import Verif.Props.EdScalar
import Verif.Props.Int

namespace Kyber.Ed

open Kyber Kyber.ModInt

/-! ## C107 -/

/-- The values are the same for the user: equal points, equal scalars, equal integers. -/
def Obj.Same : Obj → Obj → Prop
  | .point p, .point q => ptEq p q = true
  | .scalar s, .scalar t => s = t
  | .int a, .int b => a.v = b.v ∧ a.m = b.m
  | _, _ => False

/-- `recv` is of the type of the value to be read; for integers, with its modulus and byte order. -/
def Obj.Receives : Obj → Obj → Prop
  | .point _, .point _ => True
  | .scalar _, .scalar _ => True
  | .int a, .int b => a.m = b.m ∧ a.bo = b.bo
  | _, _ => False

/-- Points of the curve, reduced scalars and integers. -/
def Obj.Good : Obj → Prop
  | .point p => p.Valid
  | .scalar s => s.length = 32 ∧ leNat s < L
  | .int a => Props.Reduced a

/-- Writing one value after the other. -/
def writeAll : List Obj → Bytes → Res MarshErr Bytes
  | [], w => .ok w
  | o :: os, w => do
    let w ← o.marshalTo w
    writeAll os w

/-- Reading into one receiver after the other, from a slice, until one fails. -/
def readAll : List Obj → Bytes → List Obj × Bytes × Res MarshErr Unit
  | [], r => ([], r, .ok ())
  | o :: os, r =>
    match o.unmarshalFrom sliceReader r with
    | (o', r', .ok ()) => let x := readAll os r'; (o' :: x.1, x.2)
    | (o', r', e) => (o' :: os, r', e)

/-- C107: whatever values are written to a stream, in any order, they can be read back in this order, and
what follows is left in the stream. -/
def C107_statement : Prop :=
  ∀ (objs recv : List Obj), List.Forall₂ Obj.Receives recv objs → (∀ o ∈ objs, o.Good) → ∀ rest,
    ∃ b, writeAll objs [] = .ok b ∧ ∃ out, readAll recv (b ++ rest) = (out, rest, .ok ()) ∧
      List.Forall₂ Obj.Same out objs

/-- Integers that are not little endian, or are but need no padding. -/
def Obj.Plain : Obj → Prop
  | .int a => a.bo = .bigEndian ∨ byteLen a.v.natAbs = a.marshalSize
  | _ => True

theorem obj_round_trip {o recv : Obj} (hr : recv.Receives o) (hg : o.Good) (hp : o.Plain) :
    ∃ b out, o.marshal = .ok b ∧ b.length = recv.size ∧ recv.unmarshal b = (out, .ok ()) ∧ out.Same o := by
  cases o with
  | point p =>
    cases recv with
    | point q =>
      obtain ⟨u, h1, -, -, -, h2⟩ := C57_round_trip p hg q
      refine ⟨ptMarshal p, .point u, rfl, (C57_marshal p hg).1, ?_, h2⟩
      unfold Obj.unmarshal
      simp only [h1]
      rfl
    | scalar _ => exact hr.elim
    | int _ => exact hr.elim
  | scalar s =>
    cases recv with
    | scalar t =>
      obtain ⟨m, h1, h2⟩ := C68_round_trip s t hg.1 hg.2
      obtain ⟨m', h3, h4, -⟩ := C68_marshal s
      rw [h1] at h3
      cases h3
      refine ⟨m, .scalar s, ?_, h4, ?_, rfl⟩
      · simp only [Obj.marshal, h1]; rfl
      · unfold Obj.unmarshal
        simp only [h2]
        rfl
    | point _ => exact hr.elim
    | int _ => exact hr.elim
  | int a =>
    cases recv with
    | int i =>
      obtain ⟨b, h1, h2, h3⟩ := Props.C43_round_trip_partial a i hg hr.1 hr.2 hp
      refine ⟨b, .int { i with v := a.v }, ?_, ?_, ?_, rfl, hr.1⟩
      · simp only [Obj.marshal, h1]; rfl
      · show b.length = i.marshalSize
        rw [h2]
        unfold MInt.marshalSize
        rw [hr.1]
      · unfold Obj.unmarshal
        simp only [h3]
        rfl
    | point _ => exact hr.elim
    | scalar _ => exact hr.elim

theorem unmarshalFrom_slice (o : Obj) (b rest : Bytes) (h : b.length = o.size) :
    o.unmarshalFrom sliceReader (b ++ rest) = ((o.unmarshal b).1, rest, (o.unmarshal b).2) := by
  unfold Obj.unmarshalFrom sliceReader
  simp only
  rw [if_neg (by rw [List.length_append]; omega), ← h, List.drop_left, List.take_left]

theorem round_trip_all {objs recv : List Obj} (hr : List.Forall₂ Obj.Receives recv objs)
    (hg : ∀ o ∈ objs, o.Good) (hp : ∀ o ∈ objs, o.Plain) :
    ∃ b, (∀ w, writeAll objs w = .ok (w ++ b)) ∧ b.length = (recv.map Obj.size).sum ∧
      ∃ out, (∀ rest, readAll recv (b ++ rest) = (out, rest, .ok ())) ∧ List.Forall₂ Obj.Same out objs := by
  induction hr with
  | nil => exact ⟨[], fun w => by rw [List.append_nil]; rfl, rfl, [], fun rest => rfl, .nil⟩
  | cons h1 _ ih =>
    rename_i r o rs os _
    obtain ⟨b, h2, hl, out, h3, h4⟩ := ih (fun x hx => hg x (List.mem_cons_of_mem _ hx))
      (fun x hx => hp x (List.mem_cons_of_mem _ hx))
    obtain ⟨m, u, g1, g2, g3, g4⟩ := obj_round_trip h1 (hg o List.mem_cons_self) (hp o List.mem_cons_self)
    refine ⟨m ++ b, fun w => ?_, ?_, u :: out, fun rest => ?_, .cons g4 h4⟩
    · simp only [writeAll, Obj.marshalTo, g1, Res.bind_ok, h2, List.append_assoc]
    · rw [List.length_append, List.map_cons, List.sum_cons, g2, hl]
    · rw [List.append_assoc, readAll, unmarshalFrom_slice _ _ _ g2, g3]
      simp only [h3]

/-- C107, what holds: integers must not be little endian with leading zeros. -/
theorem C107_round_trip_partial (objs recv : List Obj) (hr : List.Forall₂ Obj.Receives recv objs)
    (hg : ∀ o ∈ objs, o.Good) (hp : ∀ o ∈ objs, o.Plain) (rest : Bytes) :
    ∃ b, writeAll objs [] = .ok b ∧ ∃ out, readAll recv (b ++ rest) = (out, rest, .ok ()) ∧
      List.Forall₂ Obj.Same out objs := by
  obtain ⟨b, h1, -, out, h2, h3⟩ := round_trip_all hr hg hp
  exact ⟨b, h1 [], out, h2 rest, h3⟩

/-- In particular points and scalars of the curve, in any order; each takes 32 bytes. -/
theorem C107_edwards25519 (objs recv : List Obj) (hr : List.Forall₂ Obj.Receives recv objs)
    (hg : ∀ o ∈ objs, o.Good) (hp : ∀ o ∈ objs, ∀ a, o ≠ .int a) (rest : Bytes) :
    ∃ b, writeAll objs [] = .ok b ∧ b.length = 32 * objs.length ∧
      ∃ out, readAll recv (b ++ rest) = (out, rest, .ok ()) ∧ List.Forall₂ Obj.Same out objs := by
  have hp' : ∀ o ∈ objs, o.Plain := by
    intro o ho
    cases o with
    | int a => exact absurd rfl (hp _ ho a)
    | point _ => trivial
    | scalar _ => trivial
  obtain ⟨b, h1, hl, out, h2, h3⟩ := round_trip_all hr hg hp'
  refine ⟨b, h1 [], ?_, out, h2 rest, h3⟩
  rw [hl]
  clear h1 hl h2 h3 hp' hg
  induction hr with
  | nil => rfl
  | cons h _ ih =>
    rename_i r o rs os _
    rw [List.map_cons, List.sum_cons, List.length_cons, ih fun x hx => hp x (List.mem_cons_of_mem _ hx)]
    have hs : r.size = 32 := by
      have h0 := hp o List.mem_cons_self
      cases o <;> cases r <;> first | rfl | exact h.elim | exact absurd rfl (h0 _)
    rw [hs]
    ring

/-- One read: with enough bytes exactly `marshal_size` of them are taken, also when they are refused, and
the outcome is that of `unmarshal_binary`; with too few the receiver is left alone. -/
theorem C107_read (o : Obj) (r : Bytes) :
    (o.size ≤ r.length → o.unmarshalFrom sliceReader r =
      ((o.unmarshal (r.take o.size)).1, r.drop o.size, (o.unmarshal (r.take o.size)).2)) ∧
    (r.length < o.size → (o.unmarshalFrom sliceReader r).1 = o ∧
      (o.unmarshalFrom sliceReader r).2.2 = .err .io) := by
  constructor
  · intro h
    have := unmarshalFrom_slice o (r.take o.size) (r.drop o.size) (by rw [List.length_take]; omega)
    rwa [List.take_append_drop] at this
  · intro h
    unfold Obj.unmarshalFrom sliceReader
    simp only
    rw [if_pos h]
    exact ⟨rfl, rfl⟩

/-- C107 does not hold for little endian integers: `marshal_binary` leaves out the padding. Two numbers
modulo 1000 written one after the other are read as one, without an error. -/
theorem C107_violated_silent :
    writeAll [.int ⟨5, 1000, .littleEndian⟩, .int ⟨1, 1000, .littleEndian⟩] [] = .ok [5, 1] ∧
    (Obj.int ⟨0, 1000, .littleEndian⟩).unmarshalFrom sliceReader [5, 1] =
      (.int ⟨261, 1000, .littleEndian⟩, [], .ok ()) := by
  have h : (⟨0, 1000, .littleEndian⟩ : MInt).marshalSize = 2 := by decide +kernel
  have h1 : (⟨5, 1000, .littleEndian⟩ : MInt).marshal = .ok [5] := by decide +kernel
  have h2 : (⟨1, 1000, .littleEndian⟩ : MInt).marshal = .ok [1] := by decide +kernel
  have h3 : (⟨0, 1000, .littleEndian⟩ : MInt).unmarshal [5, 1] = (⟨261, 1000, .littleEndian⟩, .ok ()) := by
    decide +kernel
  constructor
  · simp only [writeAll, Obj.marshalTo, Obj.marshal, h1, h2]
    rfl
  · have := unmarshalFrom_slice (.int ⟨0, 1000, .littleEndian⟩) [5, 1] [] h.symm
    simp only [Obj.unmarshal, h3] at this
    exact this

theorem C107_violated : ¬ C107_statement := by
  intro h
  obtain ⟨b, h1, out, h2, h3⟩ := h [.int ⟨5, 1000, .littleEndian⟩, .int ⟨1, 1000, .littleEndian⟩]
    [.int ⟨0, 1000, .littleEndian⟩, .int ⟨0, 1000, .littleEndian⟩]
    (.cons ⟨rfl, rfl⟩ (.cons ⟨rfl, rfl⟩ .nil)) (by
      intro o ho
      rcases List.mem_cons.1 ho with rfl | ho
      · show (2 : Int) ≤ 1000 ∧ (0 : Int) ≤ 5 ∧ (5 : Int) < 1000
        decide
      · rw [List.mem_singleton.1 ho]
        show (2 : Int) ≤ 1000 ∧ (0 : Int) ≤ 1 ∧ (1 : Int) < 1000
        decide) []
  rw [C107_violated_silent.1] at h1
  cases h1
  rw [List.append_nil, readAll, C107_violated_silent.2] at h2
  simp only [Prod.mk.injEq] at h2
  obtain ⟨rfl, -⟩ := h2
  cases h3 with
  | cons g _ => exact absurd g.1 (by decide)

/-- A point, a scalar and an integer. -/
example : ∃ b, writeAll [.point baseExt, .scalar scOne, .int ⟨5, 1000, .bigEndian⟩] [] = .ok b ∧
    ∃ out, readAll [.point extZero, .scalar scZero, .int ⟨0, 1000, .bigEndian⟩] (b ++ [1, 2, 3]) = (out, [1, 2, 3], .ok ()) ∧
      List.Forall₂ Obj.Same out [.point baseExt, .scalar scOne, .int ⟨5, 1000, .bigEndian⟩] :=
  C107_round_trip_partial [.point baseExt, .scalar scOne, .int ⟨5, 1000, .bigEndian⟩]
    [.point extZero, .scalar scZero, .int ⟨0, 1000, .bigEndian⟩]
    (.cons trivial (.cons trivial (.cons ⟨rfl, rfl⟩ .nil))) (by
    intro o ho
    rcases List.mem_cons.1 ho with rfl | ho
    · exact base_valid
    · rcases List.mem_cons.1 ho with rfl | ho
      · exact ⟨by decide, by decide +kernel⟩
      · rw [List.mem_singleton.1 ho]
        show (2 : Int) ≤ 1000 ∧ (0 : Int) ≤ 5 ∧ (5 : Int) < 1000
        decide) (by
    intro o ho
    rcases List.mem_cons.1 ho with rfl | ho
    · trivial
    · rcases List.mem_cons.1 ho with rfl | ho
      · trivial
      · rw [List.mem_singleton.1 ho]
        exact .inl rfl) _

/-! ## C108 -/

/-- C108, as `Marshaling::unmarshal_from` documents: given an XOF, it picks a valid value, trying again if
necessary. A valid point is one of the curve, a valid scalar is reduced. -/
def C108_statement : Prop :=
  ∀ (H : Rand.XofFn) (x : Rand.Xof) (o : Obj), (∀ a, o ≠ .int a) →
    (o.unmarshalFrom (xofReader H) x).2.2 = .ok () ∧ (o.unmarshalFrom (xofReader H) x).1.Good

/-- What it does: the next 32 bytes are handed to `unmarshal_binary`, once. -/
theorem C108_exact_partial (H : Rand.XofFn) (input : Bytes) (pos : Nat) (o : Obj) (ho : ∀ a, o ≠ .int a) :
    o.unmarshalFrom (xofReader H) (.readable input pos) =
      ((o.unmarshal (Rand.outBytes H input pos 32)).1, .readable input (pos + 32),
        (o.unmarshal (Rand.outBytes H input pos 32)).2) ∧
    o.unmarshalFrom (xofReader H) (.writeable input) = o.unmarshalFrom (xofReader H) (.readable input 0) := by
  have hs : o.size = 32 := by
    cases o with
    | int a => exact absurd rfl (ho a)
    | point _ => rfl
    | scalar _ => rfl
  unfold Obj.unmarshalFrom xofReader
  simp only [hs, Rand.Xof.read, Nat.zero_add, and_self]

/-- A point: no second try, the bytes may encode no point. -/
theorem C108_violated_point (input : Bytes) (p : Ext) :
    ∃ H : Rand.XofFn, ((Obj.point p).unmarshalFrom (xofReader H) (.writeable input)).2.2 = .err .invalid := by
  refine ⟨fun _ i => twoBytes.getD i 0, ?_⟩
  have hb : Rand.outBytes (fun _ i => twoBytes.getD i 0) input 0 32 = twoBytes := by
    show (List.range 32).map (fun i => twoBytes.getD (0 + i) 0) = twoBytes
    decide +kernel
  obtain ⟨h1, h2⟩ := C108_exact_partial (fun _ i => twoBytes.getD i 0) input 0 (.point p) (fun a h => by cases h)
  rw [h2, h1, hb]
  have hlen : twoBytes.length = 32 := by decide
  have hn : leNat twoBytes = 2 := by decide +kernel
  have hm : leNat twoBytes % 2 ^ 255 = 2 := by rw [hn]; norm_num
  clear h1 h2 hb hn
  revert hlen hm
  generalize twoBytes = b
  intro hlen hm
  have hfail : (ptUnmarshal p b).2 = false := by
    unfold ptUnmarshal
    rw [← Bool.not_eq_true, (setBytes_spec p hlen).1, hm]
    exact no_point_two
  simp only [Obj.unmarshal, hfail]
  rfl

/-- A scalar: the bytes are stored as they are. -/
theorem C108_violated_scalar (input s : Bytes) :
    ∃ H : Rand.XofFn, (Obj.scalar s).unmarshalFrom (xofReader H) (.writeable input) =
      (.scalar (List.replicate 32 255), .readable input 32, .ok ()) ∧
      ¬ (Obj.scalar (List.replicate 32 255)).Good := by
  refine ⟨fun _ _ => 255, ?_, ?_⟩
  · obtain ⟨h1, h2⟩ := C108_exact_partial (fun _ _ => 255) input 0 (.scalar s) (fun a h => by cases h)
    have hb : Rand.outBytes (fun _ _ => 255) input 0 32 = List.replicate 32 255 := by
      show (List.range 32).map (fun _ => (255 : UInt8)) = List.replicate 32 255
      decide +kernel
    rw [h2, h1, hb]
    rfl
  · rintro ⟨-, h⟩
    revert h
    decide +kernel

theorem C108_violated : ¬ C108_statement := by
  intro h
  obtain ⟨H, hH⟩ := C108_violated_point [] extZero
  have := (h H (.writeable []) (.point extZero) (fun a h => by cases h)).1
  rw [hH] at this
  cases this

/-- The point is read when the bytes encode one. -/
example (input : Bytes) : ∃ H : Rand.XofFn, ((Obj.point extZero).unmarshalFrom (xofReader H) (.writeable input)).2.2 = .ok () := by
  refine ⟨fun _ i => (ptMarshal baseExt).getD i 0, ?_⟩
  obtain ⟨h1, h2⟩ := C108_exact_partial (fun _ i => (ptMarshal baseExt).getD i 0) input 0 (.point extZero)
    (fun a h => by cases h)
  obtain ⟨u, hu, -⟩ := C57_round_trip baseExt base_valid extZero
  have hl := (C57_marshal baseExt base_valid).1
  rw [h2, h1]
  revert hu hl
  generalize ptMarshal baseExt = b
  intro hu hl
  have hb : Rand.outBytes (fun _ i => b.getD i 0) input 0 32 = b := by
    unfold Rand.outBytes
    apply List.ext_getElem
    · simp [hl]
    · intro i g1 g2
      simp [List.getD_eq_getElem?_getD, List.getElem?_eq_getElem g2]
  rw [hb]
  simp only [Obj.unmarshal, hu]
  rfl

/-- `C107_edwards25519`: a point and a scalar take 64 bytes. -/
example : ∃ b, writeAll [.point baseExt, .scalar scOne] [] = .ok b ∧ b.length = 64 ∧
    ∃ out, readAll [.point extZero, .scalar scZero] (b ++ [1, 2, 3]) = (out, [1, 2, 3], .ok ()) ∧
      List.Forall₂ Obj.Same out [.point baseExt, .scalar scOne] :=
  C107_edwards25519 [.point baseExt, .scalar scOne] [.point extZero, .scalar scZero]
    (.cons trivial (.cons trivial .nil)) (by
      intro o ho
      simp only [List.mem_cons, List.not_mem_nil, or_false] at ho
      rcases ho with rfl | rfl
      · exact base_valid
      · trivial)
    (by
      intro o ho a
      simp only [List.mem_cons, List.not_mem_nil, or_false] at ho
      rcases ho with rfl | rfl <;> exact fun h => nomatch h) [1, 2, 3]

end Kyber.Ed
