/-
What the binary form of a type determines.
-/
import Verif.Model.Bincode
import Verif.Lemmas.Int

namespace Kyber

open Kyber.ModInt
open Kyber.Poly (Share)

namespace Bin

variable {α β : Type}

/-- Reading succeeds exactly on what writing a value of `P` gives, followed by anything. -/
def Exact (B : Bin α) (P : α → Prop) : Prop :=
  ∀ b a r, B.de b = some (a, r) ↔ P a ∧ b = B.ser a ++ r

theorem Exact.congr {B : Bin α} {P Q : α → Prop} (h : B.Exact P) (hp : ∀ a, P a ↔ Q a) : B.Exact Q := by
  intro b a r
  rw [h b a r, hp]

theorem Exact.of_ser {B : Bin α} {P : α → Prop} (h : B.Exact P) {a : α} (ha : P a) (r : Bytes) :
    B.de (B.ser a ++ r) = some (a, r) := (h _ _ _).2 ⟨ha, rfl⟩

theorem Exact.prefix_free {B : Bin α} {P : α → Prop} (h : B.Exact P) {a c : α} (ha : P a) (hc : P c) {r s : Bytes}
    (he : B.ser a ++ r = B.ser c ++ s) : a = c ∧ r = s := by
  have h1 := h.of_ser ha r
  have h2 := h.of_ser hc s
  rw [he, h2] at h1
  cases h1
  exact ⟨rfl, rfl⟩

theorem Exact.inj {B : Bin α} {P : α → Prop} (h : B.Exact P) {a c : α} (ha : P a) (hc : P c)
    (he : B.ser a = B.ser c) : a = c :=
  (h.prefix_free (r := []) (s := []) ha hc (by rw [he])).1

theorem Exact.unmarshal_iff {B : Bin α} {P : α → Prop} (h : B.Exact P) (b : Bytes) (a : α) :
    B.unmarshal b = some a ↔ P a ∧ B.marshal a <+: b := by
  unfold unmarshal marshal
  rw [Option.map_eq_some_iff]
  constructor
  · rintro ⟨⟨a', r⟩, h1, rfl⟩
    obtain ⟨h2, h3⟩ := (h _ _ _).1 h1
    exact ⟨h2, r, h3.symm⟩
  · rintro ⟨h1, r, rfl⟩
    exact ⟨(a, r), h.of_ser h1 r, rfl⟩

theorem append_iff_take {b a r : Bytes} {n : Nat} (hn : a.length = n) :
    b = a ++ r ↔ n ≤ b.length ∧ b.take n = a ∧ b.drop n = r := by
  constructor
  · rintro rfl
    refine ⟨by rw [List.length_append]; omega, ?_, ?_⟩
    · rw [← hn, List.take_left]
    · rw [← hn, List.drop_left]
  · rintro ⟨_, rfl, rfl⟩
    rw [List.take_append_drop]

theorem exact_array (n : Nat) : (array n).Exact (fun a => a.length = n) := by
  intro b a r
  simp only [array, id]
  constructor
  · intro h
    split at h
    · cases h
    · rename_i hl
      cases h
      exact ⟨by rw [List.length_take]; omega, (List.take_append_drop _ _).symm⟩
  · rintro ⟨h1, h2⟩
    obtain ⟨h3, h4, h5⟩ := (append_iff_take h1).1 h2
    rw [if_neg (by omega), h4, h5]

theorem exact_uint (n : Nat) : (uint n).Exact (fun x => x < 256 ^ n) := by
  intro b a r
  simp only [uint]
  constructor
  · intro h
    split at h
    · cases h
    · rename_i hl
      cases h
      have e : (b.take n).length = n := by rw [List.length_take]; omega
      have h1 := leNat_lt (b.take n)
      have h2 := leBytes_leNat (b.take n)
      rw [e] at h1 h2
      exact ⟨h1, by rw [h2, List.take_append_drop]⟩
  · rintro ⟨h1, h2⟩
    obtain ⟨h3, h4, h5⟩ := (append_iff_take (length_leBytes n a)).1 h2
    rw [if_neg (by omega), h4, h5, leNat_leBytes, Nat.mod_eq_of_lt h1]

theorem exact_u32 : u32.Exact (fun x => x < 2 ^ 32) := by
  refine (exact_uint 4).congr fun a => ?_
  norm_num

theorem exact_usize : usize.Exact (fun x => x < 2 ^ 64) := by
  refine (exact_uint 8).congr fun a => ?_
  norm_num

theorem exact_u8 : u8.Exact (fun _ => True) := by
  intro b a r
  cases b with
  | nil => simp [u8]
  | cons x b =>
    simp only [u8, Option.some.injEq, Prod.mk.injEq, List.cons_append, List.nil_append, List.cons.injEq, true_and]

theorem exact_bool : bool.Exact (fun _ => True) := by
  intro b a r
  cases b with
  | nil => simp [bool]
  | cons x b =>
    simp only [bool, List.cons_append, List.nil_append, List.cons.injEq, true_and]
    by_cases h0 : x = 0
    · subst h0
      cases a <;> simp
    · rw [if_neg h0]
      by_cases h1 : x = 1
      · subst h1
        cases a <;> simp
      · rw [if_neg h1]
        cases a <;> simp [h0, h1]

theorem Exact.pair {A : Bin α} {B : Bin β} {P : α → Prop} {Q : β → Prop} (hA : A.Exact P) (hB : B.Exact Q) :
    (A.pair B).Exact (fun x => P x.1 ∧ Q x.2) := by
  rintro b ⟨a, c⟩ r
  simp only [Bin.pair, Option.bind_eq_bind, Option.bind_eq_some_iff, Prod.exists]
  constructor
  · rintro ⟨a', r', h1, c', r'', h2, h3⟩
    cases h3
    obtain ⟨h4, rfl⟩ := (hA _ _ _).1 h1
    obtain ⟨h5, rfl⟩ := (hB _ _ _).1 h2
    exact ⟨⟨h4, h5⟩, by rw [List.append_assoc]⟩
  · rintro ⟨⟨h1, h2⟩, rfl⟩
    refine ⟨a, B.ser c ++ r, ?_, c, r, ?_, rfl⟩
    · rw [List.append_assoc]
      exact hA.of_ser h1 _
    · exact hB.of_ser h2 _

theorem Exact.iso {A : Bin α} {P : α → Prop} (hA : A.Exact P) {f : α → β} {g : β → α} (hfg : ∀ y, f (g y) = y)
    (hgf : ∀ x, g (f x) = x) : (A.iso f g).Exact (fun y => P (g y)) := by
  intro b y r
  simp only [Bin.iso, Option.map_eq_some_iff, Prod.exists, Prod.mk.injEq]
  constructor
  · rintro ⟨a, r', h1, rfl, rfl⟩
    rw [hgf]
    exact (hA _ _ _).1 h1
  · rintro ⟨h1, rfl⟩
    exact ⟨g y, r, hA.of_ser h1 r, hfg y, rfl⟩

theorem Exact.deN {A : Bin α} {P : α → Prop} (hA : A.Exact P) (n : Nat) (b : Bytes) (l : List α) (r : Bytes) :
    A.deN n b = some (l, r) ↔ (l.length = n ∧ ∀ a ∈ l, P a) ∧ b = l.flatMap A.ser ++ r := by
  induction n generalizing b l with
  | zero =>
    simp only [Bin.deN, Option.some.injEq, Prod.mk.injEq, List.length_eq_zero_iff]
    constructor
    · rintro ⟨rfl, rfl⟩
      simp
    · rintro ⟨⟨rfl, -⟩, rfl⟩
      simp
  | succ n ih =>
    simp only [Bin.deN, Option.bind_eq_bind, Option.bind_eq_some_iff, Prod.exists]
    constructor
    · rintro ⟨a, r', h1, l', r'', h2, h3⟩
      cases h3
      obtain ⟨h4, rfl⟩ := (hA _ _ _).1 h1
      obtain ⟨⟨h5, h6⟩, rfl⟩ := (ih _ _).1 h2
      refine ⟨⟨by rw [List.length_cons, h5], ?_⟩, by rw [List.flatMap_cons, List.append_assoc]⟩
      intro x hx
      rcases List.mem_cons.1 hx with rfl | hx
      · exact h4
      · exact h6 x hx
    · rintro ⟨⟨h1, h2⟩, rfl⟩
      cases l with
      | nil => simp at h1
      | cons a l =>
        refine ⟨a, l.flatMap A.ser ++ r, ?_, l, r, ?_, rfl⟩
        · rw [List.flatMap_cons, List.append_assoc]
          exact hA.of_ser (h2 a List.mem_cons_self) _
        · refine (ih _ _).2 ⟨⟨by simpa using h1, fun x hx => h2 x (List.mem_cons_of_mem _ hx)⟩, rfl⟩

theorem Exact.vec {A : Bin α} {P : α → Prop} (hA : A.Exact P) :
    (vec A).Exact (fun l => l.length < 2 ^ 64 ∧ ∀ a ∈ l, P a) := by
  intro b l r
  simp only [Bin.vec, Option.bind_eq_bind, Option.bind_eq_some_iff, Prod.exists]
  constructor
  · rintro ⟨n, r', h1, h2⟩
    obtain ⟨h3, rfl⟩ := (exact_usize _ _ _).1 h1
    obtain ⟨⟨rfl, h5⟩, rfl⟩ := (hA.deN _ _ _ _).1 h2
    exact ⟨⟨h3, h5⟩, by rw [List.append_assoc]; rfl⟩
  · rintro ⟨⟨h1, h2⟩, rfl⟩
    refine ⟨l.length, l.flatMap A.ser ++ r, ?_, (hA.deN _ _ _ _).2 ⟨⟨rfl, h2⟩, rfl⟩⟩
    rw [List.append_assoc]
    exact exact_usize.of_ser h1 _

/-- Reading what was written gives back the value and the bytes that follow. Unlike `Exact` this allows
several forms of one value. -/
def Reads (B : Bin α) (P : α → Prop) : Prop := ∀ a r, P a → B.de (B.ser a ++ r) = some (a, r)

theorem Exact.reads {B : Bin α} {P : α → Prop} (h : B.Exact P) : B.Reads P := fun _ r ha => h.of_ser ha r

theorem Reads.unmarshal {B : Bin α} {P : α → Prop} (h : B.Reads P) {a : α} (ha : P a) :
    B.unmarshal (B.marshal a) = some a := by
  unfold Bin.unmarshal marshal
  have := h a [] ha
  rw [List.append_nil] at this
  rw [this]
  rfl

theorem Reads.pair {A : Bin α} {B : Bin β} {P : α → Prop} {Q : β → Prop} (hA : A.Reads P) (hB : B.Reads Q) :
    (A.pair B).Reads (fun x => P x.1 ∧ Q x.2) := by
  rintro ⟨a, c⟩ r ⟨h1, h2⟩
  simp only [Bin.pair, List.append_assoc]
  rw [hA a _ h1]
  simp only [Option.bind_eq_bind, Option.bind_some]
  rw [hB c r h2]
  rfl

theorem Reads.iso {A : Bin α} {P : α → Prop} (hA : A.Reads P) {f : α → β} {g : β → α} (hfg : ∀ y, f (g y) = y) :
    (A.iso f g).Reads (fun y => P (g y)) := by
  intro y r h
  simp only [Bin.iso]
  rw [hA _ r h, Option.map_some, hfg]

theorem Reads.deN {A : Bin α} {P : α → Prop} (hA : A.Reads P) (l : List α) (r : Bytes) (h : ∀ a ∈ l, P a) :
    A.deN l.length (l.flatMap A.ser ++ r) = some (l, r) := by
  induction l with
  | nil => rfl
  | cons a l ih =>
    simp only [List.length_cons, Bin.deN, List.flatMap_cons, List.append_assoc]
    rw [hA a _ (h a List.mem_cons_self)]
    simp only [Option.bind_eq_bind, Option.bind_some]
    rw [ih fun x hx => h x (List.mem_cons_of_mem _ hx)]
    rfl

theorem Reads.vec {A : Bin α} {P : α → Prop} (hA : A.Reads P) :
    (vec A).Reads (fun l => l.length < 2 ^ 64 ∧ ∀ a ∈ l, P a) := by
  rintro l r ⟨h1, h2⟩
  simp only [Bin.vec, List.append_assoc, Option.bind_eq_bind]
  have := exact_usize.of_ser h1 (l.flatMap A.ser ++ r)
  rw [show leBytes 8 l.length = usize.ser l.length from rfl, this, Option.bind_some]
  exact hA.deN l r h2

theorem flatMap_u8 (l : Bytes) : l.flatMap u8.ser = l := by
  induction l with
  | nil => rfl
  | cons x l ih => rw [List.flatMap_cons, ih]; rfl

theorem bytes_ser (l : Bytes) : bytes.ser l = leBytes 8 l.length ++ l := by
  show leBytes 8 l.length ++ l.flatMap u8.ser = _
  rw [flatMap_u8]

theorem exact_bytes : bytes.Exact (fun l => l.length < 2 ^ 64) :=
  exact_u8.vec.congr fun l => ⟨fun h => h.1, fun h => ⟨h, fun _ _ => trivial⟩⟩

end Bin

open Bin

variable {F G : Type}

theorem exact_share {S : Bin F} {P : F → Prop} (hS : S.Exact P) :
    (binShare S).Exact (fun s => s.i < 2 ^ 64 ∧ P s.v) :=
  (exact_usize.pair hS).iso (fun _ => rfl) (fun _ => rfl)

theorem reads_share {S : Bin F} {P : F → Prop} (hS : S.Reads P) :
    (binShare S).Reads (fun s => s.i < 2 ^ 64 ∧ P s.v) :=
  (exact_usize.reads.pair hS).iso (fun _ => rfl)

end Kyber
