/-
Reading back what was written, up to the order of the entries of maps.
-/
import Verif.Model.State
import Verif.Lemmas.Bincode
import Verif.Lemmas.Basic
import Mathlib.Data.List.Forall2

namespace Kyber.Bin

open Kyber

variable {α β : Type}

/-- Reading what was written gives back a value in relation `R` and the bytes that follow. -/
def ReadsTo (B : Bin α) (P : α → Prop) (R : α → α → Prop) : Prop :=
  ∀ a r, P a → ∃ a', B.de (B.ser a ++ r) = some (a', r) ∧ R a a'

theorem Reads.to {B : Bin α} {P : α → Prop} (h : B.Reads P) : B.ReadsTo P Eq :=
  fun a r ha => ⟨a, h a r ha, rfl⟩

theorem ReadsTo.unmarshal {B : Bin α} {P : α → Prop} {R : α → α → Prop} (h : B.ReadsTo P R) {a : α}
    (ha : P a) : ∃ a', B.unmarshal (B.marshal a) = some a' ∧ R a a' := by
  obtain ⟨a', h1, h2⟩ := h a [] ha
  refine ⟨a', ?_, h2⟩
  unfold Bin.unmarshal marshal
  rw [List.append_nil] at h1
  rw [h1]
  rfl

theorem ReadsTo.pair {A : Bin α} {B : Bin β} {P : α → Prop} {Q : β → Prop} {R : α → α → Prop}
    {T : β → β → Prop} (hA : A.ReadsTo P R) (hB : B.ReadsTo Q T) :
    (A.pair B).ReadsTo (fun x => P x.1 ∧ Q x.2) (fun x y => R x.1 y.1 ∧ T x.2 y.2) := by
  rintro ⟨a, c⟩ r ⟨h1, h2⟩
  simp only [Bin.pair, List.append_assoc]
  obtain ⟨a', ha, hr⟩ := hA a (B.ser c ++ r) h1
  obtain ⟨c', hc, ht⟩ := hB c r h2
  refine ⟨(a', c'), ?_, hr, ht⟩
  rw [ha]
  simp only [Option.bind_eq_bind, Option.bind_some]
  rw [hc]
  rfl

theorem ReadsTo.piso {A : Bin α} {P : α → Prop} {R : α → α → Prop} (hA : A.ReadsTo P R)
    {f : α → Option β} {g : β → α} {T : β → β → Prop}
    (hfg : ∀ y x, R (g y) x → ∃ y', f x = some y' ∧ T y y') :
    (A.piso f g).ReadsTo (fun y => P (g y)) T := by
  intro y r h
  obtain ⟨x, h1, h2⟩ := hA (g y) r h
  obtain ⟨y', h3, h4⟩ := hfg y x h2
  refine ⟨y', ?_, h4⟩
  simp only [Bin.piso]
  rw [h1, Option.bind_some, h3]
  rfl

theorem ReadsTo.iso {A : Bin α} {P : α → Prop} {R : α → α → Prop} (hA : A.ReadsTo P R)
    {f : α → β} {g : β → α} {T : β → β → Prop} (hfg : ∀ y x, R (g y) x → T y (f x)) :
    (A.iso f g).ReadsTo (fun y => P (g y)) T := by
  intro y r h
  obtain ⟨x, h1, h2⟩ := hA (g y) r h
  refine ⟨f x, ?_, hfg y x h2⟩
  simp only [Bin.iso]
  rw [h1, Option.map_some]

theorem ReadsTo.deN {A : Bin α} {P : α → Prop} {R : α → α → Prop} (hA : A.ReadsTo P R) (l : List α)
    (r : Bytes) (h : ∀ a ∈ l, P a) :
    ∃ l', A.deN l.length (l.flatMap A.ser ++ r) = some (l', r) ∧ List.Forall₂ R l l' := by
  induction l with
  | nil => exact ⟨[], rfl, .nil⟩
  | cons a l ih =>
    obtain ⟨l', h1, h2⟩ := ih fun x hx => h x (List.mem_cons_of_mem _ hx)
    obtain ⟨a', h3, h4⟩ := hA a (l.flatMap A.ser ++ r) (h a List.mem_cons_self)
    refine ⟨a' :: l', ?_, .cons h4 h2⟩
    simp only [List.length_cons, Bin.deN, List.flatMap_cons, List.append_assoc]
    rw [h3]
    simp only [Option.bind_eq_bind, Option.bind_some]
    rw [h1]
    rfl

theorem ReadsTo.vec {A : Bin α} {P : α → Prop} {R : α → α → Prop} (hA : A.ReadsTo P R) :
    (vec A).ReadsTo (fun l => l.length < 2 ^ 64 ∧ ∀ a ∈ l, P a) (List.Forall₂ R) := by
  rintro l r ⟨h1, h2⟩
  obtain ⟨l', h3, h4⟩ := hA.deN l r h2
  refine ⟨l', ?_, h4⟩
  simp only [Bin.vec, List.append_assoc, Option.bind_eq_bind]
  have := exact_usize.of_ser h1 (l.flatMap A.ser ++ r)
  rw [show ModInt.leBytes 8 l.length = usize.ser l.length from rfl, this, Option.bind_some]
  exact h3

/-- Both absent, or both present and related. -/
def OptR (R : α → α → Prop) : Option α → Option α → Prop
  | none, none => True
  | some a, some a' => R a a'
  | _, _ => False

theorem ReadsTo.option {A : Bin α} {P : α → Prop} {R : α → α → Prop} (hA : A.ReadsTo P R) :
    (option A).ReadsTo (fun o => ∀ a ∈ o, P a) (OptR R) := by
  rintro (_ | a) r h
  · exact ⟨none, rfl, trivial⟩
  · obtain ⟨a', h1, h2⟩ := hA a r (h a rfl)
    refine ⟨some a', ?_, h2⟩
    show ((A.de (A.ser a ++ r)).map _) = _
    rw [h1]
    rfl

theorem optR_eq {o o' : Option α} (h : OptR Eq o o') : o = o' := by
  match o, o', h with
  | none, none, _ => rfl
  | some a, some a', h => rw [show a = a' from h]

/-- The same keys, each once, with related values. -/
def MapR (R : α → α → Prop) (m m' : AMap α) : Prop :=
  m'.keys.Nodup ∧ ∀ k, OptR R (m.get k) (m'.get k)

theorem insertAll (l acc : AMap α) (h : (acc ++ l).keys.Nodup) :
    l.foldl (fun m e => m.insert e.1 e.2) acc = acc ++ l := by
  have app : ∀ (acc : AMap α) (k : Nat) (v : α), k ∉ acc.keys → acc.insert k v = acc ++ [(k, v)] := by
    intro acc k v hk
    induction acc with
    | nil => rfl
    | cons e acc ih =>
      obtain ⟨k', v'⟩ := e
      simp only [AMap.keys_cons, List.mem_cons, not_or] at hk
      simp only [AMap.insert, if_neg (Ne.symm hk.1), ih hk.2, List.cons_append]
  induction l generalizing acc with
  | nil => simp
  | cons e l ih =>
    rw [List.foldl_cons, app, ih]
    · simp
    · simpa [List.append_assoc] using h
    · intro hk
      simp only [AMap.keys, List.map_append, List.map_cons] at h hk
      rw [List.nodup_append] at h
      exact h.2.2 _ hk _ List.mem_cons_self rfl

theorem get_perm {m m' : AMap α} (hp : m.Perm m') (h : m.keys.Nodup) (k : Nat) : m.get k = m'.get k := by
  have h' : m'.keys.Nodup := (hp.map Prod.fst).nodup_iff.1 h
  cases e : m'.get k with
  | none =>
    rw [AMap.get_eq_none] at e ⊢
    intro hk
    exact e ((hp.map Prod.fst).mem_iff.1 hk)
  | some v =>
    refine AMap.get_of_mem h (hp.mem_iff.2 ?_)
    exact AMap.mem_of_get e

theorem ReadsTo.map {A : Bin α} {P : α → Prop} {R : α → α → Prop} (hA : A.ReadsTo P R)
    {K : Bin Nat} {Q : Nat → Prop} (hK : K.Reads Q) (ord : MapOrder) :
    (map ord K A).ReadsTo (fun m => m.length < 2 ^ 64 ∧ m.keys.Nodup ∧ ∀ e ∈ m, Q e.1 ∧ P e.2)
      (MapR R) := by
  rintro m r ⟨h1, h2, h3⟩
  have hp := ord.perm m
  obtain ⟨l, h4, h5⟩ := (hK.to.pair hA).vec (ord.run m) r
    ⟨by rw [hp.length_eq]; exact h1, fun a ha => h3 a (hp.mem_iff.1 ha)⟩
  have hn : (AMap.keys (ord.run m)).Nodup := (hp.map Prod.fst).nodup_iff.2 h2
  have hk : AMap.keys l = AMap.keys (ord.run m) := by
    clear h4 hn
    generalize ord.run m = l0 at h5
    induction h5 with
    | nil => rfl
    | cons h _ ih => simp only [AMap.keys_cons, ih, h.1]
  have hl : l.foldl (fun (m : AMap α) e => m.insert e.1 e.2) [] = l := by
    rw [insertAll]
    · rfl
    · rw [List.nil_append, hk]; exact hn
  refine ⟨l, ?_, by rw [hk]; exact hn, fun k => ?_⟩
  · simp only [Bin.map]
    rw [h4, Option.map_some, hl]
  · rw [← get_perm hp hn k]
    clear h4 hn hl hk
    generalize ord.run m = l0 at h5
    induction h5 with
    | nil => exact trivial
    | cons h _ ih =>
      rename_i a b l1 l2 _
      obtain ⟨k1, v1⟩ := a
      obtain ⟨k2, v2⟩ := b
      obtain ⟨rfl, hv⟩ := h
      simp only [AMap.get, List.lookup_cons] at ih ⊢
      by_cases hkk : k = k1
      · subst hkk
        simp only [beq_self_eq_true]
        exact hv
      · rw [beq_false_of_ne hkk]
        exact ih

theorem ReadsTo.imp {B : Bin α} {P Q : α → Prop} {R T : α → α → Prop} (h : B.ReadsTo P R)
    (hq : ∀ a, Q a → P a) (ht : ∀ a a', R a a' → T a a') : B.ReadsTo Q T := by
  intro a r ha
  obtain ⟨a', h1, h2⟩ := h a r (hq a ha)
  exact ⟨a', h1, ht _ _ h2⟩

theorem Reads.option {A : Bin α} {P : α → Prop} (hA : A.Reads P) :
    (option A).Reads (fun o => ∀ a ∈ o, P a) := by
  intro a r h
  obtain ⟨a', h1, h2⟩ := hA.to.option a r h
  rw [h1, optR_eq h2]

end Kyber.Bin
