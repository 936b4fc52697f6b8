/-
Lemmas about `Res`, `AMap` and folds.
-/
import Verif.Model.Basic
import Mathlib.Data.List.Nodup
import Mathlib.Data.List.Perm.Basic
import Mathlib.Data.Finset.Card

namespace Kyber

namespace Res

theorem bind_eq_ok {ε α β : Type} {r : Res ε α} {g : α → Res ε β} {b : β} :
    (r >>= g) = .ok b ↔ ∃ a, r = .ok a ∧ g a = .ok b := by
  cases r <;> simp

theorem ofOption_eq_ok {ε α : Type} {e : ε} {o : Option α} {a : α} :
    Res.ofOption e o = .ok a ↔ o = some a := by
  cases o <;> simp

theorem unwrap_eq_ok {ε α : Type} {o : Option α} {a : α} :
    (Res.unwrap o : Res ε α) = .ok a ↔ o = some a := by
  cases o <;> simp

theorem mapErr_eq_ok {ε ε' α : Type} {f : ε → ε'} {r : Res ε α} {a : α} :
    Res.mapErr f r = .ok a ↔ r = .ok a := by
  cases r <;> simp

theorem ite_err_eq_ok {ε α : Type} {c : Prop} [Decidable c] {e : ε} {r : Res ε α} {a : α} :
    (if c then Res.err e else r) = .ok a ↔ ¬ c ∧ r = .ok a := by
  split <;> simp_all

theorem ite_panic_eq_ok {ε α : Type} {c : Prop} [Decidable c] {r : Res ε α} {a : α} :
    (if c then Res.panic else r) = .ok a ↔ ¬ c ∧ r = .ok a := by
  split <;> simp_all

end Res

namespace Res

variable {ε α β : Type}

theorem foldlM_ok {f : β → α → Res ε β} {g : β → α → β} {l : List α}
    (h : ∀ b, ∀ a ∈ l, f b a = .ok (g b a)) (b : β) :
    l.foldlM f b = .ok (l.foldl g b) := by
  induction l generalizing b with
  | nil => rfl
  | cons a l ih =>
    rw [List.foldlM_cons, h b a (by simp), bind_ok, List.foldl_cons]
    exact ih (fun b' a' ha' => h b' a' (by simp [ha'])) _

/-- Monadic fold with an invariant: every step succeeds and establishes the next invariant. -/
theorem foldlM_inv {f : β → α → Res ε β} (P : List α → β → Prop) {l : List α} {b : β}
    (h0 : P [] b)
    (hs : ∀ done a rest b, l = done ++ a :: rest → P done b →
      ∃ b', f b a = .ok b' ∧ P (done ++ [a]) b') :
    ∃ b', l.foldlM f b = .ok b' ∧ P l b' := by
  suffices H : ∀ (rest done : List α) (b : β), l = done ++ rest → P done b →
      ∃ b', rest.foldlM f b = .ok b' ∧ P l b' from H l [] b rfl h0
  intro rest
  induction rest with
  | nil => intro done b hl hP; exact ⟨b, rfl, by simpa [hl] using hP⟩
  | cons a rest ih =>
    intro done b hl hP
    obtain ⟨b', hb', hP'⟩ := hs done a rest b hl hP
    obtain ⟨b'', h1, h2⟩ := ih (done ++ [a]) b' (by simp [hl]) hP'
    exact ⟨b'', by rw [List.foldlM_cons, hb', bind_ok, h1], h2⟩

end Res

namespace AMap

variable {α : Type}

@[simp] theorem keys_nil : AMap.keys ([] : AMap α) = [] := rfl
@[simp] theorem keys_cons (e : Nat × α) (m : AMap α) : AMap.keys (e :: m) = e.1 :: AMap.keys m := rfl

@[simp] theorem length_keys (m : AMap α) : m.keys.length = m.length := by
  simp [AMap.keys]

theorem mem_keys {m : AMap α} {k : Nat} : k ∈ m.keys ↔ ∃ v, (k, v) ∈ m := by
  simp [AMap.keys]

theorem keys_insert (m : AMap α) (k : Nat) (v : α) :
    (m.insert k v).keys = if k ∈ m.keys then m.keys else m.keys ++ [k] := by
  induction m with
  | nil => simp [AMap.insert, AMap.keys]
  | cons e m ih =>
    obtain ⟨k', v'⟩ := e
    by_cases h : k' = k
    · subst h; simp [AMap.insert]
    · have h' : ¬ k = k' := fun h'' => h h''.symm
      simp only [AMap.insert, h, if_false, keys_cons, ih, List.mem_cons, h', false_or]
      split <;> simp

theorem mem_keys_insert {m : AMap α} {k k' : Nat} {v : α} :
    k' ∈ (m.insert k v).keys ↔ k' = k ∨ k' ∈ m.keys := by
  rw [keys_insert]; split
  · constructor
    · exact Or.inr
    · rintro (rfl | h) <;> assumption
  · simp [or_comm]

theorem nodup_insert {m : AMap α} (h : m.keys.Nodup) (k : Nat) (v : α) :
    (m.insert k v).keys.Nodup := by
  rw [keys_insert]; split
  · exact h
  · rename_i hk
    exact List.Nodup.append h (by simp) (by simpa using hk)

theorem length_insert (m : AMap α) (k : Nat) (v : α) :
    (m.insert k v).length = if k ∈ m.keys then m.length else m.length + 1 := by
  rw [← length_keys, keys_insert]; split <;> simp

theorem mem_insert {m : AMap α} {k k' : Nat} {v v' : α} (h : (k', v') ∈ m.insert k v) :
    (k' = k ∧ v' = v) ∨ (k', v') ∈ m := by
  induction m with
  | nil => simp [AMap.insert] at h; exact Or.inl h
  | cons e m ih =>
    obtain ⟨a, b⟩ := e
    simp only [AMap.insert] at h
    split at h
    · rcases List.mem_cons.1 h with h | h
      · simp only [Prod.mk.injEq] at h; exact Or.inl h
      · exact Or.inr (List.mem_cons_of_mem _ h)
    · rcases List.mem_cons.1 h with h | h
      · exact Or.inr (by rw [h]; simp)
      · rcases ih h with h | h
        · exact Or.inl h
        · exact Or.inr (List.mem_cons_of_mem _ h)

@[simp] theorem get_nil (k : Nat) : AMap.get ([] : AMap α) k = none := rfl

theorem get_cons (a : Nat) (b : α) (m : AMap α) (k : Nat) :
    AMap.get ((a, b) :: m) k = if k = a then some b else AMap.get m k := by
  unfold AMap.get
  rw [List.lookup_cons]
  by_cases h : k = a
  · simp [h]
  · have : (k == a) = false := by simpa using h
    simp [h, this]

theorem get_insert (m : AMap α) (k k' : Nat) (v : α) :
    (m.insert k v).get k' = if k' = k then some v else m.get k' := by
  induction m with
  | nil => simp [AMap.insert, get_cons]
  | cons e m ih =>
    obtain ⟨a, b⟩ := e
    simp only [AMap.insert]
    by_cases h : a = k
    · subst h
      rw [if_pos rfl, get_cons, get_cons]
      split <;> rfl
    · rw [if_neg h, get_cons, get_cons, ih]
      by_cases h2 : k' = a
      · subst h2; simp [h]
      · simp [h2]

theorem get_isSome {m : AMap α} {k : Nat} : (m.get k).isSome ↔ k ∈ m.keys := by
  induction m with
  | nil => simp
  | cons e m ih =>
    obtain ⟨a, b⟩ := e
    rw [get_cons]
    by_cases h : k = a
    · simp [h]
    · simp [h, ih]

theorem get_eq_none {m : AMap α} {k : Nat} : m.get k = none ↔ k ∉ m.keys := by
  rw [← get_isSome]; cases m.get k <;> simp

theorem get_of_mem_keys {m : AMap α} {k : Nat} (h : k ∈ m.keys) : ∃ v, m.get k = some v :=
  Option.isSome_iff_exists.1 (get_isSome.2 h)

theorem mem_of_get {m : AMap α} {k : Nat} {v : α} (h : m.get k = some v) : (k, v) ∈ m := by
  induction m with
  | nil => simp at h
  | cons e m ih =>
    obtain ⟨a, b⟩ := e
    rw [get_cons] at h
    split at h
    · rename_i hk; subst hk; simp at h; subst h; simp
    · exact List.mem_cons_of_mem _ (ih h)

theorem get_of_mem {m : AMap α} (hn : m.keys.Nodup) {k : Nat} {v : α} (h : (k, v) ∈ m) :
    m.get k = some v := by
  induction m with
  | nil => simp at h
  | cons e m ih =>
    obtain ⟨a, b⟩ := e
    simp only [keys_cons, List.nodup_cons] at hn
    rw [get_cons]
    rcases List.mem_cons.1 h with h | h'
    · simp only [Prod.mk.injEq] at h; simp [h.1, h.2]
    · have : k ≠ a := by
        rintro rfl; exact hn.1 (mem_keys.2 ⟨v, h'⟩)
      rw [if_neg this]; exact ih hn.2 h'

end AMap

end Kyber
