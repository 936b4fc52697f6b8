/-
Shared vocabulary of the model: results with explicit panics and hash maps.
-/

namespace Kyber

/-- Outcome of a Rust call: `Ok`, `Err`, or an unwinding panic (index out of range,
`unwrap` on `None`, `copy_from_slice` length mismatch, `todo!()`). -/
inductive Res (ε : Type) (α : Type) : Type where
  | ok (a : α)
  | err (e : ε)
  | panic
  deriving DecidableEq, Repr

namespace Res

variable {ε α β γ : Type}

/-- Sequencing: the `?` operator. A panic or an error stops the computation. -/
def bind : Res ε α → (α → Res ε β) → Res ε β
  | ok a, f => f a
  | err e, _ => err e
  | panic, _ => panic

instance : Monad (Res ε) where
  pure := ok
  bind := bind

@[simp] theorem pure_eq (a : α) : (pure a : Res ε α) = ok a := rfl
@[simp] theorem bind_ok (a : α) (f : α → Res ε β) : (ok a >>= f) = f a := rfl
@[simp] theorem bind_err (e : ε) (f : α → Res ε β) : (err e >>= f) = err e := rfl
@[simp] theorem bind_panic (f : α → Res ε β) : ((panic : Res ε α) >>= f) = panic := rfl

instance : LawfulMonad (Res ε) := LawfulMonad.mk'
  (id_map := by intro α x; cases x <;> rfl)
  (pure_bind := by intro α β x f; rfl)
  (bind_assoc := by intro α β γ x f g; cases x <;> rfl)

/-- `Option` to `Result` with `ok_or`. -/
def ofOption (e : ε) : Option α → Res ε α
  | some a => ok a
  | none => err e

/-- `Option::unwrap`, also `map[&key]` and `slice[i]`: panics on `None`. -/
def unwrap : Option α → Res ε α
  | some a => ok a
  | none => panic

@[simp] theorem ofOption_some (e : ε) (a : α) : ofOption e (some a) = ok a := rfl
@[simp] theorem ofOption_none (e : ε) : (ofOption e none : Res ε α) = err e := rfl
@[simp] theorem unwrap_some (a : α) : (unwrap (some a) : Res ε α) = ok a := rfl
@[simp] theorem unwrap_none : (unwrap none : Res ε α) = panic := rfl

/-- `map_err`. -/
def mapErr {ε' : Type} (f : ε → ε') : Res ε α → Res ε' α
  | ok a => ok a
  | err e => err (f e)
  | panic => panic

@[simp] theorem mapErr_ok {ε' : Type} (f : ε → ε') (a : α) : mapErr f (ok a) = ok a := rfl
@[simp] theorem mapErr_err {ε' : Type} (f : ε → ε') (e : ε) :
    (mapErr f (err e) : Res ε' α) = err (f e) := rfl
@[simp] theorem mapErr_panic {ε' : Type} (f : ε → ε') :
    (mapErr f (panic : Res ε α)) = panic := rfl

end Res

/-- `std::collections::HashMap<usize, α>` (also with `u32` keys) as an association list
with pairwise distinct keys. The position of an entry carries no meaning: wherever Rust
iterates over a map the model iterates over an arbitrary rearrangement (`MapOrder`). -/
abbrev AMap (α : Type) := List (Nat × α)

namespace AMap

variable {α β : Type}

/-- `HashMap::get`. -/
def get (m : AMap α) (k : Nat) : Option α := m.lookup k

/-- `HashMap::insert`: replaces the value of an existing key. -/
def insert : AMap α → Nat → α → AMap α
  | [], k, v => [(k, v)]
  | (k', v') :: m, k, v => if k' = k then (k, v) :: m else (k', v') :: insert m k v

/-- `HashMap::remove`. -/
def remove (m : AMap α) (k : Nat) : AMap α := m.filter (fun e => decide (e.1 ≠ k))

/-- `HashMap::contains_key`. -/
def contains (m : AMap α) (k : Nat) : Bool := (m.get k).isSome

/-- The keys. -/
def keys (m : AMap α) : List Nat := m.map Prod.fst

end AMap

/-- The iteration order of hash maps: unspecified in Rust (it depends on the process's
random hasher state), so any function that rearranges the entries of each map. -/
structure MapOrder where
  /-- the entries of a map in the order in which they are visited -/
  run : {α : Type} → List α → List α
  /-- every entry is visited exactly once -/
  perm : ∀ {α : Type} (l : List α), (run l).Perm l

/-- The order of insertion, used for concrete examples. -/
def MapOrder.id : MapOrder := ⟨fun l => l, fun l => List.Perm.refl l⟩

/-- Another concrete order: last inserted first. -/
def MapOrder.rev : MapOrder := ⟨fun l => l.reverse, fun l => List.reverse_perm l⟩

end Kyber
