/-
A concrete serialisation of deals for the toy suite, used in examples only.
-/
import Verif.Spec.Toy
import Verif.Model.VssPedersen

namespace Kyber.Toy

/-- unary numbers, terminated by a zero byte -/
def encN (n : Nat) : Bytes := List.replicate n 1 ++ [0]

/-- inverse of `encN` on a prefix -/
def decN : Bytes → Option (Nat × Bytes)
  | [] => none
  | b :: r => if b = 0 then some (0, r) else
    match decN r with
    | some (n, r') => some (n + 1, r')
    | none => none

theorem decN_encN (n : Nat) (r : Bytes) : decN (encN n ++ r) = some (n, r) := by
  induction n with
  | zero => simp [encN, decN]
  | succ n ih =>
    have : encN (n + 1) ++ r = 1 :: (encN n ++ r) := by simp [encN, List.replicate_succ]
    rw [this, decN, ih]
    simp

/-- length-prefixed byte strings -/
def encB (b : Bytes) : Bytes := encN b.length ++ b

/-- inverse of `encB` on a prefix -/
def decB (b : Bytes) : Option (Bytes × Bytes) :=
  match decN b with
  | some (n, r) => if n ≤ r.length then some (r.take n, r.drop n) else none
  | none => none

theorem decB_encB (b r : Bytes) : decB (encB b ++ r) = some (b, r) := by
  unfold decB encB
  rw [List.append_assoc, decN_encN]
  simp

/-- elements of Z/11 -/
def encF (x : ZMod 11) : Bytes := encN x.val

/-- inverse of `encF` on a prefix -/
def decF (b : Bytes) : Option (ZMod 11 × Bytes) :=
  match decN b with
  | some (n, r) => some ((n : ZMod 11), r)
  | none => none

theorem decF_encF (x : ZMod 11) (r : Bytes) : decF (encF x ++ r) = some (x, r) := by
  unfold decF encF
  rw [decN_encN]
  simp

/-- a given number of elements -/
def decFs : Nat → Bytes → Option (List (ZMod 11) × Bytes)
  | 0, b => some ([], b)
  | n + 1, b =>
    match decF b with
    | some (x, r) =>
      match decFs n r with
      | some (l, r') => some (x :: l, r')
      | none => none
    | none => none

theorem decFs_enc (l : List (ZMod 11)) (r : Bytes) :
    decFs l.length ((l.map encF).flatten ++ r) = some (l, r) := by
  induction l with
  | nil => rfl
  | cons x l ih =>
    simp only [List.length_cons, decFs, List.map_cons, List.flatten_cons, List.append_assoc,
      decF_encF, ih]

/-- lists of elements -/
def encL (l : List (ZMod 11)) : Bytes := encN l.length ++ (l.map encF).flatten

/-- inverse of `encL` on a prefix -/
def decL (b : Bytes) : Option (List (ZMod 11) × Bytes) :=
  match decN b with
  | some (n, r) => decFs n r
  | none => none

theorem decL_encL (l : List (ZMod 11)) (r : Bytes) : decL (encL l ++ r) = some (l, r) := by
  unfold decL encL
  rw [List.append_assoc, decN_encN]
  simp only [decFs_enc]

/-- serialisation of the deals of the Pedersen VSS -/
def codecP : VssP.Codec (ZMod 11) (ZMod 11) where
  enc d := encB d.sessionId ++ (encN d.secShare.i ++ (encF d.secShare.v ++ (encN d.t ++
    (encL d.commitments ++ []))))
  dec b := do
    let (sid, b) ← decB b
    let (i, b) ← decN b
    let (v, b) ← decF b
    let (t, b) ← decN b
    let (cs, _) ← decL b
    some ⟨sid, ⟨i, v⟩, t, cs⟩

theorem codecP_lawful (d : VssP.Deal (ZMod 11) (ZMod 11)) :
    codecP.dec (codecP.enc d) = some d := by
  simp only [codecP, decB_encB, Option.bind_eq_bind, Option.bind_some, decN_encN, decF_encF,
    decL_encL]

/-- The environment of the Pedersen VSS examples. -/
def envP : VssP.Env (ZMod 11) (ZMod 11) := ⟨suite, prims, codecP⟩

end Kyber.Toy
