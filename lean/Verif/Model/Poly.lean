/-
Model of `src/share/poly.rs`.

Simplifications, valid for the whole file:
* `GROUP::SCALAR` is a field `F`, `GROUP::POINT` a type `G` with addition, zero and scalar
  multiplication; `base` is the standard base point (`Point::base`).
* Both arguments of `add`/`equal` have the same group type; the run-time comparison of group
  names (`NoGroupsMatch`) always succeeds and is left out.
* `usize` indices are natural numbers, and `1 + i as i64` is `i + 1`: indices are below
  `2^63 - 1` (`Model/Index.lean` has the machine arithmetic for all indices, and `C114_idealised`
  proves the two equal below that bound).
* Marshalling of scalars and points inside `equal` is injective, so comparing encodings is
  comparing values.
* Scalar division `a.div(b)` is `a / b` of the field, with `a / 0 = 0`; this is also what the
  edwards25519 scalar computes (`0^(l-2) = 0`).
-/
import Verif.Model.Basic
import Mathlib.Algebra.Field.Defs

namespace Kyber.Poly

/-- `PolyError`, poly.rs:670-686. -/
inductive PolyError
  | notEnoughGoodPublics
  | wrongCoefficientsNumber
  | notEnoughSharesForPublic
  | notEnoughSharesForSecret
  deriving DecidableEq, Repr

/-- `PriShare` (poly.rs:36-41) and `PubShare` (poly.rs:373-379): an index and a value. -/
structure Share (α : Type) where
  i : Nat
  v : α
  deriving DecidableEq, Repr

/-- `PriPoly`, poly.rs:67-72; the coefficients, constant term first. -/
structure PriPoly (F : Type) where
  coeffs : List F
  deriving DecidableEq, Repr

/-- `PubPoly`, poly.rs:399-406. -/
structure PubPoly (G : Type) where
  b : Option G
  commits : List G
  deriving DecidableEq, Repr

variable {F G : Type} [Field F]

/-- The x-coordinate of share `i`: `scalar().set_int64(1 + i as i64)`, poly.rs:134, 304, 459. -/
def xc (F : Type) [Field F] (i : Nat) : F := ((i + 1 : Nat) : F)

/-- `new_pri_poly`, poly.rs:90-108. `draws` are the scalars picked from the randomness stream,
in order; the secret is `s` if given, otherwise the first draw. `none`: the stream of draws
given to the model is too short. -/
def newPriPoly (t : Nat) (s : Option F) (draws : List F) : Option (PriPoly F) :=
  match s, draws with
  | some v, ds => if t - 1 ≤ ds.length then some ⟨v :: ds.take (t - 1)⟩ else none
  | none, d :: ds => if t - 1 ≤ ds.length then some ⟨d :: ds.take (t - 1)⟩ else none
  | none, [] => none

/-- `PriPoly::threshold`, poly.rs:123-125. -/
def PriPoly.threshold (p : PriPoly F) : Nat := p.coeffs.length

/-- `PriPoly::secret`, poly.rs:128-130; `coeffs[0]` panics on an empty polynomial. -/
def PriPoly.secret (p : PriPoly F) : Res PolyError F := Res.unwrap p.coeffs.head?

/-- `PriPoly::eval`, poly.rs:133-141: Horner's rule from the highest coefficient down. -/
def PriPoly.eval (p : PriPoly F) (i : Nat) : Share F :=
  ⟨i, p.coeffs.foldr (fun c v => v * xc F i + c) 0⟩

/-- `PriPoly::shares`, poly.rs:144-150. -/
def PriPoly.shares (p : PriPoly F) (n : Nat) : List (Option (Share F)) :=
  (List.range n).map (fun i => some (p.eval i))

/-- `PriPoly::add`, poly.rs:154-170. -/
def PriPoly.add (p q : PriPoly F) : Res PolyError (PriPoly F) :=
  if p.threshold ≠ q.threshold then .err .wrongCoefficientsNumber
  else .ok ⟨List.zipWith (· + ·) p.coeffs q.coeffs⟩

/-- `PriPoly::equal`, poly.rs:176-191. -/
def PriPoly.equal [DecidableEq F] (p q : PriPoly F) : Res PolyError Bool :=
  if p.coeffs.length ≠ q.coeffs.length then .ok false
  else .ok ((List.zipWith (fun a b => decide (a = b)) p.coeffs q.coeffs).foldl (· && ·) true)

/-- `PriPoly::commit`, poly.rs:195-206; `base` is used when no base point is given. -/
def PriPoly.commit [SMul F G] (base : G) (p : PriPoly F) (b : Option G) : PubPoly G :=
  ⟨b, p.coeffs.map (fun c => c • b.getD base)⟩

/-- `coeffs[k] = coeffs[k] + v`: panics when out of range. -/
def addAt (l : List F) (k : Nat) (v : F) : Res PolyError (List F) :=
  match l[k]? with
  | some c => .ok (l.set k (c + v))
  | none => .panic

/-- `PriPoly::mul`, poly.rs:213-232. Arithmetic on lengths wraps: `new_degree + 1` is
`len p + len q - 1`; when both operands are empty it is `usize::MAX` and the allocation
panics (capacity overflow). -/
def PriPoly.mul (p q : PriPoly F) : Res PolyError (PriPoly F) :=
  if p.coeffs.length = 0 ∧ q.coeffs.length = 0 then .panic
  else do
    let init := List.replicate (p.coeffs.length + q.coeffs.length - 1) (0 : F)
    let out ← p.coeffs.zipIdx.foldlM (fun acc ci =>
      q.coeffs.zipIdx.foldlM (fun acc cj => addAt acc (ci.2 + cj.2) (ci.1 * cj.1)) acc) init
    .ok ⟨out⟩

/-- Loop of `xy_scalar` (poly.rs:302-309) and `xy_commit` (poly.rs:553-560) over the sorted
shares: insert both coordinates, stop as soon as `t` distinct indices are present. -/
def xyLoop {α : Type} (F : Type) [Field F] (t : Nat) :
    List (Share α) → AMap F → AMap α → AMap F × AMap α
  | [], x, y => (x, y)
  | s :: ss, x, y =>
    let x' := x.insert s.i (xc F s.i)
    let y' := y.insert s.i s.v
    if x'.length = t then (x', y') else xyLoop F t ss x' y'

/-- Insert a share before the first one with an index at least as large. -/
def insertShare {α : Type} (s : Share α) : List (Share α) → List (Share α)
  | [] => [s]
  | b :: l => if s.i ≤ b.i then s :: b :: l else b :: insertShare s l

/-- `sort_by` on the index (poly.rs:293-299, 544-550): the stable sort. -/
def sortShares {α : Type} : List (Share α) → List (Share α)
  | [] => []
  | s :: l => insertShare s (sortShares l)

/-- `xy_scalar` (poly.rs:283-311) and `xy_commit` (poly.rs:534-562): drop the `None`s, sort by
index (`sort_by` is stable), collect. -/
def xy {α : Type} (F : Type) [Field F] (shares : List (Option (Share α))) (t : Nat) :
    AMap F × AMap α :=
  xyLoop F t (sortShares (shares.filterMap _root_.id)) [] []

/-- Inner loop of `recover_secret` (poly.rs:264-271) and `recover_commit` (poly.rs:587-594):
numerator and denominator of the Lagrange coefficient at 0. -/
def lagNumDen (num0 : F) (xs : List (Nat × F)) (i : Nat) (xi : F) : F × F :=
  xs.foldl (fun nd e => if i = e.1 then nd else (nd.1 * e.2, nd.2 * (e.2 - xi))) (num0, 1)

/-- `recover_secret`, poly.rs:244-278. -/
def recoverSecret (ord : MapOrder) (shares : List (Option (Share F))) (t : Nat) :
    Res PolyError F :=
  let (x, y) := xy F shares t
  if x.length < t then .err .notEnoughSharesForSecret
  else (ord.run x).foldlM (fun acc e => do
    let yi ← Res.unwrap (y.get e.1)
    let nd := lagNumDen yi (ord.run x) e.1 e.2
    .ok (acc + nd.1 / nd.2)) 0

/-- `recover_commit`, poly.rs:566-603. -/
def recoverCommit [Add G] [Zero G] [SMul F G] (ord : MapOrder)
    (shares : List (Option (Share G))) (t : Nat) : Res PolyError G :=
  let (x, y) := xy F shares t
  if x.length < t then .err .notEnoughGoodPublics
  else (ord.run x).foldlM (fun acc e => do
    let yi ← Res.unwrap (y.get e.1)
    let nd := lagNumDen 1 (ord.run x) e.1 e.2
    .ok (acc + (nd.1 / nd.2) • yi)) 0

/-- `minus_const`, poly.rs:313-319: the polynomial `X - c`. -/
def minusConst (c : F) : PriPoly F := ⟨[-c, 1]⟩

/-- `lagrange_basis`, poly.rs:640-668; `xs[&i]` panics if `i` is not a key and there is
another key. -/
def lagrangeBasis (ord : MapOrder) (i : Nat) (xs : AMap F) : Res PolyError (PriPoly F) := do
  let r ← (ord.run xs).foldlM (fun (s : PriPoly F × F) e =>
    if i = e.1 then .ok s
    else do
      let b ← s.1.mul (minusConst e.2)
      let xi ← Res.unwrap (xs.get i)
      .ok (b, s.2 * (xi - e.2)⁻¹)) ((⟨[1]⟩ : PriPoly F), (1 : F))
  .ok ⟨r.1.coeffs.map (· * r.2)⟩

/-- `recover_pri_poly`, poly.rs:326-359. -/
def recoverPriPoly (ord : MapOrder) (shares : List (Option (Share F))) (t : Nat) :
    Res PolyError (PriPoly F) :=
  let (x, y) := xy F shares t
  if x.length ≠ t then .err .notEnoughSharesForPublic
  else (ord.run x).foldlM (fun (acc : PriPoly F) e => do
    let basis ← lagrangeBasis ord e.1 x
    let yj ← Res.unwrap (y.get e.1)
    let basis : PriPoly F := ⟨basis.coeffs.map (· * yj)⟩
    if acc.coeffs.isEmpty then .ok basis else acc.add basis) ⟨[]⟩

/-- `PubPoly::threshold`, poly.rs:447-449. -/
def PubPoly.threshold (p : PubPoly G) : Nat := p.commits.length

/-- `PubPoly::commit`, poly.rs:452-454. -/
def PubPoly.commit (p : PubPoly G) : Res PolyError G := Res.unwrap p.commits.head?

/-- `PubPoly::eval`, poly.rs:457-469. On an empty polynomial `threshold() - 1` wraps to
`usize::MAX` and the first access `commits[usize::MAX]` panics. -/
def PubPoly.eval (F : Type) [Field F] [Add G] [Zero G] [SMul F G] (p : PubPoly G)
    (i : Nat) : Res PolyError (Share G) :=
  if p.commits.length = 0 then .panic
  else .ok ⟨i, p.commits.foldr (fun c v => xc F i • v + c) 0⟩

/-- `PubPoly::shares`, poly.rs:472-478. -/
def PubPoly.shares (F : Type) [Field F] [Add G] [Zero G] [SMul F G] (p : PubPoly G) (n : Nat) :
    Res PolyError (List (Option (Share G))) :=
  (List.range n).mapM (fun i => do
    let s ← p.eval F i
    pure (some s))

/-- `PubPoly::add`, poly.rs:486-505; the base point of the first operand is kept. -/
def PubPoly.add [Add G] (p q : PubPoly G) : Res PolyError (PubPoly G) :=
  if p.threshold ≠ q.threshold then .err .wrongCoefficientsNumber
  else .ok ⟨p.b, List.zipWith (· + ·) p.commits q.commits⟩

/-- `PubPoly::equal`, poly.rs:511-523: the loop runs over the commitments of `p` only, and
`q.commits[i]` panics if `q` is shorter. -/
def PubPoly.equal [DecidableEq G] (p q : PubPoly G) : Res PolyError Bool :=
  p.commits.zipIdx.foldlM (fun b ci => do
    let qi ← Res.unwrap (q.commits[ci.2]?)
    .ok (b && decide (ci.1 = qi))) true

/-- `PubPoly::check`, poly.rs:526-530. -/
def PubPoly.check (base : G) [Add G] [Zero G] [SMul F G] [DecidableEq G] (p : PubPoly G)
    (s : Share F) : Res PolyError Bool := do
  let pv ← p.eval F s.i
  .ok (decide (pv.v = s.v • p.b.getD base))

/-- `recover_pub_poly`, poly.rs:607-635. The loop variable `j` is the *position* in the
iteration (`enumerate()`), and it is used as a share index in `lagrange_basis` and `y[&j]`. -/
def recoverPubPoly [Add G] [Zero G] [SMul F G] (base : G) (ord : MapOrder)
    (shares : List (Option (Share G))) (t : Nat) : Res PolyError (PubPoly G) :=
  let (x, y) := xy F shares t
  if x.length < t then .err .notEnoughGoodPublics
  else (ord.run x).zipIdx.foldlM (fun (acc : PubPoly G) ej => do
    let basis ← lagrangeBasis ord ej.2 x
    let yj ← Res.unwrap (y.get ej.2)
    let tmp := basis.commit base (some yj)
    if acc.commits.isEmpty then .ok tmp else acc.add tmp) ⟨none, []⟩

end Kyber.Poly
