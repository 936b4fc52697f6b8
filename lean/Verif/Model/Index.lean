/-
The index arithmetic of `src/share/poly.rs` as the machine does it.

`Model/Poly.lean` computes the x-coordinate of share `i` as `i + 1`. Here the casts and the additions
are those of a 64-bit machine without overflow checks (`Cargo.toml`, `[profile.dev]`,
`overflow-checks = false`; the release profile has none by default). Everything else is as in
`Model/Poly.lean`.
-/
import Verif.Model.Poly

namespace Kyber.Poly

/-- The number of values of `usize`. -/
def USIZE : Nat := 2 ^ 64

/-- `x as i64` for a `usize` `x`, and the wrap-around of an `i64` result: the representative between
`-2^63` and `2^63 - 1`. -/
def asI64 (z : Int) : Int := (z + 2 ^ 63) % 2 ^ 64 - 2 ^ 63

/-- `1 + i as i64`, poly.rs:134 and poly.rs:459: the cast first, then the addition of `i64`. -/
def evalCoord (i : Nat) : Int := asI64 (1 + asI64 i)

/-- `(idx + 1) as i64`, poly.rs:304 and poly.rs:555: the addition of `usize` first, then the cast. -/
def recoverCoord (i : Nat) : Int := asI64 (((i + 1) % USIZE : Nat) : Int)

variable {F G : Type} [Field F]

/-- `PriPoly::eval`, poly.rs:133-141. `set_int64` takes the residue of the integer
(`C51_set_int64_partial` for the scalars of edwards25519). -/
def PriPoly.eval64 (p : PriPoly F) (i : Nat) : Share F :=
  ⟨i, p.coeffs.foldr (fun c v => v * (evalCoord i : F) + c) 0⟩

/-- `PubPoly::eval`, poly.rs:457-469. -/
def PubPoly.eval64 (F : Type) [Field F] [Add G] [Zero G] [SMul F G] (p : PubPoly G)
    (i : Nat) : Res PolyError (Share G) :=
  if p.commits.length = 0 then .panic
  else .ok ⟨i, p.commits.foldr (fun c v => (evalCoord i : F) • v + c) 0⟩

/-- Loop of `xy_scalar` (poly.rs:302-309) and `xy_commit` (poly.rs:553-560). -/
def xyLoop64 {α : Type} (F : Type) [Field F] (t : Nat) :
    List (Share α) → AMap F → AMap α → AMap F × AMap α
  | [], x, y => (x, y)
  | s :: ss, x, y =>
    let x' := x.insert s.i (recoverCoord s.i : F)
    let y' := y.insert s.i s.v
    if x'.length = t then (x', y') else xyLoop64 F t ss x' y'

/-- `xy_scalar` (poly.rs:283-311) and `xy_commit` (poly.rs:534-562). -/
def xy64 {α : Type} (F : Type) [Field F] (shares : List (Option (Share α))) (t : Nat) :
    AMap F × AMap α :=
  xyLoop64 F t (sortShares (shares.filterMap _root_.id)) [] []

/-- `recover_secret`, poly.rs:244-278. -/
def recoverSecret64 (ord : MapOrder) (shares : List (Option (Share F))) (t : Nat) :
    Res PolyError F :=
  let (x, y) := xy64 F shares t
  if x.length < t then .err .notEnoughSharesForSecret
  else (ord.run x).foldlM (fun acc e => do
    let yi ← Res.unwrap (y.get e.1)
    let nd := lagNumDen yi (ord.run x) e.1 e.2
    .ok (acc + nd.1 / nd.2)) 0

/-- `recover_commit`, poly.rs:566-603. -/
def recoverCommit64 [Add G] [Zero G] [SMul F G] (ord : MapOrder)
    (shares : List (Option (Share G))) (t : Nat) : Res PolyError G :=
  let (x, y) := xy64 F shares t
  if x.length < t then .err .notEnoughGoodPublics
  else (ord.run x).foldlM (fun acc e => do
    let yi ← Res.unwrap (y.get e.1)
    let nd := lagNumDen 1 (ord.run x) e.1 e.2
    .ok (acc + (nd.1 / nd.2) • yi)) 0

/-- `recover_pri_poly`, poly.rs:326-359. -/
def recoverPriPoly64 (ord : MapOrder) (shares : List (Option (Share F))) (t : Nat) :
    Res PolyError (PriPoly F) :=
  let (x, y) := xy64 F shares t
  if x.length ≠ t then .err .notEnoughSharesForPublic
  else (ord.run x).foldlM (fun (acc : PriPoly F) e => do
    let basis ← lagrangeBasis ord e.1 x
    let yj ← Res.unwrap (y.get e.1)
    let basis : PriPoly F := ⟨basis.coeffs.map (· * yj)⟩
    if acc.coeffs.isEmpty then .ok basis else acc.add basis) ⟨[]⟩

/-- `recover_pub_poly`, poly.rs:607-635. -/
def recoverPubPoly64 [Add G] [Zero G] [SMul F G] (base : G) (ord : MapOrder)
    (shares : List (Option (Share G))) (t : Nat) : Res PolyError (PubPoly G) :=
  let (x, y) := xy64 F shares t
  if x.length < t then .err .notEnoughGoodPublics
  else (ord.run x).zipIdx.foldlM (fun (acc : PubPoly G) ej => do
    let basis ← lagrangeBasis ord ej.2 x
    let yj ← Res.unwrap (y.get ej.2)
    let tmp := basis.commit base (some yj)
    if acc.commits.isEmpty then .ok tmp else acc.add tmp) ⟨none, []⟩

end Kyber.Poly
