/-
Multiplication of points in variable time, `slide` in `src/group/edwards25519/ge.rs` and
`src/group/edwards25519/ge_mult_vartime.rs`, and the fields of `Point` (`point.rs`) with what the
compiler derives for it: order and serde.

The arrays of `i8` values are lists of integers; `wrap 8` is the arithmetic of `i8`.
-/
import Verif.Model.Ed.Ge

namespace Kyber.Ed

open Kyber Kyber.ModInt

/-- The eight entries for one byte, ge.rs:372-376: `ai as i8`, then `ai & 1` and `ai >>= 1`. -/
def bits8 (v : UInt8) : List Int := (List.range 8).map (fun j => sar (wrap 8 (v.toNat : Int)) j % 2)

/-- The first loop of slide, ge.rs:371-377. -/
def explode (a : Bytes) : List Int := a.flatMap bits8

/-- The loop over `k`, ge.rs:394-400, on the entries from `i + b` on. -/
def carryUp : List Int → List Int
  | [] => []
  | k :: t => if k = 0 then 1 :: t else 0 :: carryUp t

/-- The loop over `b`, ge.rs:387-406, with `n` rounds left: `x` is `r[i]` and `t` are the entries
after it, so that `r[i + b]` is entry `b - 1` of `t`. The entries before `i` are not touched. -/
def clump : Nat → Nat → Int → List Int → Int × List Int
  | 0, _, x, t => (x, t)
  | n + 1, b, x, t =>
    if t.length < b then (x, t)
    else if limb t (b - 1) = 0 then clump n (b + 1) x t
    else if wrap 8 (x + wrap 8 (limb t (b - 1) * 2 ^ b)) ≤ 15 then
      clump n (b + 1) (wrap 8 (x + wrap 8 (limb t (b - 1) * 2 ^ b))) (t.set (b - 1) 0)
    else if -15 ≤ wrap 8 (x - wrap 8 (limb t (b - 1) * 2 ^ b)) then
      clump n (b + 1) (wrap 8 (x - wrap 8 (limb t (b - 1) * 2 ^ b)))
        (t.take (b - 1) ++ carryUp (t.drop (b - 1)))
    else (x, t)

/-- The loop over `i`, ge.rs:384-408, with `n` rounds left, on the entries from `i` on. -/
def slideLoop : Nat → List Int → List Int
  | 0, l => l
  | _ + 1, [] => []
  | n + 1, x :: t =>
    if x = 0 then x :: slideLoop n t
    else (clump 6 1 x t).1 :: slideLoop n (clump 6 1 x t).2

/-- `slide`, ge.rs:369-409. -/
def slide (a : Bytes) : List Int := slideLoop 256 (explode a)

/-- The `match` on a digit, ge_mult_vartime.rs:57-61 and 68-78: `t` is what it leaves for the digit
zero, `u` the point added to. The table has 8 entries; another index panics. -/
def varDigit (ai : List Cached) (t : Comp) (u : Ext) (d : Int) : Res Unit Comp :=
  if 0 < d then
    match ai[(d / 2).toNat]? with
    | some c => .ok (compAdd u c)
    | none => .panic
  else if d < 0 then
    match ai[(-d / 2).toNat]? with
    | some c => .ok (compSub u c)
    | none => .panic
  else .ok t

/-- The loop over the remaining digits, ge_mult_vartime.rs:64-79, from the highest on. -/
def varLoop (ai : List Cached) : List Int → Comp → Res Unit Comp
  | [], t => .ok t
  | d :: ds, t => do
    let t := t.toProj.double
    let t ← varDigit ai t t.toExt d
    varLoop ai ds t

/-- `ge_scalar_mult_vartime`, ge_mult_vartime.rs:11-82. The table is built as in `ge_scalar_mult`,
with twice the point as the step. -/
def scalarMultVar (a : Bytes) (aP : Ext) : Res Unit Ext :=
  let ai := multiples aP.double.toExt 7 aP.toCached
  match (slide a).reverse.dropWhile (fun d => d == 0) with
  | [] => .ok extZero
  | d :: ds => do
    let t ← varDigit ai ⟨feZero, feZero, feZero, feZero⟩ extZero d
    let t ← varLoop ai ds t
    .ok t.toExt

/-- `Point`, point.rs:22-27. -/
structure Pt where
  ge : Ext
  varTime : Bool
  deriving DecidableEq, Repr

/-- `Point::default()`, `Point::new()`, point.rs:22-34. -/
def Pt.new : Pt := ⟨extDefault, false⟩

/-- `mul`, point.rs:207-224: the receiver decides which routine multiplies. -/
def Pt.mul (self : Pt) (s : Bytes) (p : Option Pt) : Res Unit Pt :=
  match p with
  | none => .ok { self with ge := scalarMultBase s }
  | some q =>
    if self.varTime = true then do
      let g ← scalarMultVar s q.ge
      .ok { self with ge := g }
    else .ok { self with ge := scalarMult s q.ge }

/-- `add`, point.rs:179-188: only the group element of the receiver is overwritten. -/
def Pt.add (self p q : Pt) : Pt := { self with ge := ptAdd p.ge q.ge }

/-- `eq`, point.rs:229-240. -/
def Pt.eq (p q : Pt) : Bool := ptEq p.ge q.ge

/-- What `hash`, point.rs:243-249, feeds to the hasher. -/
def Pt.hashed (p : Pt) : Bytes := p.ge.bytes

/-- The order on arrays of `i32` values that the compiler derives: lexicographic. -/
def cmpList : List Int → List Int → Ordering
  | [], [] => .eq
  | [], _ :: _ => .lt
  | _ :: _, [] => .gt
  | x :: xs, y :: ys => (compare x y).then (cmpList xs ys)

/-- `Ord` as derived for `ExtendedGroupElement`, ge.rs:75-83, and `Point`, point.rs:22: field by
field. -/
def Pt.cmp (p q : Pt) : Ordering :=
  (cmpList p.ge.x q.ge.x).then ((cmpList p.ge.y q.ge.y).then ((cmpList p.ge.z q.ge.z).then
    ((cmpList p.ge.t q.ge.t).then (compare p.varTime.toNat q.varTime.toNat))))

/-- An `i32` value in bincode: four bytes, little endian. -/
def i32Bytes (x : Int) : Bytes := leBytes 4 (x % 2 ^ 32).toNat

/-- An `[i32; 10]` value in bincode: the entries one after the other. -/
def feSer (f : Fe) : Bytes := f.flatMap i32Bytes

/-- `encoding::marshal`, encodings.rs:48-51, of a `Point`: the derived `Serialize` writes the fields
in the order of their declaration, a `bool` is one byte. -/
def Pt.ser (p : Pt) : Bytes :=
  feSer p.ge.x ++ feSer p.ge.y ++ feSer p.ge.z ++ feSer p.ge.t ++ [if p.varTime then 1 else 0]

/-- Ten values from 40 bytes. -/
def feDe (b : Bytes) : Fe := (List.range 10).map (fun i => wrap 32 (leNat ((b.drop (4 * i)).take 4) : Int))

/-- `unmarshal_binary`, encodings.rs:53-59, for a `Point`: the derived `Deserialize`. It refuses an
input that is too short and one whose byte for the flag is not 0 or 1; `bincode::deserialize` does not
mind further bytes at the end. Nothing else is looked at. -/
def Pt.de (b : Bytes) : Option Pt :=
  if b.length < 161 then none
  else
    let flag := b.getD 160 0
    if flag = 0 ∨ flag = 1 then
      some ⟨⟨feDe (b.take 40), feDe ((b.drop 40).take 40), feDe ((b.drop 80).take 40),
        feDe ((b.drop 120).take 40)⟩, flag == 1⟩
    else none

end Kyber.Ed
