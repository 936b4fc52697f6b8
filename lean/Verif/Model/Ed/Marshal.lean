/-
Model of `src/group/internal/marshalling/marshal.rs`: writing to a stream and reading from one, for the
three types that implement `Marshaling` (points and scalars of edwards25519, modular integers).
-/
import Verif.Model.Ed.Ge
import Verif.Model.Ed.Scalar
import Verif.Model.Random

namespace Kyber.Ed

open Kyber Kyber.ModInt

/-- `MarshallingError`, encodings.rs:28-38, as far as it is returned here. -/
inductive MarshErr where
  | io
  | invalid
  deriving DecidableEq, Repr

/-- A value of a type that implements `Marshaling`, encodings.rs:12-27. -/
inductive Obj where
  | point (p : Ext)
  | scalar (s : Bytes)
  | int (a : MInt)

/-- `marshal_size`: point.rs:58-60, scalar.rs:229-231, integer.rs:287-289. -/
def Obj.size : Obj → Nat
  | .point _ => 32
  | .scalar _ => 32
  | .int a => a.marshalSize

/-- `marshal_binary`: point.rs:36-41, scalar.rs:92-99, integer.rs:232-250. -/
def Obj.marshal : Obj → Res MarshErr Bytes
  | .point p => .ok (ptMarshal p)
  | .scalar s => Res.mapErr (fun _ => MarshErr.invalid) (scMarshal s)
  | .int a => Res.mapErr (fun _ => MarshErr.invalid) a.marshal

/-- `unmarshal_binary`: point.rs:43-50, scalar.rs:103-111, integer.rs:257-275. -/
def Obj.unmarshal (self : Obj) (data : Bytes) : Obj × Res MarshErr Unit :=
  match self with
  | .point p =>
    let r := ptUnmarshal p data
    (.point r.1, if r.2 then .ok () else .err .invalid)
  | .scalar s =>
    let r := scUnmarshal s data
    (.scalar r.1, Res.mapErr (fun _ => MarshErr.invalid) r.2)
  | .int a =>
    let r := a.unmarshal data
    (.int r.1, Res.mapErr (fun _ => MarshErr.invalid) r.2)

/-- `point_marshal_to`, `scalar_marshal_to`, marshal.rs:7-11 and 30-34. The writers that occur, `Vec<u8>`
and hash functions, append and do not fail. -/
def Obj.marshalTo (o : Obj) (w : Bytes) : Res MarshErr Bytes := do
  let buf ← o.marshal
  .ok (w ++ buf)

/-- `Read::read_exact` of the standard library: the new state of the reader, and the bytes unless it
fails. -/
structure ReadExact (ρ : Type) where
  read : ρ → Nat → ρ × Option Bytes

/-- A slice or a file. What remains after a failure is not specified by the standard library; here
nothing. -/
def sliceReader : ReadExact Bytes where
  read r n := if r.length < n then ([], none) else (r.drop n, some (r.take n))

/-- An XOF, xof.rs:75-87; it never fails. -/
def xofReader (H : Rand.XofFn) : ReadExact Rand.Xof where
  read x n := let r := x.read H n; (r.1, some r.2)

/-- `point_unmarshal_from`, `scalar_unmarshal_from`, marshal.rs:16-20 and 39-46: the receiver, the reader,
the result. -/
def Obj.unmarshalFrom {ρ : Type} (R : ReadExact ρ) (self : Obj) (r : ρ) : Obj × ρ × Res MarshErr Unit :=
  match R.read r self.size with
  | (r', none) => (self, r', .err .io)
  | (r', some buf) =>
    let u := self.unmarshal buf
    (u.1, r', u.2)

end Kyber.Ed
