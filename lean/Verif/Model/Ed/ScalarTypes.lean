/-
The two further scalar types that the crate exports, `SimpleCTScalar` and `FactoredScalar`,
`src/group/edwards25519/scalar_test_types.rs` (exported in mod.rs:24 of the same directory, outside of
`cfg(test)`).

Both are structures around a `Scalar` and are modelled by its 32 bytes. `Debug`, `Display` and the hexadecimal
forms are not modelled, and neither are the benchmark functions at the end of the file. `Eq`, `Ord` and `PartialOrd`
are derived from those of `Scalar`.
-/
import Verif.Model.Ed.Scalar
import Verif.Model.Ed.Marshal
import Verif.Model.Ed.Bincode

namespace Kyber.Ed

open Kyber Kyber.ModInt

/-! ## Factored reduction -/

/-- `do_carry_uncentered`, scalar_test_types.rs:339-343. -/
def doCarryUncentered (i : Nat) : LOp := .carry i (i + 1) 21 1 false

/-- `do_carry_centered`, scalar_test_types.rs:347-351. -/
def doCarryCentered (i : Nat) : LOp := .carry i (i + 1) 21 1 true

/-- `do_reduction`, scalar_test_types.rs:353-361. -/
def doReduction (i : Nat) : LOp :=
  .fold i [(i - 12, 666643), (i - 11, 470296), (i - 10, 654183), (i - 9, -997805), (i - 8, 136657), (i - 7, -683901)]

/-- `sc_reduce_limbs`, scalar_test_types.rs:363-412. The first loop goes over all of `0..23`, and the second loop
after the twelve reductions over the even numbers again (`x % 2 != 1`). -/
def factOps : List LOp :=
  (List.range' 0 23).map doCarryCentered ++
  ((List.range' 1 22).filter (fun x => x % 2 ≠ 0)).map doCarryCentered ++
  [23, 22, 21, 20, 19, 18].map doReduction ++
  ((List.range' 6 12).filter (fun x => x % 2 = 0)).map doCarryCentered ++
  ((List.range' 6 10).filter (fun x => x % 2 ≠ 0)).map doCarryCentered ++
  [17, 16, 15, 14, 13, 12].map doReduction ++
  ((List.range' 0 12).filter (fun x => x % 2 = 0)).map doCarryCentered ++
  ((List.range' 0 12).filter (fun x => x % 2 ≠ 1)).map doCarryCentered ++
  [doReduction 12] ++
  (List.range' 0 12).map doCarryUncentered ++
  [doReduction 12] ++
  (List.range' 0 11).map doCarryUncentered

/-- `sc_add_fact`, scalar_test_types.rs:414-455. The result are the bytes `_s` points to and the local array `limbs`
at the end. The array is not written to `_s`. -/
def scAddFact (s a c : Bytes) : Bytes × List Int :=
  let limbs := (List.range 24).map (fun k => wrap 64 (limb (scLimbs c) k + limb (scLimbs a) k))
  (s, runOps 64 factOps limbs)

/-- `sc_mul_fact`, scalar_test_types.rs:457-583; as `sc_add_fact`. -/
def scMulFact (s a b : Bytes) : Bytes × List Int :=
  (s, runOps 64 factOps (scConv (scLimbs a) (scLimbs b) []))

/-- `sc_sub_fact`, scalar_test_types.rs:585-627; as `sc_add_fact`. -/
def scSubFact (s a c : Bytes) : Bytes × List Int :=
  let limbs := (List.range 24).map (fun k => wrap 64 (limb subConst k - limb (scLimbs c) k + limb (scLimbs a) k))
  (s, runOps 64 factOps limbs)

/-! ## The types as implementations of the trait `Scalar` -/

/-- `ONE`, scalar_test_types.rs:21. -/
def ONE : Res IntError Bytes := scSetInt64 scZero 1

/-- `ZERO`, scalar_test_types.rs:22. -/
def ZERO : Bytes := scZero

/-- `MINUS_ONE`, scalar_test_types.rs:23-27. -/
def MINUS_ONE : Res IntError Bytes := scSetBytes scZero
  [0xec, 0xd3, 0xf5, 0x5c, 0x1a, 0x63, 0x12, 0x58, 0xd6, 0x9c, 0xf7, 0xa2, 0xde, 0xf9, 0xde, 0x14, 0x00, 0x00, 0x00,
   0x00, 0x00, 0x00, 0x00, 0x00, 0x00, 0x00, 0x00, 0x00, 0x00, 0x00, 0x00, 0x10]

/-- The three types that implement the trait `Scalar` for edwards25519. -/
inductive ScType where
  | scalar
  | simple
  | factored
  deriving DecidableEq, Repr

namespace ScType

/-- `a * b`: scalar.rs:132-136, scalar_test_types.rs:105-112, 261-267. -/
def mul (a b : Bytes) : ScType → Res IntError Bytes
  | scalar => .ok (scMul a b)
  | simple => .ok (scMulAdd a b ZERO)
  | factored => .ok (scMulFact scZero a b).1

/-- `a + b`: scalar.rs:138-142, scalar_test_types.rs:114-119, 269-273. -/
def add (a b : Bytes) : ScType → Res IntError Bytes
  | scalar => .ok (scAdd a b)
  | simple => do
    let one ← ONE
    .ok (scMulAdd a one b)
  | factored => .ok (scAddFact scZero a b).1

/-- `self.sub(s1, s2)`: scalar.rs:162-165, scalar_test_types.rs:160-165, 314-318. -/
def sub (self s1 s2 : Bytes) : ScType → Res IntError Bytes
  | scalar => .ok (scSub s1 s2)
  | simple => do
    let m ← MINUS_ONE
    .ok (scMulAdd m s1 s2)
  | factored => .ok (scSubFact self s1 s2).1

/-- `self.neg(a)`: scalar.rs:216-221, scalar_test_types.rs:181-183, 334-336. -/
def neg (_self a : Bytes) : ScType → Bytes
  | _ => scNeg a

/-- `self.inv(a)`: scalar.rs:192-214, scalar_test_types.rs:177-179, 330-332. -/
def inv (_self a : Bytes) : ScType → Bytes
  | _ => scInv a

/-- `self.div(a, b)`: scalar.rs:185-190, scalar_test_types.rs:171-175, 324-328. -/
def div (_self a b : Bytes) : ScType → Bytes
  | _ => scDiv a b

/-- `self.set_int64(v)`: scalar.rs:152-154, scalar_test_types.rs:141-144, 295-298. -/
def setInt64 (self : Bytes) (v : Int) : ScType → Res IntError Bytes
  | _ => scSetInt64 self v

/-- `self.set_bytes(b)`: scalar.rs:175-177, scalar_test_types.rs:156-159, 310-313. -/
def setBytes (self b : Bytes) : ScType → Res IntError Bytes
  | _ => scSetBytes self b

/-- `self.pick(rand)`, given the number that `random_int` drew: scalar.rs:167-173, scalar_test_types.rs:151-154,
305-308. -/
def pickFrom (self : Bytes) (drawn : Int) : ScType → Res IntError Bytes
  | _ => scPickFrom self drawn

/-- `marshal_binary`: scalar.rs:92-99; bincode for the two others, scalar_test_types.rs:78-80, 234-236. -/
def marshal (v : Bytes) : ScType → Res IntError Bytes
  | scalar => scMarshal v
  | _ => .ok (binScalar.marshal v)

/-- `unmarshal_binary`, the new value and whether there was no error: scalar.rs:103-111; bincode for the two others,
scalar_test_types.rs:84-86, 240-242. -/
def unmarshal (self data : Bytes) : ScType → Bytes × Bool
  | scalar => ((scUnmarshal self data).1, (scUnmarshal self data).2 == .ok ())
  | _ =>
    match binScalar.unmarshal data with
    | some v => (v, true)
    | none => (self, false)

/-- `marshal_to`: scalar.rs:225-227; the two others call that of the `Scalar` inside, scalar_test_types.rs:56-58,
212-214. -/
def marshalTo (v w : Bytes) : ScType → Res MarshErr Bytes
  | _ => (Obj.scalar v).marshalTo w

end ScType

end Kyber.Ed
