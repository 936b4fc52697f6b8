/-
Scalars modulo the order of the base point, `src/group/edwards25519/scalar.rs`.

A `Scalar` is 32 bytes. The four reduction programs of `sc_mul_add`, `sc_add`, `sc_sub` and `sc_mul`
consist of the same statements; they are transcribed once. Formatting and serde are not modelled.
-/
import Verif.Model.Ed.Limb
import Verif.Model.Int
import Verif.Model.Random

namespace Kyber.Ed

open Kyber Kyber.ModInt

/-- `PRIME_ORDER`, constants.rs:23-27. -/
def L : Nat := 7237005577332262213973186563042994240857116359379907606001950938285454250989

/-- `L_MINUS2`, constants.rs:29-33. -/
def lMinus2 : Nat := 7237005577332262213973186563042994240857116359379907606001950938285454250987

/-- `FULL_ORDER`, constants.rs:35-41. -/
def fullOrder : Nat := L * 8

/-- The twelve limbs of 21 bits of an operand, scalar.rs:280-291 (and 292-315, 760-783, 1188-1211,
1597-1620). -/
def scLimbs (a : Bytes) : List Int :=
  [((2097151 &&& load3 a 0 : Nat) : Int), ((2097151 &&& (load4 a 2 >>> 5) : Nat) : Int),
   ((2097151 &&& (load3 a 5 >>> 2) : Nat) : Int), ((2097151 &&& (load4 a 7 >>> 7) : Nat) : Int),
   ((2097151 &&& (load4 a 10 >>> 4) : Nat) : Int), ((2097151 &&& (load3 a 13 >>> 1) : Nat) : Int),
   ((2097151 &&& (load4 a 15 >>> 6) : Nat) : Int), ((2097151 &&& (load3 a 18 >>> 3) : Nat) : Int),
   ((2097151 &&& load3 a 21 : Nat) : Int), ((2097151 &&& (load4 a 23 >>> 5) : Nat) : Int),
   ((2097151 &&& (load3 a 26 >>> 2) : Nat) : Int), ((load4 a 28 >>> 7 : Nat) : Int)]

/-- The sums `s0` to `s23` of sc_mul_add and sc_mul, scalar.rs:318-403, 1635-1720:
`s_k = c_k + a_0 * b_k + ... + a_k * b_0`, where limbs beyond the eleventh are absent. -/
def scConv (a b c : List Int) : List Int :=
  (List.range 24).map (fun k =>
    wrap 64 (limb c k + ((List.range (k + 1)).map (fun i => limb a i * limb b (k - i))).sum))

/-- The limbs of the constant that sc_sub adds, scalar.rs:1214-1237: sixteen times the order. -/
def subConst : List Int :=
  [1916624, 863866, 18828, 1284811, 2007799, 456654, 5, 0, 0, 0, 0, 0, 16, 0, 0, 0, 0, 0, 0, 0, 0, 0, 0, 0]

/-- The reduction of sc_mul_add (scalar.rs:405-709), sc_add (811-1136), sc_sub (1239-1546) and
sc_mul (1722-2047). -/
def reduceOps : List LOp :=
  [.carry 0 1 21 1 true, .carry 2 3 21 1 true, .carry 4 5 21 1 true, .carry 6 7 21 1 true,
   .carry 8 9 21 1 true, .carry 10 11 21 1 true, .carry 12 13 21 1 true, .carry 14 15 21 1 true,
   .carry 16 17 21 1 true, .carry 18 19 21 1 true, .carry 20 21 21 1 true, .carry 22 23 21 1 true,
   .carry 1 2 21 1 true, .carry 3 4 21 1 true, .carry 5 6 21 1 true, .carry 7 8 21 1 true,
   .carry 9 10 21 1 true, .carry 11 12 21 1 true, .carry 13 14 21 1 true, .carry 15 16 21 1 true,
   .carry 17 18 21 1 true, .carry 19 20 21 1 true, .carry 21 22 21 1 true,
   .fold 23 [(11, 666643), (12, 470296), (13, 654183), (14, -997805), (15, 136657), (16, -683901)],
   .fold 22 [(10, 666643), (11, 470296), (12, 654183), (13, -997805), (14, 136657), (15, -683901)],
   .fold 21 [(9, 666643), (10, 470296), (11, 654183), (12, -997805), (13, 136657), (14, -683901)],
   .fold 20 [(8, 666643), (9, 470296), (10, 654183), (11, -997805), (12, 136657), (13, -683901)],
   .fold 19 [(7, 666643), (8, 470296), (9, 654183), (10, -997805), (11, 136657), (12, -683901)],
   .fold 18 [(6, 666643), (7, 470296), (8, 654183), (9, -997805), (10, 136657), (11, -683901)],
   .carry 6 7 21 1 true, .carry 8 9 21 1 true, .carry 10 11 21 1 true, .carry 12 13 21 1 true,
   .carry 14 15 21 1 true, .carry 16 17 21 1 true, .carry 7 8 21 1 true, .carry 9 10 21 1 true,
   .carry 11 12 21 1 true, .carry 13 14 21 1 true, .carry 15 16 21 1 true,
   .fold 17 [(5, 666643), (6, 470296), (7, 654183), (8, -997805), (9, 136657), (10, -683901)],
   .fold 16 [(4, 666643), (5, 470296), (6, 654183), (7, -997805), (8, 136657), (9, -683901)],
   .fold 15 [(3, 666643), (4, 470296), (5, 654183), (6, -997805), (7, 136657), (8, -683901)],
   .fold 14 [(2, 666643), (3, 470296), (4, 654183), (5, -997805), (6, 136657), (7, -683901)],
   .fold 13 [(1, 666643), (2, 470296), (3, 654183), (4, -997805), (5, 136657), (6, -683901)],
   .fold 12 [(0, 666643), (1, 470296), (2, 654183), (3, -997805), (4, 136657), (5, -683901)],
   .carry 0 1 21 1 true, .carry 2 3 21 1 true, .carry 4 5 21 1 true, .carry 6 7 21 1 true,
   .carry 8 9 21 1 true, .carry 10 11 21 1 true, .carry 1 2 21 1 true, .carry 3 4 21 1 true,
   .carry 5 6 21 1 true, .carry 7 8 21 1 true, .carry 9 10 21 1 true, .carry 11 12 21 1 true,
   .fold 12 [(0, 666643), (1, 470296), (2, 654183), (3, -997805), (4, 136657), (5, -683901)],
   .carry 0 1 21 1 false, .carry 1 2 21 1 false, .carry 2 3 21 1 false, .carry 3 4 21 1 false,
   .carry 4 5 21 1 false, .carry 5 6 21 1 false, .carry 6 7 21 1 false, .carry 7 8 21 1 false,
   .carry 8 9 21 1 false, .carry 9 10 21 1 false, .carry 10 11 21 1 false, .carry 11 12 21 1 false,
   .fold 12 [(0, 666643), (1, 470296), (2, 654183), (3, -997805), (4, 136657), (5, -683901)],
   .carry 0 1 21 1 false, .carry 1 2 21 1 false, .carry 2 3 21 1 false, .carry 3 4 21 1 false,
   .carry 4 5 21 1 false, .carry 5 6 21 1 false, .carry 6 7 21 1 false, .carry 7 8 21 1 false,
   .carry 8 9 21 1 false, .carry 9 10 21 1 false, .carry 10 11 21 1 false]

/-- The output bytes, scalar.rs:711-743 (1139-1171, 1548-1580, 2050-2082). -/
def scBytes (h : List Int) : Bytes :=
  [u8 (limb h 0),
   u8 (sar (limb h 0) 8),
   u8 (sar (limb h 0) 16) ||| u8 (limb h 1 * 2 ^ 5),
   u8 (sar (limb h 1) 3),
   u8 (sar (limb h 1) 11),
   u8 (sar (limb h 1) 19) ||| u8 (limb h 2 * 2 ^ 2),
   u8 (sar (limb h 2) 6),
   u8 (sar (limb h 2) 14) ||| u8 (limb h 3 * 2 ^ 7),
   u8 (sar (limb h 3) 1),
   u8 (sar (limb h 3) 9),
   u8 (sar (limb h 3) 17) ||| u8 (limb h 4 * 2 ^ 4),
   u8 (sar (limb h 4) 4),
   u8 (sar (limb h 4) 12),
   u8 (sar (limb h 4) 20) ||| u8 (limb h 5 * 2 ^ 1),
   u8 (sar (limb h 5) 7),
   u8 (sar (limb h 5) 15) ||| u8 (limb h 6 * 2 ^ 6),
   u8 (sar (limb h 6) 2),
   u8 (sar (limb h 6) 10),
   u8 (sar (limb h 6) 18) ||| u8 (limb h 7 * 2 ^ 3),
   u8 (sar (limb h 7) 5),
   u8 (sar (limb h 7) 13),
   u8 (limb h 8),
   u8 (sar (limb h 8) 8),
   u8 (sar (limb h 8) 16) ||| u8 (limb h 9 * 2 ^ 5),
   u8 (sar (limb h 9) 3),
   u8 (sar (limb h 9) 11),
   u8 (sar (limb h 9) 19) ||| u8 (limb h 10 * 2 ^ 2),
   u8 (sar (limb h 10) 6),
   u8 (sar (limb h 10) 14) ||| u8 (limb h 11 * 2 ^ 7),
   u8 (sar (limb h 11) 1),
   u8 (sar (limb h 11) 9),
   u8 (sar (limb h 11) 17)]

/-- Reduction and output. -/
def scReduce (h : List Int) : Bytes := scBytes (runOps 64 reduceOps h)

/-- `sc_mul_add`, scalar.rs:279-744. -/
def scMulAdd (a b c : Bytes) : Bytes := scReduce (scConv (scLimbs a) (scLimbs b) (scLimbs c))

/-- `sc_mul`, scalar.rs:1596-2083: the limbs of `c` are zero. -/
def scMul (a b : Bytes) : Bytes := scReduce (scConv (scLimbs a) (scLimbs b) [])

/-- `sc_add`, scalar.rs:759-1172. -/
def scAdd (a c : Bytes) : Bytes :=
  scReduce ((List.range 24).map (fun k => wrap 64 (limb (scLimbs c) k + limb (scLimbs a) k)))

/-- `sc_sub`, scalar.rs:1187-1581. -/
def scSub (a c : Bytes) : Bytes :=
  scReduce ((List.range 24).map (fun k =>
    wrap 64 (limb subConst k - limb (scLimbs c) k + limb (scLimbs a) k)))

/-! ## The `Scalar` type -/

/-- `Scalar::default`, `zero`, scalar.rs:23-31, 156-159. -/
def scZero : Bytes := List.replicate 32 0

/-- `one`, scalar.rs:179-183. -/
def scOne : Bytes := 1 :: List.replicate 31 0

/-- `as_int`, scalar.rs:33-35. -/
def scAsInt (v : Bytes) : Res IntError MInt := newIntBytes v L .littleEndian

/-- `set_int`, scalar.rs:37-43: only the first `b.len()` bytes of the receiver are overwritten. `b`
is never longer than 32 bytes. -/
def scSetInt (self : Bytes) (i : MInt) : Res IntError Bytes :=
  match i.littleEndian 32 32 with
  | .ok b => if self.length < b.length then .panic else .ok (b ++ self.drop b.length)
  | .err _ => .ok scZero
  | .panic => .panic

/-- `set_int64`, scalar.rs:152-154. -/
def scSetInt64 (self : Bytes) (v : Int) : Res IntError Bytes := do
  let i ← newInt64 v L
  scSetInt self i

/-- `set_bytes`, scalar.rs:175-177. -/
def scSetBytes (self : Bytes) (b : Bytes) : Res IntError Bytes := do
  let i ← newIntBytes b L .littleEndian
  scSetInt self i

/-- `pick`, scalar.rs:167-173, given the number that `random_int` drew. -/
def scPickFrom (self : Bytes) (drawn : Int) : Res IntError Bytes := do
  let i ← newInt drawn L
  scSetInt self i

/-- `new_scalar_int`, scalar.rs:2085-2088. -/
def newScalarInt (i : Int) : Res IntError Bytes := do
  let m ← newInt i fullOrder
  scSetInt scZero m

/-- `neg`, scalar.rs:216-221. -/
def scNeg (a : Bytes) : Bytes := scSub scZero a

/-- `get_bits`, scalar.rs:246-264. -/
def getBits (bytes : Bytes) : List Bool :=
  bytes.flatMap (fun b => [1, 2, 4, 8, 16, 32, 64, 128].map (fun m : UInt8 => b &&& m != 0))

/-- One round of the loop of `inv`, scalar.rs:201-210. -/
def invStep (a : Bytes) (res : Bytes) (bit : Bool) : Bytes :=
  let res := scMul res res
  if bit then scMul res a else res

/-- `inv`, scalar.rs:192-214: the 256 bits of `l - 2` from the highest to the lowest. -/
def scInv (a : Bytes) : Bytes :=
  (List.range 256).reverse.foldl
    (fun res i => invStep a res ((getBits (toBytesLE lMinus2)).getD i false)) scOne

/-- `div`, scalar.rs:185-190. -/
def scDiv (a b : Bytes) : Bytes := scMul a (scInv b)

/-- `marshal_binary`, scalar.rs:92-99. -/
def scMarshal (v : Bytes) : Res IntError Bytes := do
  let i ← scAsInt v
  let b ← i.marshal
  .ok ((b ++ List.replicate 32 0).take 32)

/-- `unmarshal_binary`, scalar.rs:103-111. -/
def scUnmarshal (self data : Bytes) : Bytes × Res IntError Unit :=
  if data.length ≠ 32 then (self, .err .wrongSize) else (data, .ok ())

/-- One round of the loop of `is_canonical`, scalar.rs:66-71, on `u16` and `u8` values. -/
def canonStep (st : UInt8 × UInt8) (xl : UInt8 × UInt8) : UInt8 × UInt8 :=
  let (c, n) := st
  (c ||| ((xl.1.toUInt16 - xl.2.toUInt16) >>> 8).toUInt8 &&& n,
   n &&& (((xl.1.toUInt16 ^^^ xl.2.toUInt16) - 1) >>> 8).toUInt8)

/-- `is_canonical`, scalar.rs:54-75. -/
def scIsCanonical (sb : Bytes) : Bool :=
  if sb.length ≠ 32 then false
  else if sb.getD 31 0 &&& 0xf0 = 0 then true
  else ((sb.zip (toBytesLE L)).reverse.foldl canonStep (0, 1)).1 != 0

end Kyber.Ed
