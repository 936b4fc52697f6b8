/-
Model of `src/group/integer_field/integer.rs`: modular integers.

`BigInt` is an integer. `%` on `BigInt` truncates towards zero (`Int.tmod`); it panics on a zero
divisor. The text forms are in `Model/Text.lean`; serde is in `Model/IntSerde.lean`.
-/
import Verif.Model.Suite
import Mathlib.Data.Int.GCD
import Mathlib.Data.Nat.Sqrt
import Mathlib.NumberTheory.LegendreSymbol.JacobiSymbol

namespace Kyber.ModInt

open Kyber

/-- `BigInt::bits` for the absolute value (num-bigint-dig). -/
def bitLen (n : Nat) : Nat := if n = 0 then 0 else Nat.log2 n + 1

/-- `n` as exactly `len` little-endian bytes, dropping higher digits. -/
def leBytes : Nat → Nat → Bytes
  | 0, _ => []
  | len + 1, n => UInt8.ofNat (n % 256) :: leBytes len (n / 256)

/-- The number that little-endian bytes stand for. -/
def leNat : Bytes → Nat
  | [] => 0
  | b :: bs => b.toNat + 256 * leNat bs

/-- `BigInt::from_bytes_be(Plus, _)`. -/
def beNat (bs : Bytes) : Nat := leNat bs.reverse

/-- `BigInt::to_bytes_le`: no superfluous zero bytes, but `[0]` for zero; the sign is dropped. -/
def toBytesLE (n : Nat) : Bytes := leBytes (if n = 0 then 1 else (bitLen n + 7) / 8) n

/-- `BigInt::to_bytes_be`. -/
def toBytesBE (n : Nat) : Bytes := (toBytesLE n).reverse

/-- integer.rs:30-34 -/
inductive ByteOrder where
  | littleEndian
  | bigEndian
  deriving DecidableEq, Repr

/-- `struct Int`, integer.rs:72-79 -/
structure MInt where
  v : Int
  m : Int
  bo : ByteOrder
  deriving DecidableEq, Repr

/-- integer.rs:531-541, with the two messages of `unmarshal_binary`. -/
inductive IntError where
  | notRepresentable
  | imaginaryRoot
  | wrongSize
  | outOfRange
  deriving DecidableEq, Repr

/-- `a % b` on `BigInt`: truncated; panics when `b = 0`. -/
def rem (a b : Int) : Res IntError Int := if b = 0 then .panic else .ok (a.tmod b)

/-- `Int::default`, integer.rs:81-89. -/
def MInt.default : MInt := ⟨0, 0, .littleEndian⟩

/-- `init64` / `new_int64`, integer.rs:93-103, 142-144: the value of the receiver is replaced. -/
def newInt64 (v m : Int) : Res IntError MInt :=
  if v < 0 then do let r ← rem v m; .ok ⟨r + m.natAbs, m, .bigEndian⟩
  else do let r ← rem v m; .ok ⟨r, m, .bigEndian⟩

/-- `init` / `new_int`, integer.rs:106-111, 137-139. -/
def newInt (v m : Int) : Res IntError MInt := do
  let r ← rem v m
  .ok ⟨r, m, .bigEndian⟩

/-- `marshal_size`, integer.rs:287-289. -/
def MInt.marshalSize (a : MInt) : Nat := (bitLen a.m.natAbs + 7) / 8

/-- `reverse`, integer.rs:521-529: one pass of the loop with `i`, `j = l - 1 - i`; both bytes are
read from `src` before either is written. -/
def reverseStep (l : Nat) (src : Bytes) (dst : Bytes) (i : Nat) : Res IntError Bytes :=
  match src[l - 1 - i]?, src[i]? with
  | some x, some y => .ok ((dst.set i x).set (l - 1 - i) y)
  | _, _ => .panic

/-- `reverse`, integer.rs:521-529. -/
def reverse (dst src : Bytes) : Res IntError Bytes :=
  (List.range ((dst.length + 1) / 2)).foldlM (reverseStep dst.length src) dst

/-- `little_endian`, integer.rs:116-134. Only the first `act` bytes of the padded buffer are
handed to `reverse` and returned. -/
def MInt.littleEndian (a : MInt) (min max : Nat) : Res IntError Bytes :=
  let vBytes := toBytesBE a.v.natAbs
  let act := if vBytes.length < a.marshalSize then vBytes.length else a.marshalSize
  let pad := if act < min then min else act
  if max ≠ 0 ∧ pad > max then .err .notRepresentable
  else reverse ((List.replicate pad 0).take act) vBytes

/-- `big_endian`, integer.rs:502-515: `copy_from_slice` panics on a length mismatch. -/
def MInt.bigEndian (a : MInt) (min max : Nat) : Res IntError Bytes :=
  let act := a.marshalSize
  let pad := if act < min then min else act
  let ofs := if act < min then min - act else 0
  if max ≠ 0 ∧ pad > max then .err .notRepresentable
  else
    let b := toBytesBE a.v.natAbs
    if b.length ≠ pad - ofs then .panic
    else .ok (List.replicate ofs 0 ++ b)

/-- `marshal_binary`, integer.rs:232-250. `l - b.len()` is computed on `usize`; a wrapped-around
offset makes `splice` panic (but only in the big-endian branch). -/
def MInt.marshal (a : MInt) : Res IntError Bytes :=
  let l := a.marshalSize
  let b := toBytesBE a.v.natAbs
  if a.bo = .littleEndian then a.littleEndian l l
  else if l < b.length then .panic
  else .ok (List.replicate (l - b.length) 0 ++ b)

/-- `unmarshal_binary`, integer.rs:257-275: the receiver is overwritten before the range check. -/
def MInt.unmarshal (a : MInt) (data : Bytes) : MInt × Res IntError Unit :=
  if data.length ≠ a.marshalSize then (a, .err .wrongSize)
  else
    let buf : Res IntError Bytes :=
      if a.bo = .littleEndian then reverse (List.replicate data.length 0) data else .ok data
    match buf with
    | .ok buf =>
      let a' : MInt := { a with v := beNat buf }
      if a'.m ≤ a'.v then (a', .err .outOfRange) else (a', .ok ())
    | .err e => (a, .err e)
    | .panic => (a, .panic)

/-- `equal` (also `==`), integer.rs:159-161. -/
def MInt.equal (a b : MInt) : Bool := a.v == b.v

/-- `cmpr` (also `cmp`, and `partial_cmp` inside `Some`), integer.rs:164-166, 216-226: the moduli
and the byte orders do not count. -/
def MInt.cmpr (a b : MInt) : Ordering := compare a.v b.v

/-- `Mul`, integer.rs:321-326. -/
def MInt.mul (a b : MInt) : Res IntError MInt := do
  let r ← rem (a.v * b.v) a.m
  .ok ⟨r, a.m, a.bo⟩

/-- `Add`, integer.rs:328-333. -/
def MInt.add (a b : MInt) : Res IntError MInt := do
  let r ← rem (a.v + b.v) a.m
  .ok ⟨r, a.m, a.bo⟩

/-- `set`, integer.rs:338-343: the byte order of the receiver stays. -/
def MInt.set (i a : MInt) : MInt := ⟨a.v, a.m, i.bo⟩

/-- `set_int64`, integer.rs:347-356. -/
def MInt.setInt64 (i : MInt) (v : Int) : Res IntError MInt :=
  if v < 0 then do let r ← rem v i.m; .ok { i with v := r + i.m.natAbs }
  else do let r ← rem v i.m; .ok { i with v := r }

/-- `zero`, integer.rs:359-363. -/
def MInt.zero (i : MInt) : MInt := { i with v := 0 }

/-- `one`, integer.rs:399-403: not reduced. -/
def MInt.one (i : MInt) : MInt := { i with v := 1 }

/-- `sub`, integer.rs:367-373. -/
def MInt.sub (i a b : MInt) : Res IntError MInt := do
  let r ← rem (a.v - b.v) a.m
  let r' ← rem (r + a.m) a.m
  .ok ⟨r', a.m, i.bo⟩

/-- `set_bytes`, integer.rs:386-396. -/
def MInt.setBytes (i : MInt) (a : Bytes) : Res IntError MInt := do
  let buff ← if i.bo = .littleEndian then reverse (List.replicate a.length 0) a else .ok a
  let r ← rem (beNat buff) i.m
  .ok ⟨r, i.m, i.bo⟩

/-- `init_bytes` / `new_int_bytes`, integer.rs:148-150, 169-176. -/
def newIntBytes (a : Bytes) (m : Int) (bo : ByteOrder) : Res IntError MInt :=
  MInt.setBytes ⟨0, m, bo⟩ a

/-- `div`, integer.rs:406-411: multiplies, modulo the modulus of the receiver. -/
def MInt.div (i a b : MInt) : Res IntError MInt := do
  let r ← rem (a.v * b.v) i.m
  .ok { i with v := r }

/-- `mod_inverse` of num-bigint-dig, for a positive modulus: the Bézout coefficient brought into
range, `None` unless the greatest common divisor is one. -/
def modInverse (a m : Int) : Option Int :=
  if Int.gcd a m = 1 then some ((Int.gcdA a m) % m) else none

/-- `inv`, integer.rs:414-419: `unwrap` panics when there is no inverse. -/
def MInt.inv (i a : MInt) : Res IntError MInt := do
  let r ← Res.unwrap (modInverse a.v a.m)
  .ok ⟨r, a.m, i.bo⟩

/-- `neg`, integer.rs:422-430. -/
def MInt.neg (i a : MInt) : MInt :=
  ⟨if 0 < a.v then a.m - a.v else 0, a.m, i.bo⟩

/-- `nonzero`, integer.rs:435-437. -/
def MInt.nonzero (a : MInt) : Bool := a.v ≠ 0

/-- `set_uint64`, integer.rs:447-451. -/
def MInt.setUint64 (i : MInt) (v : Nat) : Res IntError MInt := do
  let r ← rem v i.m
  .ok { i with v := r }

/-- `uint64`, integer.rs:455-467: the low 64 bits of the absolute value, negated modulo `2^64` for
a negative value. -/
def MInt.uint64 (a : MInt) : Nat :=
  let b := toBytesLE a.v.natAbs
  let u := leNat ((b ++ List.replicate 8 0).take 8)
  if a.v < 0 then (2 ^ 64 - u) % 2 ^ 64 else u

/-- `int64`, integer.rs:441-443: `uint64() as i64` keeps the bits. -/
def MInt.int64 (a : MInt) : Int := if a.uint64 < 2 ^ 63 then a.uint64 else (a.uint64 : Int) - 2 ^ 64

/-- `exp`, integer.rs:471-476: raises the receiver, not the argument. `BigInt::modpow` panics on a
negative exponent and on a zero modulus; for a positive modulus the result is in range. -/
def MInt.exp (i a : MInt) (e : Int) : Res IntError MInt :=
  if e < 0 ∨ a.m = 0 then .panic
  else .ok ⟨i.v ^ e.toNat % a.m, a.m, i.bo⟩

/-- `jacobi(x, y)` of num-bigint-dig (an external function, taken by its contract): panics for an
even `y`, otherwise the Jacobi symbol of `x` over `|y|`, negated when both are negative. -/
noncomputable def bigJacobi (x y : Int) : Res IntError Int :=
  if y % 2 = 0 then .panic
  else .ok (if y < 0 ∧ x < 0 then -jacobiSym x y.natAbs else jacobiSym x y.natAbs)

/-- `jacobi`, integer.rs:480-485: the symbol is stored as it is, also when it is `-1`. -/
noncomputable def MInt.jacobi (i a : MInt) : Res IntError MInt := do
  let j ← bigJacobi a.v a.m
  .ok ⟨j, a.m, i.bo⟩

/-- `sqrt`, integer.rs:490-497: the integer square root. -/
def MInt.sqrt (i a : MInt) : MInt × Res IntError Unit :=
  if a.v < 0 then (i, .err .imaginaryRoot)
  else if a.m = 0 then (i, .panic)
  else (⟨(Nat.sqrt a.v.natAbs : Int).tmod a.m, a.m, i.bo⟩, .ok ())

end Kyber.ModInt
