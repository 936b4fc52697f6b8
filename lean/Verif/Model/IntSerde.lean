/-
The binary form of modular integers through serde: `Serialize` and `Deserialize` derived for `ByteOrder`
and `Int` (`src/group/integer_field/integer.rs:29-34, 71-79`), as `encoding::marshal_binary` and
`encoding::unmarshal_binary` call them.

The form of a `BigInt` belongs to the crate num-bigint-dig 0.8 and is modelled as that crate documents
it: the sign as an `i8`, the absolute value as a vector of `u32` digits, least significant first, with no
superfluous zero digit; reading refuses other signs, drops zero digits at the end and takes the sign away
from zero.
-/
import Verif.Model.State
import Mathlib.Data.Nat.Digits.Defs

namespace Kyber.ModInt

open Kyber Kyber.Bin

/-- The sign of a `BigInt` as the byte of an `i8`. -/
def signByte (z : Int) : UInt8 := if z < 0 then 255 else if z = 0 then 0 else 1

/-- `BigInt::from_biguint` after reading the sign. -/
def ofSign (s : UInt8) (n : Nat) : Option Int :=
  if s = 255 then some (-(n : Int)) else if s = 0 then some 0 else if s = 1 then some n else none

/-- `BigInt` (num-bigint-dig). -/
def binBig : Bin Int :=
  (u8.pair (vec u32)).piso (fun x => ofSign x.1 (Nat.ofDigits (2 ^ 32) x.2))
    (fun z => (signByte z, Nat.digits (2 ^ 32) z.natAbs))

/-- `ByteOrder`, integer.rs:29-34: the number of the variant as a `u32`. -/
def binOrder : Bin ByteOrder :=
  u32.piso (fun n => if n = 0 then some .littleEndian else if n = 1 then some .bigEndian else none)
    (fun o => match o with | .littleEndian => 0 | .bigEndian => 1)

/-- `Int`, integer.rs:71-79: the three fields in the order of declaration. -/
def binMInt : Bin MInt :=
  (binBig.pair (binBig.pair binOrder)).iso (fun x => ⟨x.1, x.2.1, x.2.2⟩) (fun a => (a.v, a.m, a.bo))

end Kyber.ModInt
