/-
Model of the text forms: `Display`, `LowerHex`, `UpperHex` of modular integers, scalars and points, and
`Int::set_string`.

Text is its UTF-8 bytes. A `Formatter` carries the alternate flag only; width, fill and precision are ignored by
the code as well, it writes the text with `write!`.
-/
import Verif.Model.Int
import Verif.Model.Ed.Ge
import Verif.Model.Ed.Scalar

namespace Kyber.Text

open Kyber Kyber.ModInt Kyber.Ed

/-- The alphabets of the crate `hex`: `0123456789abcdef` and `0123456789ABCDEF`. -/
def hexDigit (upper : Bool) (n : Nat) : UInt8 :=
  if n < 10 then UInt8.ofNat (48 + n) else if upper then UInt8.ofNat (55 + n) else UInt8.ofNat (87 + n)

/-- `hex::encode`, `hex::encode_upper`: two digits a byte, the higher half first. -/
def hexEncode (upper : Bool) (b : Bytes) : Bytes :=
  b.flatMap fun x => [hexDigit upper (x.toNat / 16), hexDigit upper (x.toNat % 16)]

/-- The prefix of `LowerHex` and `UpperHex`: `0x` and `0X` with the alternate flag, integer.rs:306, 314,
point.rs:259, 269, scalar.rs:116, 124. -/
def hexPrefix (upper alternate : Bool) : Bytes :=
  if alternate then [48, if upper then 88 else 120] else []

/-- `LowerHex`, `UpperHex` for `Int`, integer.rs:304-318: the sign is dropped. -/
def fmtInt (upper alternate : Bool) (a : MInt) : Bytes :=
  hexPrefix upper alternate ++ hexEncode upper (toBytesBE a.v.natAbs)

/-- `Display` for `Int`, integer.rs:204-208. -/
def displayInt (a : MInt) : Bytes := fmtInt false true a

/-- `LowerHex`, `UpperHex` for `Scalar`, scalar.rs:114-128: the bytes as they are. -/
def fmtScalar (upper alternate : Bool) (v : Bytes) : Bytes := hexPrefix upper alternate ++ hexEncode upper v

/-- `LowerHex`, `UpperHex` for `Point`, point.rs:257-275. -/
def fmtPoint (upper alternate : Bool) (p : Ext) : Bytes := hexPrefix upper alternate ++ hexEncode upper p.bytes

/-- `Ed25519Point(`, point.rs:253 -/
def pointOpen : Bytes := [69, 100, 50, 53, 53, 49, 57, 80, 111, 105, 110, 116, 40]

/-- `Ed25519Scalar(`, scalar.rs:87 -/
def scalarOpen : Bytes := [69, 100, 50, 53, 53, 49, 57, 83, 99, 97, 108, 97, 114, 40]

/-- `Display` for `Point`, point.rs:251-255. -/
def displayPoint (p : Ext) : Bytes := pointOpen ++ fmtPoint false true p ++ [41]

/-- `Display` for `Scalar`, scalar.rs:85-89. -/
def displayScalar (v : Bytes) : Bytes := scalarOpen ++ fmtScalar false true v ++ [41]

/-- The errors of `set_string`: `ParseBigIntError` (empty text, invalid digit) and those of the arithmetic. -/
inductive StrError where
  | empty
  | invalidDigit
  | arith (e : IntError)
  deriving DecidableEq, Repr

/-- The digit a character stands for in `BigUint::from_str_radix` (num-bigint-dig): letters of either case. -/
def digitVal (c : UInt8) : Option Nat :=
  let n := c.toNat
  if 48 ≤ n ∧ n ≤ 57 then some (n - 48)
  else if 97 ≤ n ∧ n ≤ 122 then some (n - 87)
  else if 65 ≤ n ∧ n ≤ 90 then some (n - 55)
  else none

/-- The digits of a numeral; underscores are skipped. -/
def readDigits (radix : Nat) : Bytes → Res StrError (List Nat)
  | [] => .ok []
  | c :: cs =>
    if c = 95 then readDigits radix cs
    else match digitVal c with
      | some d => if d < radix then do
            let ds ← readDigits radix cs
            .ok (d :: ds)
          else .err .invalidDigit
      | none => .err .invalidDigit

/-- The number the digits stand for, the most significant first. -/
def horner (radix : Nat) (ds : List Nat) : Nat := ds.foldl (fun acc d => acc * radix + d) 0

/-- One leading `+` is dropped, unless a second one follows. -/
def stripPlus : Bytes → Bytes
  | 43 :: 43 :: t => 43 :: 43 :: t
  | 43 :: t => t
  | s => s

/-- `BigUint::from_str_radix` (num-bigint-dig): one leading `+`, then a digit; the radix is asserted to be between
two and thirty-six. -/
def parseNat (s : Bytes) (radix : Nat) : Res StrError Nat :=
  if radix < 2 ∨ 36 < radix then .panic
  else match stripPlus s with
    | [] => .err .empty
    | c :: t =>
      if c = 95 then .err .invalidDigit
      else do
        let ds ← readDigits radix (c :: t)
        .ok (horner radix ds)

/-- `BigInt::from_str_radix` (num-bigint-dig): a leading minus, not before a plus. -/
def parseInt (s : Bytes) (radix : Nat) : Res StrError Int :=
  match s with
  | 45 :: 43 :: _ => do
    let n ← parseNat s radix
    .ok (-(n : Int))
  | 45 :: t => do
    let n ← parseNat t radix
    .ok (-(n : Int))
  | _ => do
    let n ← parseNat s radix
    .ok (n : Int)

/-- `set_string`, integer.rs:192-202. `base as u32` turns a negative base into a large one. The value is not reduced
unless there is a denominator. -/
def setString (self : MInt) (n d : Bytes) (base : Int) : Res StrError MInt := do
  let v ← parseInt n (base % 2 ^ 32).toNat
  let self := { self with v := v }
  if d = [] then .ok self
  else do
    let w ← parseInt d (base % 2 ^ 32).toNat
    (self.div self ⟨w, self.m, .littleEndian⟩).mapErr .arith

/-- `new_int_string`, `init_string`, integer.rs:152-156, 180-186: big-endian, a text that does not parse panics. -/
def newIntString (n d : Bytes) (base : Int) (m : Int) : Res StrError MInt :=
  match setString ⟨0, m, .bigEndian⟩ n d base with
  | .ok a => .ok a
  | _ => .panic

end Kyber.Text
