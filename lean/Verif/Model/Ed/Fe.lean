/-
Field elements modulo `2^255 - 19` in ten limbs, `src/group/edwards25519/fe.rs`.

The tables of products and of carries are transcribed from the statements of the Rust functions.
-/
import Verif.Model.Ed.Limb

namespace Kyber.Ed

open Kyber

/-- `FieldElement`, fe.rs:4-8: `[i32; 10]`. -/
abbrev Fe := List Int

/-- `fe_zero`, fe.rs:10-14. -/
def feZero : Fe := [0, 0, 0, 0, 0, 0, 0, 0, 0, 0]

/-- `fe_one`, fe.rs:16-19. -/
def feOne : Fe := [1, 0, 0, 0, 0, 0, 0, 0, 0, 0]

/-- `fe_add`, fe.rs:21-25. -/
def feAdd (a b : Fe) : Fe := (List.range 10).map (fun i => wrap 32 (limb a i + limb b i))

/-- `fe_sub`, fe.rs:27-31. -/
def feSub (a b : Fe) : Fe := (List.range 10).map (fun i => wrap 32 (limb a i - limb b i))

/-- `fe_neg`, fe.rs:266-270. -/
def feNeg (f : Fe) : Fe := (List.range 10).map (fun i => wrap 32 (-limb f i))

/-- `fe_copy`, fe.rs:33-35. -/
def feCopy (f : Fe) : Fe := (List.range 10).map (fun i => limb f i)

/-- `fe_c_move`, fe.rs:41-50: the new value of `f`. -/
def feCMove (f g : Fe) (b : Int) : Fe :=
  (List.range 10).map (fun i =>
    let x := (-(Int32.ofInt b)) &&& (Int32.ofInt (limb f i) ^^^ Int32.ofInt (limb g i))
    (Int32.ofInt (limb f i) ^^^ x).toInt)

/-- One product `(cf * f_i) as i64 * (cg * g_j) as i64`; the factors are `i32` values. -/
structure Term where
  i : Nat
  cf : Int
  j : Nat
  cg : Int
  deriving DecidableEq, Repr

/-- The value of a product; a product of two `i32` values does not overflow `i64`. -/
def Term.eval (f g : Fe) (t : Term) : Int :=
  wrap 32 (t.cf * limb f t.i) * wrap 32 (t.cg * limb g t.j)

/-- A sum of products in `i64`. -/
def sumTerms (f g : Fe) (ts : List Term) : Int := wrap 64 (ts.map (Term.eval f g)).sum

/-- The sums `h0` to `h9` of fe_mul, fe.rs:320-456. -/
def mulTerms : List (List Term) :=
  [[⟨0, 1, 0, 1⟩, ⟨1, 2, 9, 19⟩, ⟨2, 1, 8, 19⟩, ⟨3, 2, 7, 19⟩, ⟨4, 1, 6, 19⟩, ⟨5, 2, 5, 19⟩,
    ⟨6, 1, 4, 19⟩, ⟨7, 2, 3, 19⟩, ⟨8, 1, 2, 19⟩, ⟨9, 2, 1, 19⟩],
   [⟨0, 1, 1, 1⟩, ⟨1, 1, 0, 1⟩, ⟨2, 1, 9, 19⟩, ⟨3, 1, 8, 19⟩, ⟨4, 1, 7, 19⟩, ⟨5, 1, 6, 19⟩,
    ⟨6, 1, 5, 19⟩, ⟨7, 1, 4, 19⟩, ⟨8, 1, 3, 19⟩, ⟨9, 1, 2, 19⟩],
   [⟨0, 1, 2, 1⟩, ⟨1, 2, 1, 1⟩, ⟨2, 1, 0, 1⟩, ⟨3, 2, 9, 19⟩, ⟨4, 1, 8, 19⟩, ⟨5, 2, 7, 19⟩,
    ⟨6, 1, 6, 19⟩, ⟨7, 2, 5, 19⟩, ⟨8, 1, 4, 19⟩, ⟨9, 2, 3, 19⟩],
   [⟨0, 1, 3, 1⟩, ⟨1, 1, 2, 1⟩, ⟨2, 1, 1, 1⟩, ⟨3, 1, 0, 1⟩, ⟨4, 1, 9, 19⟩, ⟨5, 1, 8, 19⟩,
    ⟨6, 1, 7, 19⟩, ⟨7, 1, 6, 19⟩, ⟨8, 1, 5, 19⟩, ⟨9, 1, 4, 19⟩],
   [⟨0, 1, 4, 1⟩, ⟨1, 2, 3, 1⟩, ⟨2, 1, 2, 1⟩, ⟨3, 2, 1, 1⟩, ⟨4, 1, 0, 1⟩, ⟨5, 2, 9, 19⟩,
    ⟨6, 1, 8, 19⟩, ⟨7, 2, 7, 19⟩, ⟨8, 1, 6, 19⟩, ⟨9, 2, 5, 19⟩],
   [⟨0, 1, 5, 1⟩, ⟨1, 1, 4, 1⟩, ⟨2, 1, 3, 1⟩, ⟨3, 1, 2, 1⟩, ⟨4, 1, 1, 1⟩, ⟨5, 1, 0, 1⟩,
    ⟨6, 1, 9, 19⟩, ⟨7, 1, 8, 19⟩, ⟨8, 1, 7, 19⟩, ⟨9, 1, 6, 19⟩],
   [⟨0, 1, 6, 1⟩, ⟨1, 2, 5, 1⟩, ⟨2, 1, 4, 1⟩, ⟨3, 2, 3, 1⟩, ⟨4, 1, 2, 1⟩, ⟨5, 2, 1, 1⟩,
    ⟨6, 1, 0, 1⟩, ⟨7, 2, 9, 19⟩, ⟨8, 1, 8, 19⟩, ⟨9, 2, 7, 19⟩],
   [⟨0, 1, 7, 1⟩, ⟨1, 1, 6, 1⟩, ⟨2, 1, 5, 1⟩, ⟨3, 1, 4, 1⟩, ⟨4, 1, 3, 1⟩, ⟨5, 1, 2, 1⟩,
    ⟨6, 1, 1, 1⟩, ⟨7, 1, 0, 1⟩, ⟨8, 1, 9, 19⟩, ⟨9, 1, 8, 19⟩],
   [⟨0, 1, 8, 1⟩, ⟨1, 2, 7, 1⟩, ⟨2, 1, 6, 1⟩, ⟨3, 2, 5, 1⟩, ⟨4, 1, 4, 1⟩, ⟨5, 2, 3, 1⟩,
    ⟨6, 1, 2, 1⟩, ⟨7, 2, 1, 1⟩, ⟨8, 1, 0, 1⟩, ⟨9, 2, 9, 19⟩],
   [⟨0, 1, 9, 1⟩, ⟨1, 1, 8, 1⟩, ⟨2, 1, 7, 1⟩, ⟨3, 1, 6, 1⟩, ⟨4, 1, 5, 1⟩, ⟨5, 1, 4, 1⟩,
    ⟨6, 1, 3, 1⟩, ⟨7, 1, 2, 1⟩, ⟨8, 1, 1, 1⟩, ⟨9, 1, 0, 1⟩]]

/-- The sums `h0` to `h9` of fe_square, fe.rs:555-632, and of fe_square2, fe.rs:711-788. -/
def squareTerms : List (List Term) :=
  [[⟨0, 1, 0, 1⟩, ⟨1, 2, 9, 38⟩, ⟨2, 2, 8, 19⟩, ⟨3, 2, 7, 38⟩, ⟨4, 2, 6, 19⟩, ⟨5, 1, 5, 38⟩],
   [⟨0, 2, 1, 1⟩, ⟨2, 1, 9, 38⟩, ⟨3, 2, 8, 19⟩, ⟨4, 1, 7, 38⟩, ⟨5, 2, 6, 19⟩],
   [⟨0, 2, 2, 1⟩, ⟨1, 2, 1, 1⟩, ⟨3, 2, 9, 38⟩, ⟨4, 2, 8, 19⟩, ⟨5, 2, 7, 38⟩, ⟨6, 1, 6, 19⟩],
   [⟨0, 2, 3, 1⟩, ⟨1, 2, 2, 1⟩, ⟨4, 1, 9, 38⟩, ⟨5, 2, 8, 19⟩, ⟨6, 1, 7, 38⟩],
   [⟨0, 2, 4, 1⟩, ⟨1, 2, 3, 2⟩, ⟨2, 1, 2, 1⟩, ⟨5, 2, 9, 38⟩, ⟨6, 2, 8, 19⟩, ⟨7, 1, 7, 38⟩],
   [⟨0, 2, 5, 1⟩, ⟨1, 2, 4, 1⟩, ⟨2, 2, 3, 1⟩, ⟨6, 1, 9, 38⟩, ⟨7, 2, 8, 19⟩],
   [⟨0, 2, 6, 1⟩, ⟨1, 2, 5, 2⟩, ⟨2, 2, 4, 1⟩, ⟨3, 2, 3, 1⟩, ⟨7, 2, 9, 38⟩, ⟨8, 1, 8, 19⟩],
   [⟨0, 2, 7, 1⟩, ⟨1, 2, 6, 1⟩, ⟨2, 2, 5, 1⟩, ⟨3, 2, 4, 1⟩, ⟨8, 1, 9, 38⟩],
   [⟨0, 2, 8, 1⟩, ⟨1, 2, 7, 2⟩, ⟨2, 2, 6, 1⟩, ⟨3, 2, 5, 2⟩, ⟨4, 1, 4, 1⟩, ⟨9, 1, 9, 38⟩],
   [⟨0, 2, 9, 1⟩, ⟨1, 2, 8, 1⟩, ⟨2, 2, 7, 1⟩, ⟨3, 2, 6, 1⟩, ⟨4, 2, 5, 1⟩]]

/-- The carries of fe_mul (fe.rs:465-522), fe_square (fe.rs:635-676) and fe_square2
(fe.rs:802-843). -/
def mulCarries : List LOp :=
  [.carry 0 1 26 1 true, .carry 4 5 26 1 true, .carry 1 2 25 1 true, .carry 5 6 25 1 true,
   .carry 2 3 26 1 true, .carry 6 7 26 1 true, .carry 3 4 25 1 true, .carry 7 8 25 1 true,
   .carry 4 5 26 1 true, .carry 8 9 26 1 true, .carry 9 0 25 19 true, .carry 0 1 26 1 true]

/-- `as i32` on every limb. -/
def toI32 (h : List Int) : Fe := (List.range 10).map (fun i => wrap 32 (limb h i))

/-- `fe_mul`, fe.rs:299-535. -/
def feMul (f g : Fe) : Fe := toI32 (runOps 64 mulCarries (mulTerms.map (sumTerms f g)))

/-- `fe_square`, fe.rs:544-688. -/
def feSquare (f : Fe) : Fe := toI32 (runOps 64 mulCarries (squareTerms.map (sumTerms f f)))

/-- `fe_square2`, fe.rs:700-855: the sums are doubled before the carries. -/
def feSquare2 (f : Fe) : Fe :=
  toI32 (runOps 64 mulCarries ((squareTerms.map (sumTerms f f)).map (fun h => wrap 64 (h + h))))

/-- The carries of fe_from_bytes, fe.rs:80-110. -/
def fromBytesCarries : List LOp :=
  [.carry 9 0 25 19 true, .carry 1 2 25 1 true, .carry 3 4 25 1 true, .carry 5 6 25 1 true,
   .carry 7 8 25 1 true, .carry 0 1 26 1 true, .carry 2 3 26 1 true, .carry 4 5 26 1 true,
   .carry 6 7 26 1 true, .carry 8 9 26 1 true]

/-- `fe_from_bytes`, fe.rs:67-122, on an input of at least 32 bytes. -/
def feFromBytes (src : Bytes) : Fe :=
  toI32 (runOps 64 fromBytesCarries
    [(load4 src 0 : Int), (load3 src 4 <<< 6 : Nat), (load3 src 7 <<< 5 : Nat),
     (load3 src 10 <<< 3 : Nat), (load3 src 13 <<< 2 : Nat), (load4 src 16 : Nat),
     (load3 src 20 <<< 7 : Nat), (load3 src 23 <<< 5 : Nat), (load3 src 26 <<< 4 : Nat),
     ((load3 src 29 &&& 8388607) <<< 2 : Nat)])

/-- The shift widths of the limbs, 26 and 25 bits in turn. -/
def limbBits : List Nat := [26, 25, 26, 25, 26, 25, 26, 25, 26, 25]

/-- The carries of fe_to_bytes, fe.rs:168-196; the carry out of the last limb, which the code drops,
is collected in an eleventh limb that is not read. -/
def toBytesCarries : List LOp :=
  [.carry 0 1 26 1 false, .carry 1 2 25 1 false, .carry 2 3 26 1 false, .carry 3 4 25 1 false,
   .carry 4 5 26 1 false, .carry 5 6 25 1 false, .carry 6 7 26 1 false, .carry 7 8 25 1 false,
   .carry 8 9 26 1 false, .carry 9 10 25 1 false]

/-- The quotient `q` of fe_to_bytes, fe.rs:152-162. -/
def toBytesQ (h : Fe) : Int :=
  (List.range 10).foldl (fun q i => sar (wrap 32 (limb h i + q)) (limbBits.getD i 0))
    (sar (wrap 32 (wrap 32 (19 * limb h 9) + 2 ^ 24)) 25)

/-- The output bytes of fe_to_bytes, fe.rs:205-237. -/
def feBytes (h : List Int) : Bytes :=
  [u8 (limb h 0),
   u8 (sar (limb h 0) 8),
   u8 (sar (limb h 0) 16),
   u8 (sar (limb h 0) 24) ||| u8 (limb h 1 * 2 ^ 2),
   u8 (sar (limb h 1) 6),
   u8 (sar (limb h 1) 14),
   u8 (sar (limb h 1) 22) ||| u8 (limb h 2 * 2 ^ 3),
   u8 (sar (limb h 2) 5),
   u8 (sar (limb h 2) 13),
   u8 (sar (limb h 2) 21) ||| u8 (limb h 3 * 2 ^ 5),
   u8 (sar (limb h 3) 3),
   u8 (sar (limb h 3) 11),
   u8 (sar (limb h 3) 19) ||| u8 (limb h 4 * 2 ^ 6),
   u8 (sar (limb h 4) 2),
   u8 (sar (limb h 4) 10),
   u8 (sar (limb h 4) 18),
   u8 (limb h 5),
   u8 (sar (limb h 5) 8),
   u8 (sar (limb h 5) 16),
   u8 (sar (limb h 5) 24) ||| u8 (limb h 6 * 2 ^ 1),
   u8 (sar (limb h 6) 7),
   u8 (sar (limb h 6) 15),
   u8 (sar (limb h 6) 23) ||| u8 (limb h 7 * 2 ^ 3),
   u8 (sar (limb h 7) 5),
   u8 (sar (limb h 7) 13),
   u8 (sar (limb h 7) 21) ||| u8 (limb h 8 * 2 ^ 4),
   u8 (sar (limb h 8) 4),
   u8 (sar (limb h 8) 12),
   u8 (sar (limb h 8) 20) ||| u8 (limb h 9 * 2 ^ 6),
   u8 (sar (limb h 9) 2),
   u8 (sar (limb h 9) 10),
   u8 (sar (limb h 9) 18)]

/-- `fe_to_bytes`, fe.rs:147-238. -/
def feToBytes (h : Fe) : Bytes :=
  feBytes (runOps 32 toBytesCarries ((h.set 0 (wrap 32 (limb h 0 + wrap 32 (19 * toBytesQ h)))) ++ [0]))

/-- `fe_is_negative`, fe.rs:240-244. -/
def feIsNegative (f : Fe) : UInt8 := (feToBytes f).getD 0 0 &&& 1

/-- `fe_is_non_zero`, fe.rs:246-257. -/
def feIsNonZero (f : Fe) : Int :=
  let x := (feToBytes f).foldl (fun x b => x ||| b) (0 : UInt8)
  let x := x ||| x >>> 4
  let x := x ||| x >>> 2
  let x := x ||| x >>> 1
  ((x &&& 1).toNat : Int)

/-- `n` squarings in a row: `fe_square(t, s)` followed by `for _ in 1..n { fe_square(t, t) }`. -/
def feSquareN : Nat → Fe → Fe
  | 0, f => f
  | n + 1, f => feSquareN n (feSquare f)

/-- `fe_invert`, fe.rs:857-944. -/
def feInvert (z : Fe) : Fe :=
  let t0 := feSquare z
  let t1 := feSquareN 2 t0
  let t1 := feMul z t1
  let t0 := feMul t0 t1
  let t2 := feSquare t0
  let t1 := feMul t1 t2
  let t2 := feSquareN 5 t1
  let t1 := feMul t2 t1
  let t2 := feSquareN 10 t1
  let t2 := feMul t2 t1
  let t3 := feSquareN 20 t2
  let t2 := feMul t3 t2
  let t2 := feSquareN 10 t2
  let t1 := feMul t2 t1
  let t2 := feSquareN 50 t1
  let t2 := feMul t2 t1
  let t3 := feSquareN 100 t2
  let t2 := feMul t3 t2
  let t2 := feSquareN 50 t2
  let t1 := feMul t2 t1
  let t1 := feSquareN 5 t1
  feMul t1 t0

/-- `fe_pow22523`, fe.rs:946-1035. -/
def fePow22523 (z : Fe) : Fe :=
  let t0 := feSquare z
  let t1 := feSquareN 2 t0
  let t1 := feMul z t1
  let t0 := feMul t0 t1
  let t0 := feSquare t0
  let t0 := feMul t1 t0
  let t1 := feSquareN 5 t0
  let t0 := feMul t1 t0
  let t1 := feSquareN 10 t0
  let t1 := feMul t1 t0
  let t2 := feSquareN 20 t1
  let t1 := feMul t2 t1
  let t1 := feSquareN 10 t1
  let t0 := feMul t1 t0
  let t1 := feSquareN 50 t0
  let t1 := feMul t1 t0
  let t2 := feSquareN 100 t1
  let t1 := feMul t2 t1
  let t1 := feSquareN 50 t1
  let t0 := feMul t1 t0
  let t0 := feSquareN 2 t0
  feMul t0 z

end Kyber.Ed
