/-
Machine arithmetic for the multi-limb code of `src/group/edwards25519/{fe,scalar}.rs`.

`Cargo.toml` switches overflow checks off, so `i32` and `i64` arithmetic wraps around. A machine
integer is an integer; `wrap w` brings the result of an operation back into the range of a signed
`w`-bit integer. Since wrapping addition, subtraction and multiplication are the ring operations
modulo `2^w`, an expression built from these operations alone is wrapped once, at the end.
-/
import Verif.Model.Int

namespace Kyber.Ed

open Kyber

/-- Two's complement wrap-around to `w` bits. -/
def wrap (w : Nat) (x : Int) : Int := Int.bmod x (2 ^ w)

/-- Arithmetic shift to the right, `x >> k` on signed integers. -/
def sar (x : Int) (k : Nat) : Int := x / 2 ^ k

/-- Limb number `i`. -/
def limb (h : List Int) (i : Nat) : Int := h.getD i 0

/-- The two kinds of statement groups that the reduction code is made of.

`carry i j k m true`: `c = (h_i + (1 << (k-1))) >> k; h_j += c * m; h_i -= c << k;`
(with `false`: `c = h_i >> k`).

`fold i [(j, c), ...]`: `h_j += h_i * c; ...` followed by `h_i = 0`; where the code leaves the
assignment of zero out (or comments it out), `h_i` is not read again. -/
inductive LOp where
  | carry (i j k : Nat) (m : Int) (round : Bool)
  | fold (i : Nat) (tgt : List (Nat × Int))
  deriving DecidableEq, Repr

/-- One statement group on `w`-bit limbs. -/
def LOp.run (w : Nat) : LOp → List Int → List Int
  | .carry i j k m r, h =>
    let c := sar (wrap w (limb h i + if r then 2 ^ (k - 1) else 0)) k
    let h := h.set j (wrap w (limb h j + wrap w (c * m)))
    h.set i (wrap w (limb h i - wrap w (c * 2 ^ k)))
  | .fold i tgt, h =>
    (tgt.foldl (fun h' e => h'.set e.1 (wrap w (limb h' e.1 + wrap w (limb h i * e.2)))) h).set i 0

/-- A sequence of statement groups. -/
def runOps (w : Nat) (ops : List LOp) (h : List Int) : List Int := ops.foldl (fun h o => o.run w h) h

/-- The low byte, `x as u8`; it commutes with `|`, so `(x | y) as u8` is modelled as the
bitwise or of the two low bytes. -/
def u8 (x : Int) : UInt8 := UInt8.ofNat (x % 256).toNat

/-- `load3` on `&b[k..]`, fe.rs:52-57 (all values are non-negative; bytes beyond the end, which
would panic, do not occur). -/
def load3 (b : Bytes) (k : Nat) : Nat :=
  (b.getD k 0).toNat ||| (b.getD (k + 1) 0).toNat <<< 8 ||| (b.getD (k + 2) 0).toNat <<< 16

/-- `load4` on `&b[k..]`, fe.rs:59-65. -/
def load4 (b : Bytes) (k : Nat) : Nat :=
  (b.getD k 0).toNat ||| (b.getD (k + 1) 0).toNat <<< 8 ||| (b.getD (k + 2) 0).toNat <<< 16 |||
    (b.getD (k + 3) 0).toNat <<< 24

end Kyber.Ed
