/-
Points of the curve, `src/group/edwards25519/{ge,point,curve}.rs`.

A method that writes to `&mut self` or to an output parameter returns the new value. The
coordinates of an output that are overwritten one after the other are `let`s in the same order.
-/
import Verif.Model.Ed.Base
import Verif.Model.Ed.Scalar
import Verif.Model.Random

namespace Kyber.Ed

open Kyber Kyber.ModInt

/-- `ProjectiveGroupElement`, ge.rs:19-25. -/
structure Proj where
  x : Fe
  y : Fe
  z : Fe
  deriving DecidableEq, Repr

/-- `ExtendedGroupElement`, ge.rs:77-83. -/
structure Ext where
  x : Fe
  y : Fe
  z : Fe
  t : Fe
  deriving DecidableEq, Repr

/-- `CompletedGroupElement`, ge.rs:202-208. -/
structure Comp where
  x : Fe
  y : Fe
  z : Fe
  t : Fe
  deriving DecidableEq, Repr

/-- `CachedGroupElement`, ge.rs:329-335. -/
structure Cached where
  yPlusX : Fe
  yMinusX : Fe
  z : Fe
  t2d : Fe
  deriving DecidableEq, Repr

/-- `SQRT_M1`, constants.rs:56-58. -/
def feSqrtM1 : Fe :=
  [-32595792, -7943725, 9377950, 3500415, 12389472, -272473, -25146209, -2005654, 326686, 11406482]

/-- `D`, constants.rs:60-63. -/
def feD : Fe :=
  [-10913610, 13857413, -15372611, 6949391, 114729, -8787816, -6275908, -3247719, -18696448, -12055116]

/-- `D2`, constants.rs:65-68. -/
def feD2 : Fe :=
  [-21827239, -5839606, -30745221, 13898782, 229458, 15978800, -12551817, -6495438, 29715968, 9444199]

/-- `BASEEXT`, constants.rs:70-87. -/
def baseExt : Ext :=
  { x := [25485296, 5318399, 8791791, -8299916, -14349720, 6939349, -3324311, -7717049, 7287234, -6577708]
    y := [-758052, -1832720, 13046421, -4857925, 6576754, 14371947, -13139572, 6845540, -2198883, -4003719]
    z := [-947565, 6097708, -469190, 10704810, -8556274, -15589498, -16424464, -16608899, 14028613, -5004649]
    t := [6966464, -2456167, 7033433, 6781840, 28785542, 12262365, -2659449, 13959020, -21013759, -5262166] }

/-- `ProjectiveGroupElement::double`, ge.rs:35-49. -/
def Proj.double (p : Proj) : Comp :=
  let x := feSquare p.x
  let z := feSquare p.y
  let t := feSquare2 p.z
  let y := feAdd p.x p.y
  let t0 := feSquare y
  let y := feAdd z x
  let z := feSub z x
  let x := feSub t0 y
  let t := feSub t z
  ⟨x, y, z, t⟩

/-- `ExtendedGroupElement::neg`, ge.rs:86-91. -/
def Ext.neg (s : Ext) : Ext := ⟨feNeg s.x, feCopy s.y, feCopy s.z, feNeg s.t⟩

/-- `write_projective`, ge.rs:106-110. -/
def Ext.toProj (s : Ext) : Proj := ⟨feCopy s.x, feCopy s.y, feCopy s.z⟩

/-- `ExtendedGroupElement::double`, ge.rs:93-97. -/
def Ext.double (s : Ext) : Comp := s.toProj.double

/-- `write_cached`, ge.rs:99-104. -/
def Ext.toCached (s : Ext) : Cached := ⟨feAdd s.y s.x, feSub s.y s.x, feCopy s.z, feMul s.t feD2⟩

/-- `b[31] ^= v` on an array of 32 bytes. -/
def xorLast (b : Bytes) (v : UInt8) : Bytes := b.set 31 (b.getD 31 0 ^^^ v)

/-- `write_bytes`, ge.rs:112-122. -/
def Ext.bytes (s : Ext) : Bytes :=
  let recip := feInvert s.z
  let x := feMul s.x recip
  let y := feMul s.y recip
  xorLast (feToBytes y) (feIsNegative x <<< 7)

/-- The candidate `x = u v^3 (u v^7)^((q-5)/8)` of set_bytes with `u = y^2 - 1` and
`v = d y^2 + 1`, ge.rs:136-160, together with `u` and `v`. -/
def candidate (y : Fe) : Fe × Fe × Fe :=
  let u := feSquare y
  let v := feMul u feD
  let u := feSub u feOne
  let v := feAdd v feOne
  let v3 := feSquare v
  let v3 := feMul v3 v
  let x := feSquare v3
  let x := feMul x v
  let x := feMul x u
  let x := fePow22523 x
  let x := feMul x v3
  let x := feMul x u
  (x, u, v)

/-- The end of set_bytes, ge.rs:173-178. -/
def finishBytes (x y : Fe) (s : Bytes) : Ext :=
  let x := if feIsNegative x ≠ s.getD 31 0 >>> 7 then feNeg x else x
  ⟨x, y, feOne, feMul x y⟩

/-- `set_bytes`, ge.rs:124-179: the new receiver and the result. On failure the receiver has lost
its coordinates `x`, `y` and `z`. -/
def Ext.setBytes (self : Ext) (s : Bytes) : Ext × Bool :=
  if s.length ≠ 32 then (self, false)
  else
    let y := feFromBytes s
    let (x, u, v) := candidate y
    let vxx := feSquare x
    let vxx := feMul vxx v
    if feIsNonZero (feSub vxx u) = 1 then
      if feIsNonZero (feAdd vxx u) = 1 then (⟨x, y, feOne, self.t⟩, false)
      else (finishBytes (feMul x feSqrtM1) y s, true)
    else (finishBytes x y s, true)

/-- `ExtendedGroupElement::zero`, ge.rs:194-199. -/
def extZero : Ext := ⟨feZero, feOne, feOne, feZero⟩

/-- `ExtendedGroupElement::default()` (derived): all limbs zero. -/
def extDefault : Ext := ⟨feZero, feZero, feZero, feZero⟩

/-- `to_projective`, ge.rs:211-215. -/
def Comp.toProj (c : Comp) : Proj := ⟨feMul c.x c.t, feMul c.y c.z, feMul c.z c.t⟩

/-- `to_extended`, ge.rs:292-297. -/
def Comp.toExt (c : Comp) : Ext := ⟨feMul c.x c.t, feMul c.y c.z, feMul c.z c.t, feMul c.x c.y⟩

/-- `CompletedGroupElement::add`, ge.rs:217-234. -/
def compAdd (p : Ext) (q : Cached) : Comp :=
  let x := feAdd p.y p.x
  let y := feSub p.y p.x
  let z := feMul x q.yPlusX
  let y := feMul y q.yMinusX
  let t := feMul q.t2d p.t
  let x := feMul p.z q.z
  let t0 := feAdd x x
  let x := feSub z y
  let y := feAdd z y
  let z := feAdd t0 t
  let t := feSub t0 t
  ⟨x, y, z, t⟩

/-- `CompletedGroupElement::sub`, ge.rs:236-253. -/
def compSub (p : Ext) (q : Cached) : Comp :=
  let x := feAdd p.y p.x
  let y := feSub p.y p.x
  let z := feMul x q.yMinusX
  let y := feMul y q.yPlusX
  let t := feMul q.t2d p.t
  let x := feMul p.z q.z
  let t0 := feAdd x x
  let x := feSub z y
  let y := feAdd z y
  let z := feSub t0 t
  let t := feAdd t0 t
  ⟨x, y, z, t⟩

/-- `mixed_sub`, ge.rs:256-272. -/
def mixedSub (p : Ext) (q : Pre) : Comp :=
  let x := feAdd p.y p.x
  let y := feSub p.y p.x
  let z := feMul x q.yMinusX
  let y := feMul y q.yPlusX
  let t := feMul q.xy2d p.t
  let t0 := feAdd p.z p.z
  let x := feSub z y
  let y := feAdd z y
  let z := feSub t0 t
  let t := feAdd t0 t
  ⟨x, y, z, t⟩

/-- `mixed_add`, ge.rs:274-290. -/
def mixedAdd (p : Ext) (q : Pre) : Comp :=
  let x := feAdd p.y p.x
  let y := feSub p.y p.x
  let z := feMul x q.yPlusX
  let y := feMul y q.yMinusX
  let t := feMul q.xy2d p.t
  let t0 := feAdd p.z p.z
  let x := feSub z y
  let y := feAdd z y
  let z := feAdd t0 t
  let t := feSub t0 t
  ⟨x, y, z, t⟩

/-- `PreComputedGroupElement::zero`, ge.rs:308-312. -/
def preZero : Pre := ⟨feOne, feOne, feZero⟩

/-- `PreComputedGroupElement::cmove`, ge.rs:315-319. -/
def Pre.cmove (t u : Pre) (b : Int) : Pre :=
  ⟨feCMove t.yPlusX u.yPlusX b, feCMove t.yMinusX u.yMinusX b, feCMove t.xy2d u.xy2d b⟩

/-- `PreComputedGroupElement::neg`, ge.rs:322-326. -/
def Pre.neg (t : Pre) : Pre := ⟨feCopy t.yMinusX, feCopy t.yPlusX, feNeg t.xy2d⟩

/-- `CachedGroupElement::zero`, ge.rs:338-343. -/
def cachedZero : Cached := ⟨feOne, feOne, feOne, feZero⟩

/-- `CachedGroupElement::cmove`, ge.rs:346-351. -/
def Cached.cmove (t u : Cached) (b : Int) : Cached :=
  ⟨feCMove t.yPlusX u.yPlusX b, feCMove t.yMinusX u.yMinusX b, feCMove t.z u.z b, feCMove t.t2d u.t2d b⟩

/-- `CachedGroupElement::neg`, ge.rs:354-359. -/
def Cached.neg (t : Cached) : Cached := ⟨feCopy t.yMinusX, feCopy t.yPlusX, feCopy t.z, feNeg t.t2d⟩

/-- `equal`, ge.rs:412-416. -/
def geEqual (b c : Int) : Int :=
  ((((Int32.ofInt b ^^^ Int32.ofInt c).toUInt32 - 1) >>> 31).toNat : Int)

/-- `negative`, ge.rs:419-421. -/
def geNegative (b : Int) : Int := ((Int32.ofInt b >>> 31) &&& 1).toInt

/-- `b - (((-b_negative) & b) << 1)`, ge.rs:426 and ge.rs:490. -/
def geAbs (b : Int) : Int :=
  (Int32.ofInt b - (((-(Int32.ofInt (geNegative b))) &&& Int32.ofInt b) <<< 1)).toInt

/-- `select_pre_computed`, ge.rs:423-434; `pos` is below 32, an index out of range does not
occur. -/
def selectPre (tbl : List Pre) (b : Int) : Pre :=
  let t := (List.range 8).foldl (fun t i => t.cmove (tbl.getD i preZero) (geEqual (geAbs b) ((i : Int) + 1)))
    preZero
  t.cmove t.neg (geNegative b)

/-- `select_cached`, ge.rs:488-500. -/
def selectCached (ai : List Cached) (b : Int) : Cached :=
  let c := (List.range 8).foldl
    (fun c i => c.cmove (ai.getD i cachedZero) (geEqual (geAbs b) ((i : Int) + 1))) cachedZero
  c.cmove c.neg (geNegative b)

/-- The 64 nibbles of the scalar, ge.rs:445-448 and ge.rs:521-524. -/
def nibbles (a : Bytes) : List Int :=
  a.flatMap (fun (v : UInt8) => [((v &&& 15).toNat : Int), (((v >>> 4) &&& 15).toNat : Int)])

/-- The loop over the carry, ge.rs:452-458 and ge.rs:527-533, in `i8` arithmetic: every round reads
and writes the entry `e[i]` only; the last entry takes the carry. -/
def recode : Int → List Int → List Int
  | _, [] => []
  | c, [x] => [wrap 8 (x + c)]
  | c, x :: y :: xs =>
    let e := wrap 8 (x + c)
    let c' := sar (wrap 8 (e + 8)) 4
    wrap 8 (e - wrap 8 (c' * 2 ^ 4)) :: recode c' (y :: xs)

/-- The signed digits of a scalar. -/
def digits (a : Bytes) : List Int := recode 0 (nibbles a)

/-- One round of the two loops of ge_scalar_mult_base, ge.rs:464-468 and 481-485, for the
digit `e[i]`. -/
def baseRound (e : List Int) (h : Ext) (i : Nat) : Ext :=
  (mixedAdd h (selectPre (base.getD (i / 2) []) (e.getD i 0))).toExt

/-- `ge_scalar_mult_base`, ge.rs:442-486. -/
def scalarMultBase (a : Bytes) : Ext :=
  let e := digits a
  let h := ((List.range 64).filter (fun i => i % 2 ≠ 0)).foldl (baseRound e) extZero
  let r := h.double
  let r := r.toProj.double
  let r := r.toProj.double
  let r := r.toProj.double
  ((List.range 64).filter (fun i => i % 2 = 0)).foldl (baseRound e) r.toExt

/-- The table of the multiples 1 to 8, ge.rs:537-542: `n` further entries after an entry `c`. -/
def multiples (aP : Ext) : Nat → Cached → List Cached
  | 0, c => [c]
  | n + 1, c => c :: multiples aP n (compAdd aP c).toExt.toCached

/-- One round of the loop of ge_scalar_mult, ge.rs:549-564. -/
def multRound (ai : List Cached) (t : Comp) (d : Int) : Comp :=
  let t := t.toProj.double
  let t := t.toProj.double
  let t := t.toProj.double
  let t := t.toProj.double
  compAdd t.toExt (selectCached ai d)

/-- `ge_scalar_mult`, ge.rs:508-568. -/
def scalarMult (a : Bytes) (aP : Ext) : Ext :=
  let e := digits a
  let ai := multiples aP 7 aP.toCached
  let t := compAdd extZero (selectCached ai (e.getD 63 0))
  ((List.range 63).reverse.foldl (fun t i => multRound ai t (e.getD i 0)) t).toExt

/-! ## The interface of points

`Point` (point.rs:22-27) carries besides the group element a flag `var_time`. It is `false` by
default and no function sets it (only a deserialised value could have it set), so points are
modelled as their group element and `ge_scalar_mult_vartime` is in `Model/Ed/Vartime.lean`. -/

/-- `marshal_binary`, point.rs:36-40. -/
def ptMarshal (p : Ext) : Bytes := p.bytes

/-- `unmarshal_binary`, point.rs:43-50: the new receiver and whether it succeeded. -/
def ptUnmarshal (self : Ext) (data : Bytes) : Ext × Bool := self.setBytes data

/-- `add`, point.rs:179-188. -/
def ptAdd (p q : Ext) : Ext := (compAdd p q.toCached).toExt

/-- `sub`, point.rs:190-199. -/
def ptSub (p q : Ext) : Ext := (compSub p q.toCached).toExt

/-- `neg`, point.rs:201-204. -/
def ptNeg (p : Ext) : Ext := p.neg

/-- `mul`, point.rs:207-224. -/
def ptMul (s : Bytes) (p : Option Ext) : Ext :=
  match p with
  | none => scalarMultBase s
  | some p => scalarMult s p

/-- `eq`, point.rs:229-240: byte by byte over 32 positions. -/
def ptEq (p q : Ext) : Bool :=
  let b1 := p.bytes
  let b2 := q.bytes
  (List.range 32).all (fun i => b1.getD i 0 == b2.getD i 0)

/-- `embed_len`, point.rs:99-104. -/
def embedLen : Nat := (255 - 8 - 8) / 8

/-- `COFACTOR_SCALAR`, constants.rs:49 (see `C68_constants`). -/
def cofactorScalar : Bytes := 8 :: List.replicate 31 0

/-- `PRIME_ORDER_SCALAR`, constants.rs:45 (see `C68_constants`). -/
def primeOrderScalar : Bytes := leBytes 32 L

/-- The candidate encoding, point.rs:120-128. -/
def embedBytes (data : Option Bytes) (b : Bytes) : Bytes :=
  match data with
  | none => b
  | some d =>
    let dl := min embedLen d.length
    UInt8.ofNat dl :: (d.take dl ++ b.drop (1 + dl))

/-- One round of the loop of embed, point.rs:117-166, for the 32 bytes drawn: the receiver
afterwards, and whether it is returned. -/
def embedRound (data : Option Bytes) (self : Ext) (b : Bytes) : Ext × Bool :=
  match self.setBytes (embedBytes data b) with
  | (s, false) => (s, false)
  | (s, true) =>
    match data with
    | none =>
      let s := ptMul cofactorScalar (some s)
      (s, !ptEq s extZero)
    | some _ => (s, ptEq (ptMul primeOrderScalar (some s)) extZero)

/-- `embed`, point.rs:106-167, in at most `fuel` rounds; `none`: still running, `panic`: the
stream reported an error. -/
def embed {σ : Type} (S : Rand.Stream σ) (data : Option Bytes) : Nat → Ext → σ → Option (Res Unit Ext)
  | 0, _, _ => none
  | fuel + 1, self, st =>
    match S.xor st (List.replicate 32 0) (List.replicate 32 0) with
    | (st', .ok b) =>
      match embedRound data self b with
      | (s, true) => some (.ok s)
      | (s, false) => embed S data fuel s st'
    | (_, _) => some .panic

/-- `pick`, point.rs:90-92. -/
def ptPick {σ : Type} (S : Rand.Stream σ) (fuel : Nat) (self : Ext) (st : σ) : Option (Res Unit Ext) :=
  embed S none fuel self st

/-- `data`, point.rs:169-177; `none`: the error `EmbedDataLength`. -/
def ptData (p : Ext) : Option Bytes :=
  let b := p.bytes
  let dl := (b.getD 0 0).toNat
  if dl > embedLen then none else some ((b.drop 1).take dl)

/-- `WEAK_KEYS`, constants.rs:3744-3779. -/
def weakKeys : List Bytes :=
  [[0x00, 0x00, 0x00, 0x00, 0x00, 0x00, 0x00, 0x00, 0x00, 0x00, 0x00, 0x00, 0x00, 0x00, 0x00,
    0x00, 0x00, 0x00, 0x00, 0x00, 0x00, 0x00, 0x00, 0x00, 0x00, 0x00, 0x00, 0x00, 0x00, 0x00,
    0x00, 0x00],
   [0x01, 0x00, 0x00, 0x00, 0x00, 0x00, 0x00, 0x00, 0x00, 0x00, 0x00, 0x00, 0x00, 0x00, 0x00,
    0x00, 0x00, 0x00, 0x00, 0x00, 0x00, 0x00, 0x00, 0x00, 0x00, 0x00, 0x00, 0x00, 0x00, 0x00,
    0x00, 0x00],
   [0x26, 0xe8, 0x95, 0x8f, 0xc2, 0xb2, 0x27, 0xb0, 0x45, 0xc3, 0xf4, 0x89, 0xf2, 0xef, 0x98,
    0xf0, 0xd5, 0xdf, 0xac, 0x05, 0xd3, 0xc6, 0x33, 0x39, 0xb1, 0x38, 0x02, 0x88, 0x6d, 0x53,
    0xfc, 0x05],
   [0xc7, 0x17, 0x6a, 0x70, 0x3d, 0x4d, 0xd8, 0x4f, 0xba, 0x3c, 0x0b, 0x76, 0x0d, 0x10, 0x67,
    0x0f, 0x2a, 0x20, 0x53, 0xfa, 0x2c, 0x39, 0xcc, 0xc6, 0x4e, 0xc7, 0xfd, 0x77, 0x92, 0xac,
    0x03, 0x7a],
   [0xec, 0xff, 0xff, 0xff, 0xff, 0xff, 0xff, 0xff, 0xff, 0xff, 0xff, 0xff, 0xff, 0xff, 0xff,
    0xff, 0xff, 0xff, 0xff, 0xff, 0xff, 0xff, 0xff, 0xff, 0xff, 0xff, 0xff, 0xff, 0xff, 0xff,
    0xff, 0x7f]]

/-- The difference collected for one weak key, point.rs:294-301: the two loops touch `c[i]`
independently for each `i`. -/
def weakDiff (s w : Bytes) : UInt8 :=
  let c := (List.range 31).foldl (fun c j => c ||| (s.getD j 0 ^^^ w.getD j 0)) 0
  c ||| ((s.getD 31 0 &&& 0x7f) ^^^ w.getD 31 0)

/-- `has_small_order`, point.rs:286-310. -/
def hasSmallOrder (p : Ext) : Bool :=
  let s := ptMarshal p
  let k := weakKeys.foldl (fun (k : UInt16) w => k ||| ((weakDiff s w).toUInt16 - 1)) 0
  decide ((k >>> 8) &&& 1 > 0)

/-- `is_canonical`, point.rs:322-337 (it does not look at the receiver). -/
def ptIsCanonical (b : Bytes) : Bool :=
  if b.length ≠ 32 then false
  else
    let c : UInt8 := (b.getD 31 0 &&& 0x7f) ^^^ 0x7f
    let c := ((List.range 30).map (fun i => 30 - i)).foldl (fun c i => c ||| (b.getD i 0 ^^^ 0xff)) c
    let c := ((c.toUInt16 - 1) >>> 8).toUInt8
    let d := (((0xED : UInt16) - (1 - (b.getD 0 0).toUInt16)) >>> 8).toUInt8
    1 - (c &&& d &&& 1) == 1

/-- `new_key_and_seed_with_input`, curve.rs:74-87, for the digest of the buffer: the scalar and the
second half of the digest. -/
def clampKey (digest : Bytes) : Bytes × Bytes :=
  let digest := digest.set 0 (digest.getD 0 0 &&& 0xf8)
  let digest := digest.set 31 (digest.getD 31 0 &&& 0x7f)
  let digest := digest.set 31 (digest.getD 31 0 ||| 0x40)
  (digest.take 32, digest.drop 32)

end Kyber.Ed
