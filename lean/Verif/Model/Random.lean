/-
Model of `src/cipher/stream.rs`, `src/xof/blake3/xof.rs` and `src/util/random/random_stream.rs`.
-/
import Verif.Model.Int

namespace Kyber.Rand

open Kyber Kyber.ModInt

/-- stream.rs:27-37 and xof.rs:133-141; `interrupted` is the I/O error of a write after a read.. -/
inductive StreamError where
  | shortDestination
  | wrongBufferLengths
  | readersFailure
  | interrupted
  deriving DecidableEq, Repr

/-- `a[i] ^ b[i]` for all positions of `a` (`b` is at least as long). -/
def xorBytes (a b : Bytes) : Bytes := List.zipWith (· ^^^ ·) a b

/-- The trait `Stream`, stream.rs:5-18: state, destination and source to new state and new
destination. A failing call leaves the destination alone in both implementations. -/
structure Stream (σ : Type) where
  xor : σ → (dst src : Bytes) → σ × Res StreamError Bytes

/-! ## The extendable output function -/

/-- `HashState` and `Xof`, xof.rs:10-23: what has been written, and once reading has begun the
number of bytes already read. The scratch buffer `key` is overwritten before each use and is not
modelled. -/
inductive Xof where
  | writeable (input : Bytes)
  | readable (input : Bytes) (pos : Nat)
  deriving DecidableEq, Repr

/-- BLAKE3: the unbounded output for an input, byte by byte. -/
abbrev XofFn := Bytes → Nat → UInt8

/-- The next `n` bytes of output from position `pos`. -/
def outBytes (H : XofFn) (input : Bytes) (pos n : Nat) : Bytes :=
  (List.range n).map (fun i => H input (pos + i))

/-- `Xof::new`, xof.rs:121-131. -/
def Xof.new (seed : Option Bytes) : Xof := .writeable (seed.getD [])

/-- `Read::read`, xof.rs:75-87: the first read finishes the input; a read always fills the
buffer. -/
def Xof.read (H : XofFn) (x : Xof) (n : Nat) : Xof × Bytes :=
  match x with
  | .readable input pos => (.readable input (pos + n), outBytes H input pos n)
  | .writeable input => (.readable input n, outBytes H input 0 n)

/-- `Write::write`, xof.rs:53-61. -/
def Xof.write (x : Xof) (buf : Bytes) : Xof × Res StreamError Nat :=
  match x with
  | .readable input pos => (.readable input pos, .err .interrupted)
  | .writeable input => (.writeable (input ++ buf), .ok buf.length)

/-- `Write::write_all` of the standard library after at most `fuel` calls of `write`: an error of
kind `Interrupted` is retried. `none`: not finished yet. -/
def Xof.writeAll (x : Xof) (buf : Bytes) : Nat → Xof × Option (Res StreamError Unit)
  | 0 => (x, none)
  | fuel + 1 =>
    if buf = [] then (x, some (.ok ()))
    else
      match x.write buf with
      | (x', .ok n) => Xof.writeAll x' (buf.drop n) fuel
      | (x', .err .interrupted) => Xof.writeAll x' buf fuel
      | (x', .err e) => (x', some (.err e))
      | (x', .panic) => (x', some .panic)

/-- `xor_key_stream`, xof.rs:25-46: the rest of a longer destination is not touched. -/
def Xof.xorKeyStream (H : XofFn) (x : Xof) (dst src : Bytes) : Xof × Res StreamError Bytes :=
  if dst.length < src.length then (x, .err .shortDestination)
  else
    let (x', key) := x.read H src.length
    (x', .ok (xorBytes src key ++ dst.drop src.length))

/-- `reseed`, xof.rs:97-113. -/
def Xof.reseed (H : XofFn) (x : Xof) : Xof :=
  let (_, key) := x.read H 128
  Xof.new (some key)

/-- The XOF as a `Stream`. -/
def Xof.stream (H : XofFn) : Stream Xof := ⟨Xof.xorKeyStream H⟩

/-! ## `RandStream` -/

/-- One reader: `read_exact` of 32 bytes, which may fail. -/
structure Reader (ρ : Type) where
  read32 : ρ → ρ × Option Bytes

/-- The loop over the readers, random_stream.rs:97-108: new states, collected bytes, number of
failures. -/
def readAll {ρ : Type} (R : Reader ρ) : List ρ → List ρ × Bytes × Nat
  | [] => ([], [], 0)
  | r :: rs =>
    let (r', o) := R.read32 r
    let (rs', b, nerr) := readAll R rs
    match o with
    | none => (r' :: rs', b, nerr + 1)
    | some bytes => (r' :: rs', bytes ++ b, nerr)

/-- `RandStream::xor_key_stream`, random_stream.rs:88-125. -/
def randXor {ρ : Type} (R : Reader ρ) (sha256 : Bytes → Bytes) (H : XofFn) (readers : List ρ)
    (dst src : Bytes) : List ρ × Res StreamError Bytes :=
  if src.length ≠ dst.length then (readers, .err .wrongBufferLengths)
  else
    let (readers', b, nerr) := readAll R readers
    if nerr = readers.length then (readers', .err .readersFailure)
    else (readers', (Xof.xorKeyStream H (Xof.new (some (sha256 b))) dst src).2)

/-- `RandStream` as a `Stream`. -/
def randStream {ρ : Type} (R : Reader ρ) (sha256 : Bytes → Bytes) (H : XofFn) : Stream (List ρ) :=
  ⟨randXor R sha256 H⟩

/-! ## Random bits and integers -/

/-- The masking of the drawn bytes in `bits`, random_stream.rs:21-32: `b[0]` panics on an empty
buffer. -/
def maskBits (bitLen : Nat) (exact : Bool) (b : Bytes) : Res StreamError Bytes :=
  let highbits := bitLen % 8
  let step1 : Res StreamError Bytes :=
    if highbits ≠ 0 then
      match b with
      | [] => .panic
      | x :: xs => .ok ((x &&& ~~~((0xff : UInt8) <<< UInt8.ofNat highbits)) :: xs)
    else .ok b
  step1.bind fun b =>
    if exact then
      match b with
      | [] => .panic
      | x :: xs =>
        if highbits ≠ 0 then .ok ((x ||| ((1 : UInt8) <<< UInt8.ofNat (highbits - 1))) :: xs)
        else .ok ((x ||| 0x80) :: xs)
    else .ok b

/-- The drawing in `bits`, random_stream.rs:18-20: an error of the stream is ignored and leaves
zeros. (`bit_len + 7` cannot wrap for a length that fits in memory.) -/
def drawBytes {σ : Type} (S : Stream σ) (s : σ) (n : Nat) : σ × Bytes :=
  let z : Bytes := List.replicate n 0
  match S.xor s z z with
  | (s', .ok b) => (s', b)
  | (s', _) => (s', z)

/-- `bits`, random_stream.rs:17-33. -/
def bits {σ : Type} (S : Stream σ) (s : σ) (bitLen : Nat) (exact : Bool) :
    σ × Res StreamError Bytes :=
  let (s', b) := drawBytes S s ((bitLen + 7) / 8)
  (s', maskBits bitLen exact b)

/-- `random_int`, random_stream.rs:36-46, after at most `fuel` turns of the loop; `none`: still
looping. -/
def randomInt {σ : Type} (S : Stream σ) (modulus : Nat) (s : σ) : Nat → σ × Option Nat
  | 0 => (s, none)
  | fuel + 1 =>
    match bits S s (bitLen modulus) false with
    | (s', .ok b) =>
      if 0 < beNat b ∧ beNat b < modulus then (s', some (beNat b))
      else randomInt S modulus s' fuel
    | (s', _) => (s', none)

/-- `bytes`, random_stream.rs:49-53. -/
def bytes {σ : Type} (S : Stream σ) (s : σ) (b : Bytes) : σ × Res StreamError Bytes :=
  S.xor s b (List.replicate b.length 0)

end Kyber.Rand
