/-
The binary form of the messages: `encoding::marshal_binary`, `encoding::unmarshal_binary`
(`src/encoding/encodings.rs:49-59`) applied to the structures of the protocols.

Both call bincode (version 1.3, `bincode::serialize` and `bincode::deserialize`), which is not part of
the repository; what is modelled here is its documented format together with what the compiler derives
for `Serialize` and `Deserialize`: integers in little endian and of fixed size, `usize` and the lengths
of vectors in eight bytes, a `bool` as one byte that must be 0 or 1, arrays and structures as their
entries one after the other, in the order of declaration. `deserialize` does not mind further bytes at
the end and sets no limit on sizes.

Simplified: running out of memory is not modelled. The model is that of a machine with 64 bit `usize`.
Serialisation never fails (`marshal_binary` returns `Ok` for these types); deserialisation fails with
`none`, whatever the error. The two functions of a scalar and of a point are parameters, they belong to
the suite; `Verif/Model/Ed/Bincode.lean` gives those of edwards25519.
-/
import Verif.Model.Int
import Verif.Model.DkgPedersen
import Verif.Model.DkgRabin

namespace Kyber

open Kyber.ModInt (leBytes leNat)
open Kyber.Poly (Share)

/-- `Serialize` and `Deserialize` of a type, for bincode. `de` returns the value and the bytes that
follow it. -/
structure Bin (α : Type) where
  ser : α → Bytes
  de : Bytes → Option (α × Bytes)

namespace Bin

variable {α β γ : Type}

/-- `bincode::serialize`, as called in encodings.rs:49-51. -/
def marshal (B : Bin α) (a : α) : Bytes := B.ser a

/-- `bincode::deserialize`, as called in encodings.rs:53-59: the bytes after the value are ignored. -/
def unmarshal (B : Bin α) (b : Bytes) : Option α := (B.de b).map Prod.fst

/-- `[u8; n]`. -/
def array (n : Nat) : Bin Bytes where
  ser := id
  de b := if b.length < n then none else some (b.take n, b.drop n)

/-- An unsigned integer of `n` bytes. -/
def uint (n : Nat) : Bin Nat where
  ser x := leBytes n x
  de b := if b.length < n then none else some (leNat (b.take n), b.drop n)

/-- `u32`. -/
def u32 : Bin Nat := uint 4

/-- `usize`. -/
def usize : Bin Nat := uint 8

/-- `u8`. -/
def u8 : Bin UInt8 where
  ser x := [x]
  de
    | [] => none
    | x :: r => some (x, r)

/-- `bool`. -/
def bool : Bin Bool where
  ser x := [if x then 1 else 0]
  de
    | [] => none
    | x :: r => if x = 0 then some (false, r) else if x = 1 then some (true, r) else none

/-- One value after the other. -/
def pair (A : Bin α) (B : Bin β) : Bin (α × β) where
  ser x := A.ser x.1 ++ B.ser x.2
  de b := do
    let (a, r) ← A.de b
    let (c, r) ← B.de r
    some ((a, c), r)

/-- The same bytes for another type. -/
def iso (A : Bin α) (f : α → β) (g : β → α) : Bin β where
  ser x := A.ser (g x)
  de b := (A.de b).map (fun x => (f x.1, x.2))

/-- `n` values one after the other. -/
def deN (A : Bin α) : Nat → Bytes → Option (List α × Bytes)
  | 0, b => some ([], b)
  | n + 1, b => do
    let (a, r) ← A.de b
    let (l, r) ← deN A n r
    some (a :: l, r)

/-- `Vec<T>`: the number of entries, then the entries. -/
def vec (A : Bin α) : Bin (List α) where
  ser l := leBytes 8 l.length ++ l.flatMap A.ser
  de b := do
    let (n, r) ← usize.de b
    deN A n r

/-- `Vec<u8>`. -/
def bytes : Bin Bytes := vec u8

end Bin

open Bin

variable {F G : Type}

/-- `PriShare`, poly.rs:35-41. -/
def binShare (S : Bin F) : Bin (Share F) :=
  (usize.pair S).iso (fun x => ⟨x.1, x.2⟩) (fun s => (s.i, s.v))

namespace VssP

/-- `Deal`, pedersen/vss.rs:114-124. -/
def binDeal (S : Bin F) (P : Bin G) : Bin (Deal F G) :=
  (bytes.pair ((binShare S).pair (usize.pair (vec P)))).iso
    (fun x => ⟨x.1, x.2.1, x.2.2.1, x.2.2.2⟩) (fun d => (d.sessionId, d.secShare, d.t, d.commitments))

/-- `EncryptedDeal`, pedersen/vss.rs:173-184 and rabin/vss.rs:197-208. -/
def binEncrypted (P : Bin G) : Bin (EncryptedDeal G) :=
  (P.pair (bytes.pair (bytes.pair bytes))).iso
    (fun x => ⟨x.1, x.2.1, x.2.2.1, x.2.2.2⟩) (fun e => (e.dhkey, e.signature, e.nonce, e.cipher))

/-- `Response`, pedersen/vss.rs:199-209 and rabin/vss.rs:229-240. -/
def binResponse : Bin Response :=
  (bytes.pair (u32.pair (bool.pair bytes))).iso
    (fun x => ⟨x.1, x.2.1, x.2.2.1, x.2.2.2⟩) (fun r => (r.sessionId, r.index, r.status, r.signature))

/-- `Justification`, pedersen/vss.rs:244-254. -/
def binJustification (S : Bin F) (P : Bin G) : Bin (Justification F G) :=
  (bytes.pair (u32.pair ((binDeal S P).pair bytes))).iso
    (fun x => ⟨x.1, x.2.1, x.2.2.1, x.2.2.2⟩) (fun j => (j.sessionId, j.index, j.deal, j.signature))

/-- `Deal::marshal_binary`, pedersen/vss.rs:163-167, and `Deal::decode`, 155-159. -/
def binCodec (S : Bin F) (P : Bin G) : Codec F G := ⟨(binDeal S P).marshal, (binDeal S P).unmarshal⟩

end VssP

namespace VssR

/-- `Deal`, rabin/vss.rs:136-148. -/
def binDeal (S : Bin F) (P : Bin G) : Bin (Deal F G) :=
  (bytes.pair ((binShare S).pair ((binShare S).pair (usize.pair (vec P))))).iso
    (fun x => ⟨x.1, x.2.1, x.2.2.1, x.2.2.2.1, x.2.2.2.2⟩)
    (fun d => (d.sessionId, d.secShare, d.rndShare, d.t, d.commitments))

/-- `Justification`, rabin/vss.rs:267-277. -/
def binJustification (S : Bin F) (P : Bin G) : Bin (Justification F G) :=
  (bytes.pair (u32.pair ((binDeal S P).pair bytes))).iso
    (fun x => ⟨x.1, x.2.1, x.2.2.1, x.2.2.2⟩) (fun j => (j.sessionId, j.index, j.deal, j.signature))

/-- `Deal::marshal_binary`, rabin/vss.rs:187-191, and `Deal::decode`, 180-184. -/
def binCodec (S : Bin F) (P : Bin G) : Codec F G := ⟨(binDeal S P).marshal, (binDeal S P).unmarshal⟩

end VssR

namespace DkgP

/-- `DistKeyShare`, pedersen/structs.rs:18-29. -/
def binDistKeyShare (S : Bin F) (P : Bin G) : Bin (DistKeyShare F G) :=
  ((vec P).pair ((binShare S).pair (vec S))).iso
    (fun x => ⟨x.1, x.2.1, x.2.2⟩) (fun k => (k.commits, k.share, k.privatePoly))

/-- `Deal`, pedersen/structs.rs:76-86. This is what serde does with the structure when it is sent;
`Deal::marshal_binary` is `encDist`. -/
def binDeal (P : Bin G) : Bin (Deal G) :=
  (u32.pair ((VssP.binEncrypted P).pair bytes)).iso
    (fun x => ⟨x.1, x.2.1, x.2.2⟩) (fun d => (d.index, d.deal, d.signature))

/-- `Deal::marshal_binary`, pedersen/structs.rs:99-105: the bytes that are signed, without the
signature. -/
def encDist (P : Bin G) (index : Nat) (e : VssP.EncryptedDeal G) : Bytes :=
  (binDeal P).marshal ⟨index, e, []⟩

/-- `Response`, pedersen/structs.rs:109-116. -/
def binResponse : Bin Response :=
  (u32.pair VssP.binResponse).iso (fun x => ⟨x.1, x.2⟩) (fun r => (r.index, r.response))

/-- `Justification`, pedersen/structs.rs:131-138. -/
def binJustification (S : Bin F) (P : Bin G) : Bin (Justification F G) :=
  (u32.pair (VssP.binJustification S P)).iso (fun x => ⟨x.1, x.2⟩) (fun j => (j.index, j.justification))

end DkgP

namespace DkgR

/-- `DistKeyShare`, rabin/dkg.rs:60-66. -/
def binDistKeyShare (S : Bin F) (P : Bin G) : Bin (DistKeyShare F G) :=
  ((vec P).pair (binShare S)).iso (fun x => ⟨x.1, x.2⟩) (fun k => (k.commits, k.share))

/-- `Deal`, rabin/dkg.rs:116-123. -/
def binDeal (P : Bin G) : Bin (Deal G) :=
  (u32.pair (VssP.binEncrypted P)).iso (fun x => ⟨x.1, x.2⟩) (fun d => (d.index, d.deal))

/-- `Response`, rabin/dkg.rs:133-139. -/
def binResponse : Bin Response :=
  (u32.pair VssP.binResponse).iso (fun x => ⟨x.1, x.2⟩) (fun r => (r.index, r.response))

/-- `Justification`, rabin/dkg.rs:153-159. -/
def binJustification (S : Bin F) (P : Bin G) : Bin (Justification F G) :=
  (u32.pair (VssR.binJustification S P)).iso (fun x => ⟨x.1, x.2⟩) (fun j => (j.index, j.justification))

/-- `SecretCommits`, rabin/dkg.rs:173-183. -/
def binSecretCommits (P : Bin G) : Bin (SecretCommits G) :=
  (u32.pair ((vec P).pair (bytes.pair bytes))).iso
    (fun x => ⟨x.1, x.2.1, x.2.2.1, x.2.2.2⟩) (fun s => (s.index, s.commitments, s.sessionId, s.signature))

/-- `ComplaintCommits`, rabin/dkg.rs:222-233. -/
def binComplaintCommits (S : Bin F) (P : Bin G) : Bin (ComplaintCommits F G) :=
  (u32.pair (u32.pair ((VssR.binDeal S P).pair bytes))).iso
    (fun x => ⟨x.1, x.2.1, x.2.2.1, x.2.2.2⟩) (fun c => (c.index, c.dealerIndex, c.deal, c.signature))

/-- `ReconstructCommits`, rabin/dkg.rs:263-275. -/
def binReconstructCommits (S : Bin F) : Bin (ReconstructCommits F) :=
  (bytes.pair (u32.pair (u32.pair ((binShare S).pair bytes)))).iso
    (fun x => ⟨x.1, x.2.1, x.2.2.1, x.2.2.2.1, x.2.2.2.2⟩)
    (fun r => (r.sessionId, r.index, r.dealerIndex, r.share, r.signature))

end DkgR

end Kyber
