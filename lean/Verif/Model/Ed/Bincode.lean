/-
The binary form of the scalars and points of edwards25519, as part of the messages.
-/
import Verif.Model.Bincode
import Verif.Model.Ed.Vartime

namespace Kyber.Ed

open Kyber

/-- `Scalar`, scalar.rs:23-26: an array of 32 bytes. -/
def binScalar : Bin Bytes := Bin.array 32

/-- `Point`, point.rs:22-27: forty `i32` values and the flag, 161 bytes. -/
def binPoint : Bin Pt where
  ser := Pt.ser
  de b := (Pt.de b).map (fun p => (p, b.drop 161))

/-- Entry by entry: the `PartialEq` of vectors. -/
def listEq {α : Type} (eq : α → α → Bool) : List α → List α → Bool
  | [], [] => true
  | a :: l, b :: m => eq a b && listEq eq l m
  | _, _ => false

/-- The `PartialEq` derived for `PriShare`, poly.rs:35, with that of `Scalar`, scalar.rs:78-83. -/
def shareEq (s s' : Poly.Share Bytes) : Bool := s.i == s'.i && s.v == s'.v

/-- The `PartialEq` derived for `Deal`, pedersen/vss.rs:114. -/
def dealEq (d d' : VssP.Deal Bytes Pt) : Bool :=
  d.sessionId == d'.sessionId && (shareEq d.secShare d'.secShare && (d.t == d'.t &&
    listEq Pt.eq d.commitments d'.commitments))

/-- The `PartialEq` derived for `Justification`, pedersen/vss.rs:243. -/
def justEq (j j' : VssP.Justification Bytes Pt) : Bool :=
  j.sessionId == j'.sessionId && (j.index == j'.index && (dealEq j.deal j'.deal && j.signature == j'.signature))

end Kyber.Ed
