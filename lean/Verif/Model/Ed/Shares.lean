/-
The code that checks and adds up shares, on the bytes that edwards25519 scalars are stored in and the
coordinates that points are stored in. `Scalar` derives `Deserialize` (scalar.rs:23): a share read from
a message holds whatever 32 bytes were sent.
-/
import Verif.Model.Ed.Ge
import Verif.Model.Ed.Scalar
import Verif.Model.VssPedersen
import Verif.Model.VssRabin

namespace Kyber.Ed

open Kyber Kyber.ModInt Kyber.Poly Kyber.Schnorr

/-- `PubPoly::eval`, poly.rs:457-469. `set_int64` cannot fail in the code; the model has the outcome of
its inner conversion, which is never a failure for the indices considered. -/
def pubEvalExt (commits : List Ext) (i : Nat) : Res PolyError Ext :=
  if commits.length = 0 then .panic
  else match scSetInt64 scZero (1 + i) with
    | .ok xi => .ok (commits.foldr (fun c v => ptAdd (ptMul xi (some v)) c) extZero)
    | _ => .panic

/-- `PubPoly::check`, poly.rs:526-530. -/
def pubCheckExt (b : Option Ext) (commits : List Ext) (s : Share Bytes) : Res PolyError Bool := do
  let pv ← pubEvalExt commits s.i
  .ok (ptEq pv (ptMul s.v b))

/-- The checks of the Pedersen `verify_deal`, share/vss/pedersen/vss.rs:887-912. -/
def checkDealExt (a : VssP.Aggregator Bytes Ext) (d : VssP.Deal Bytes Ext) : Res VssP.VssError Unit :=
  if VssP.validT d.t a.verifiers = false then .err .dealInvalidThreshold
  else if d.t ≠ a.t then .err .dealIncompatibleThreshold
  else if a.sid ≠ d.sessionId then .err .dealInvalidSessionId
  else if a.verifiers.length ≤ d.secShare.i then .err .dealIndexOutOfBounds
  else do
    let fig := ptMul d.secShare.v none
    let pubShare ← (pubEvalExt d.commitments d.secShare.i).mapErr .poly
    if ptEq fig pubShare = false then .err .dealDoesNotVerify else .ok ()

/-- `verify_deal`, share/vss/pedersen/vss.rs:876-913. -/
def verifyDealExt (a : VssP.Aggregator Bytes Ext) (d : VssP.Deal Bytes Ext) (inclusion : Bool) :
    VssP.Aggregator Bytes Ext × Res VssP.VssError Unit :=
  if a.deal.isSome && inclusion then (a, .err .dealAlreadyProcessed)
  else (a.remember d, checkDealExt (a.remember d) d)

/-- The checks of the Rabin `verify_deal`, share/vss/rabin/vss.rs:878-901; `h` is the second base point,
`derive_h`. -/
def checkDealRabinExt (h : Ext) (a : VssR.Aggregator Bytes Ext) (d : VssR.Deal Bytes Ext) : Res VssP.VssError Unit :=
  if VssP.validT d.t a.verifiers = false then .err .dealInvalidThreshold
  else if a.sid ≠ d.sessionId then .err .dealInvalidSessionId
  else if d.secShare.i ≠ d.rndShare.i then .err .dealInconsistentIndex
  else if a.verifiers.length ≤ d.secShare.i then .err .dealIndexOutOfBounds
  else do
    let ci := ptAdd (ptMul d.secShare.v none) (ptMul d.rndShare.v (some h))
    let pubShare ← (pubEvalExt d.commitments d.secShare.i).mapErr .poly
    if ptEq ci pubShare = false then .err .dealDoesNotVerify else .ok ()

/-- `PubPoly::add` on the commitments, poly.rs:486-505. -/
def pubAddExt (p q : List Ext) : Res PolyError (List Ext) :=
  if p.length ≠ q.length then .err .wrongCoefficientsNumber else .ok (List.zipWith ptAdd p q)

/-- The loop of `dkg_key`, share/dkg/pedersen/dkg.rs:906-939, over the deals of the qualified dealers in
the order of the iteration: sum of the shares, sum of the commitments. Stopping at the first error and
returning it is the same as keeping it until after the loop. -/
def dkgKeyLoop (sh : Bytes) (pubb : Option (List Ext)) : List (VssP.Deal Bytes Ext) →
    Res PolyError (Bytes × Option (List Ext))
  | [] => .ok (sh, pubb)
  | d :: ds =>
    let sh := scAdd sh d.secShare.v
    match pubb with
    | none => dkgKeyLoop sh (some d.commitments) ds
    | some p => do
      let p ← pubAddExt p d.commitments
      dkgKeyLoop sh (some p) ds

/-- `dkg_key`, share/dkg/pedersen/dkg.rs:905-954: the share and the commitments of the result;
`pubb.unwrap()` panics if no dealer qualified. -/
def dkgKeyExt (deals : List (VssP.Deal Bytes Ext)) : Res PolyError (Bytes × List Ext) := do
  let (sh, pubb) ← dkgKeyLoop scZero none deals
  match pubb with
  | some p => .ok (sh, p)
  | none => .panic

/-- The check of a partial signature in `process_partial_sig`, sign/dss/dss_sig.rs:263-273, given the
hash of the signature as a scalar. -/
def partialFitsExt (hash : Bytes) (random long : List Ext) (s : Share Bytes) : Res PolyError Bool := do
  let rnd ← pubEvalExt random s.i
  let lng ← pubEvalExt long s.i
  .ok (ptEq (ptMul s.v none) (ptAdd rnd (ptMul hash (some lng))))

end Kyber.Ed
