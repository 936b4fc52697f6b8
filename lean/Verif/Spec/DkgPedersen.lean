/-
Specification vocabulary for the Pedersen DKG: histories of calls on a participant.
-/
import Verif.Model.DkgPedersen
import Verif.Spec.VssPedersen

namespace Kyber.Spec

open Kyber.VssP Kyber.DkgP

variable {F G : Type} [Field F] [AddCommGroup G] [SMul F G] [DecidableEq G]

/-- The calls on a `DistKeyGenerator`, with arbitrary messages and randomness. -/
inductive DCall (F G : Type)
  /-- `deals()` -/
  | deals (dh k rnd : Nat → F) (vk vk' : F)
  /-- `process_deal(dd)` -/
  | deal (dd : DkgP.Deal G) (k k' : F)
  /-- `process_response(r)` -/
  | response (r : DkgP.Response) (k : F)
  /-- `process_justification(j)` -/
  | justification (j : DkgP.Justification F G)
  /-- `set_timeout()` -/
  | timeout

/-- The state after one call, whether it succeeds, fails or panics. -/
def dStep (E : DkgEnv F G) (d : Dkg F G) : DCall F G → Dkg F G
  | .deals dh k rnd vk vk' => (d.deals E dh k rnd vk vk').1
  | .deal dd k k' => (d.processDeal E dd k k').1
  | .response r k => (d.processResponse E r k).1
  | .justification j => (d.processJustification E j).1
  | .timeout => d.setTimeout

/-- The state after a history of calls. -/
def dRun (E : DkgEnv F G) (d : Dkg F G) (cs : List (DCall F G)) : Dkg F G :=
  cs.foldl (dStep E) d

/-- The dealers whose deal is certified. -/
def Qualified (d : Dkg F G) (i : Nat) : Prop :=
  ∃ v, d.verifiers.get i = some v ∧ v.aggregator.dealCertified = true

/-- A response signed by the node of `nodes` it names. -/
def Authentic (S : Suite F G) (nodes : List G) (r : VssP.Response) : Prop :=
  ∃ P, nodes[r.index]? = some P ∧ Schnorr.verify S P (r.hash S) r.signature = .ok ()

open Classical in
/-- The first authentic response of node `l` that arrives marked as an answer to dealer `i`. -/
noncomputable def firstHeard (S : Suite F G) (nodes : List G) (cs : List (DCall F G)) (i l : Nat) :
    Option VssP.Response :=
  cs.findSome? (fun c => match c with
    | .response r _ =>
      if r.index = i ∧ r.response.index = l ∧ Authentic S nodes r.response then some r.response
      else none
    | _ => none)

end Kyber.Spec
