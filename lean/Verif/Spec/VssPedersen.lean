/-
Specification vocabulary for the Pedersen VSS: histories of calls on a verifier.
-/
import Verif.Model.VssPedersen
import Verif.Spec.Shamir

namespace Kyber.Spec

open Kyber.VssP

variable {F G : Type} [Field F] [AddCommGroup G] [SMul F G] [DecidableEq G]

/-- The calls on a verifier (and, through `Deref`, on its aggregator), with arbitrary
arguments. -/
inductive VCall (F G : Type)
  /-- `Verifier::process_encrypted_deal`; `k` is the nonce of the signature -/
  | encDeal (e : EncryptedDeal G) (k : F)
  /-- `Verifier::process_response` -/
  | response (r : Response)
  /-- `Verifier::process_justification` -/
  | justification (j : Justification F G)
  /-- `Verifier::set_timeout` -/
  | timeout
  /-- `Aggregator::set_threshold` -/
  | setThreshold (t : Nat)
  /-- `Verifier::unsafe_set_response_dkg` -/
  | unsafeSet (idx : Nat) (approval : Bool)
  /-- `Aggregator::verify_deal` -/
  | verifyDeal (d : Deal F G) (inclusion : Bool)
  /-- `Aggregator::add_response` -/
  | addResponse (r : Response)

/-- The messages of the protocol, without the local, unauthenticated methods. -/
def VCall.fromNetwork : VCall F G → Bool
  | .encDeal _ _ | .response _ | .justification _ | .timeout => true
  | _ => false

/-- The state after one call, whether it succeeds, fails or panics. -/
def vStep (E : Env F G) (v : Verifier F G) : VCall F G → Verifier F G
  | .encDeal e k => (v.processEncryptedDeal E e k).1
  | .response r => (v.processResponse E.suite r).1
  | .justification j => (v.processJustification E.suite j).1
  | .timeout => v.setTimeout
  | .setThreshold t => { v with aggregator := v.aggregator.setThreshold t }
  | .unsafeSet i b => v.unsafeSetResponseDkg i b
  | .verifyDeal d b => { v with aggregator := (v.aggregator.verifyDeal E.suite d b).1 }
  | .addResponse r => { v with aggregator := (v.aggregator.addResponse r).1 }

/-- The state after a history of calls. -/
def vRun (E : Env F G) (v : Verifier F G) (cs : List (VCall F G)) : Verifier F G :=
  cs.foldl (vStep E) v

/-- A point whose encoding passes the checks of `schnorr::verify`. -/
def Usable (S : Suite F G) (P : G) : Prop := S.canonG (S.encG P) = true ∧ S.small P = false

/-- The indices below `n` with a stored approval. -/
def approvedBy (resp : AMap Response) (n : Nat) : Finset Nat :=
  (Finset.range n).filter (fun i => ∃ r, resp.get i = some r ∧ r.status = true)

/-- The indices below `n` with a stored complaint. -/
def complainedBy (resp : AMap Response) (n : Nat) : Finset Nat :=
  (Finset.range n).filter (fun i => ∃ r, resp.get i = some r ∧ r.status = false)

/-- The indices below `n` without a stored response. -/
def missing (resp : AMap Response) (n : Nat) : Finset Nat :=
  (Finset.range n).filter (fun i => resp.get i = none)

end Kyber.Spec
