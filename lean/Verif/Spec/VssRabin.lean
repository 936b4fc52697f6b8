/-
Specification vocabulary for the Rabin VSS: histories of calls on a verifier.
-/
import Verif.Model.VssRabin
import Verif.Spec.VssPedersen

namespace Kyber.Spec

open Kyber.VssR
open Kyber.VssP (EncryptedDeal Response)

/-- A deal that a verifier should accept, in plain terms: valid threshold for `n` verifiers, both
shares for the same index below `n`, and share times `B` plus blinding times `H` equal to the
committed polynomial at that index. -/
def GoodDealR {F G : Type} [Field F] [AddCommGroup G] [SMul F G] (B H : G) (n : Nat) (d : Deal F G) : Prop :=
  2 ≤ d.t ∧ d.t ≤ n ∧ d.secShare.i = d.rndShare.i ∧ d.secShare.i < n ∧ d.commitments ≠ [] ∧
  d.secShare.v • B + d.rndShare.v • H = pointVal d.commitments ((d.secShare.i + 1 : Nat) : F)

variable {F G : Type} [Field F] [AddCommGroup G] [SMul F G] [DecidableEq G]

/-- The calls on a verifier (and, through `Deref`, on its aggregator), with arbitrary
arguments. -/
inductive RCall (F G : Type)
  /-- `Verifier::process_encrypted_deal`; `k` is the nonce of the signature -/
  | encDeal (e : EncryptedDeal G) (k : F)
  /-- `Verifier::process_response` -/
  | response (r : Response)
  /-- `Verifier::process_justification` -/
  | justification (j : Justification F G)
  /-- `Verifier::set_timeout` -/
  | timeout
  /-- `Aggregator::unsafe_set_response_dkg` -/
  | unsafeSet (idx : Nat) (approval : Bool)
  /-- `Aggregator::verify_deal` -/
  | verifyDeal (d : Deal F G) (inclusion : Bool)
  /-- `Aggregator::add_response` -/
  | addResponse (r : Response)

/-- The messages of the protocol, without the local, unauthenticated methods. -/
def RCall.fromNetwork : RCall F G → Bool
  | .encDeal _ _ | .response _ | .justification _ | .timeout => true
  | _ => false

/-- The state after one call, whether it succeeds, fails or panics. -/
def rStep (E : Env F G) (v : Verifier F G) : RCall F G → Verifier F G
  | .encDeal e k => (v.processEncryptedDeal E e k).1
  | .response r => (v.processResponse E.suite r).1
  | .justification j => (v.processJustification E j).1
  | .timeout => v.setTimeout
  | .unsafeSet i b => v.onAggregator (fun a => a.unsafeSetResponseDkg i b)
  | .verifyDeal d b => v.onAggregator (fun a => (a.verifyDeal E d b).1)
  | .addResponse r => v.onAggregator (fun a => (a.addResponse r).1)

/-- The state after a history of calls. -/
def rRun (E : Env F G) (v : Verifier F G) (cs : List (RCall F G)) : Verifier F G :=
  cs.foldl (rStep E) v

end Kyber.Spec
