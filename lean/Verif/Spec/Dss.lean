/-
Specification vocabulary for distributed signatures.
-/
import Verif.Model.Dss
import Verif.Spec.Shamir

namespace Kyber.Spec

open Kyber.Poly Kyber.Dss

variable {F G : Type} [Field F]

/-- A call made on a `DSS` value by its owner: `partial_sig` (with the nonce it picks) or
`process_partial_sig` with an arbitrary message from the network. -/
inductive DssCall (F : Type)
  | own (k : F)
  | recv (ps : PartialSig F)

/-- The state after a call; a call that returns an error or panics leaves it as it was. -/
def dssStep [Add G] [Zero G] [SMul F G] [DecidableEq G] (S : Suite F G) (d : DSS F G) :
    DssCall F → DSS F G
  | .own k => match partialSig S k d with
    | .ok r => r.2
    | _ => d
  | .recv ps => match processPartialSig S d ps with
    | .ok d' => d'
    | _ => d

/-- The state after a sequence of calls. -/
def dssRun [Add G] [Zero G] [SMul F G] [DecidableEq G] (S : Suite F G) (d : DSS F G)
    (calls : List (DssCall F)) : DSS F G :=
  calls.foldl (dssStep S) d

/-- The challenge of the distributed signature: `H(R || A || msg)`. -/
def dssChallenge (S : Suite F G) (R A : G) (msg : Bytes) : F :=
  S.setBytes (S.sha512 (S.encG R ++ S.encG A ++ msg))

end Kyber.Spec
