/-
Specification vocabulary for the Rabin DKG: histories of calls on a participant.
-/
import Verif.Model.DkgRabin
import Verif.Spec.VssRabin

namespace Kyber.Spec

open Kyber.VssR Kyber.DkgR

variable {F G : Type} [Field F] [AddCommGroup G] [SMul F G] [DecidableEq G]

/-- The calls on a `DistKeyGenerator`, with arbitrary messages, randomness and iteration orders. -/
inductive QCall (F G : Type)
  /-- `deals()` -/
  | deals (dh k : Nat → F) (vk : F)
  /-- `process_deal(dd)` -/
  | deal (dd : DkgR.Deal G) (k : F)
  /-- `process_response(r)` -/
  | response (r : DkgR.Response) (k : F)
  /-- `process_justification(j)` -/
  | justification (j : DkgR.Justification F G)
  /-- `set_timeout()` -/
  | timeout
  /-- `secret_commits()` -/
  | ownCommits (k : F)
  /-- `process_secret_commits(sc)` -/
  | commits (ord : MapOrder) (sc : SecretCommits G) (k : F)
  /-- `process_complaint_commits(cc)` -/
  | complaint (ord : MapOrder) (cc : ComplaintCommits F G) (k : F)
  /-- `process_reconstruct_commits(rc)` -/
  | reconstruct (ord : MapOrder) (rc : ReconstructCommits F)

/-- The state after one call, whether it succeeds, fails or panics. -/
def qStep (E : Env F G) (d : Dkg F G) : QCall F G → Dkg F G
  | .deals dh k vk => (d.deals E dh k vk).1
  | .deal dd k => (d.processDeal E dd k).1
  | .response r k => (d.processResponse E r k).1
  | .justification j => (d.processJustification E j).1
  | .timeout => d.setTimeout
  | .ownCommits k => (d.secretCommits E.suite k).1
  | .commits ord sc k => (d.processSecretCommits E ord sc k).1
  | .complaint ord cc k => (d.processComplaintCommits E ord cc k).1
  | .reconstruct ord rc => (d.processReconstructCommits E ord rc).1

/-- The state after a history of calls. -/
def qRun (E : Env F G) (d : Dkg F G) (cs : List (QCall F G)) : Dkg F G :=
  cs.foldl (qStep E) d

/-- The dealers whose deal is certified. -/
def QualifiedR (d : Dkg F G) (i : Nat) : Prop :=
  ∃ v a, d.verifiers.get i = some v ∧ v.aggregator = some a ∧ a.dealCertified = true

/-- The deal that the participant holds from dealer `i`. -/
def HoldsDeal (d : Dkg F G) (i : Nat) (deal : VssR.Deal F G) : Prop :=
  ∃ v a, d.verifiers.get i = some v ∧ v.aggregator = some a ∧ a.deal = some deal

end Kyber.Spec
