/-
Specification vocabulary for the dealers of the two VSS variants: histories of calls on a dealer.
-/
import Verif.Spec.VssPedersen
import Verif.Spec.VssRabin

namespace Kyber.Spec

variable {F G : Type} [Field F] [AddCommGroup G] [SMul F G] [DecidableEq G]

/-- The calls on a dealer after the deals are sent, with arbitrary responses. -/
inductive DlCall (F : Type)
  /-- `Dealer::process_response`; `k` is the nonce of the justification's signature -/
  | response (r : VssP.Response) (k : F)
  /-- `Dealer::set_timeout` -/
  | timeout

/-- The Pedersen dealer after one call, whether it succeeds, fails or panics
(`set_timeout`: src/share/vss/pedersen/vss.rs:458-460). -/
def dlStep (E : VssP.Env F G) (d : VssP.Dealer F G) : DlCall F → VssP.Dealer F G
  | .response r k => (d.processResponse E r k).1
  | .timeout => { d with aggregator := d.aggregator.setTimeout }

/-- The Pedersen dealer after a history of calls. -/
def dlRun (E : VssP.Env F G) (d : VssP.Dealer F G) (cs : List (DlCall F)) : VssP.Dealer F G :=
  cs.foldl (dlStep E) d

/-- The Rabin dealer after one call, whether it succeeds, fails or panics. -/
def dlStepR (E : VssR.Env F G) (d : VssR.Dealer F G) : DlCall F → VssR.Dealer F G
  | .response r k => (d.processResponse E r k).1
  | .timeout => d.setTimeout

/-- The Rabin dealer after a history of calls. -/
def dlRunR (E : VssR.Env F G) (d : VssR.Dealer F G) (cs : List (DlCall F)) : VssR.Dealer F G :=
  cs.foldl (dlStepR E) d

/-- `r` is a response to the deals of session `sid`, signed with the key at the index it names. -/
def Signed (S : Suite F G) (pubs : List G) (sid : Bytes) (r : VssP.Response) : Prop :=
  r.sessionId = sid ∧
  ∃ P, pubs[r.index]? = some P ∧ Schnorr.verify S P (r.hash S) r.signature = .ok ()

end Kyber.Spec
