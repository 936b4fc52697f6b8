/-
Specification vocabulary for C123: what a participant hears about one dealer.
-/
import Verif.Spec.DkgRabin
import Verif.Spec.DkgPedersen

namespace Kyber.Spec

/-- A message about one dealer that everybody gets to see, or the end of waiting. -/
inductive About (J : Type)
  | response (r : VssP.Response)
  | justification (j : J)
  | timeout

/-- What a call on a participant of the Rabin DKG tells about dealer `j`. -/
def aboutR {F G : Type} (j : Nat) : QCall F G → Option (About (VssR.Justification F G))
  | .response r _ => if r.index = j then some (.response r.response) else none
  | .justification ju => if ju.index = j then some (.justification ju.justification) else none
  | .timeout => some .timeout
  | _ => none

/-- What a call on a participant of the Pedersen DKG tells about dealer `j`. -/
def aboutP {F G : Type} (j : Nat) : DCall F G → Option (About (VssP.Justification F G))
  | .response r _ => if r.index = j then some (.response r.response) else none
  | .justification ju => if ju.index = j then some (.justification ju.justification) else none
  | .timeout => some .timeout
  | _ => none

/-! ### Reliable broadcast -/

section

open Kyber.DkgR Kyber.VssR

/-- What everybody gets to see in the Rabin DKG. -/
inductive PublicR (F G : Type)
  | response (r : DkgR.Response)
  | justification (j : DkgR.Justification F G)
  | timeout
  | commits (sc : SecretCommits G)
  | complaint (cc : ComplaintCommits F G)
  | reconstruct (rc : ReconstructCommits F)
  deriving DecidableEq

/-- The public message, or the end of waiting, that a call processes. -/
def heardR {F G : Type} : QCall F G → Option (PublicR F G)
  | .response r _ => some (.response r)
  | .justification j => some (.justification j)
  | .timeout => some .timeout
  | .commits _ sc _ => some (.commits sc)
  | .complaint _ cc _ => some (.complaint cc)
  | .reconstruct _ rc => some (.reconstruct rc)
  | .deals .. | .deal .. | .ownCommits .. => none

variable {F G : Type} [Field F] [AddCommGroup G] [SMul F G] [DecidableEq G]

/-- The public message that a call returns. -/
def saidR (E : VssR.Env F G) (d : DkgR.Dkg F G) : QCall F G → Option (PublicR F G)
  | .deal dd k => match (d.processDeal E dd k).2 with
    | .ok r => some (.response r)
    | _ => none
  | .response r k => match (d.processResponse E r k).2 with
    | .ok (some j) => some (.justification j)
    | _ => none
  | .ownCommits k => match (d.secretCommits E.suite k).2 with
    | .ok sc => some (.commits sc)
    | _ => none
  | .commits ord sc k => match (d.processSecretCommits E ord sc k).2 with
    | .ok (some cc) => some (.complaint cc)
    | _ => none
  | .complaint ord cc k => match (d.processComplaintCommits E ord cc k).2 with
    | .ok rc => some (.reconstruct rc)
    | _ => none
  | _ => none

/-- Every public message that the calls return is among `B`. -/
def PublishesR (E : VssR.Env F G) (B : List (PublicR F G)) : DkgR.Dkg F G → List (QCall F G) → Prop
  | _, [] => True
  | d, c :: cs => (∀ m, saidR E d c = some m → m ∈ B) ∧ PublishesR E B (qStep E d c) cs

/-- The participants of `H` follow the Rabin DKG over a reliable broadcast channel: participant
`i` starts from `D i` and makes the calls `cs i`; all process the same public messages `B` in the same
order, everything they have to say is among these, all have dealt, and the deals they made for
each other have arrived. -/
structure BroadcastR (E : VssR.Env F G) (H : Finset Nat) (D : Nat → DkgR.Dkg F G) (B : List (PublicR F G))
    (cs : Nat → List (QCall F G)) : Prop where
  heard : ∀ i ∈ H, (cs i).filterMap heardR = B
  said : ∀ i ∈ H, PublishesR E B (D i) (cs i)
  dealt : ∀ i ∈ H, ∃ pre dh k vk post out, cs i = pre ++ QCall.deals dh k vk :: post ∧
    ((qRun E (D i) pre).deals E dh k vk).2 = .ok out ∧
    ∀ j ∈ H, j ≠ i → ∃ dd k', out.get j = some dd ∧ QCall.deal dd k' ∈ cs j

end

section

open Kyber.DkgP Kyber.VssP

/-- What everybody gets to see in the Pedersen DKG. -/
inductive PublicP (F G : Type)
  | response (r : DkgP.Response)
  | justification (j : DkgP.Justification F G)
  | timeout
  deriving DecidableEq

/-- The public message, or the end of waiting, that a call processes. -/
def heardP {F G : Type} : DCall F G → Option (PublicP F G)
  | .response r _ => some (.response r)
  | .justification j => some (.justification j)
  | .timeout => some .timeout
  | .deals .. | .deal .. => none

variable {F G : Type} [Field F] [AddCommGroup G] [SMul F G] [DecidableEq G]

/-- The public message that a call returns. -/
def saidP (E : DkgEnv F G) (d : DkgP.Dkg F G) : DCall F G → Option (PublicP F G)
  | .deal dd k k' => match (d.processDeal E dd k k').2 with
    | .ok r => some (.response r)
    | _ => none
  | .response r k => match (d.processResponse E r k).2 with
    | .ok (some j) => some (.justification j)
    | _ => none
  | _ => none

/-- Every public message that the calls return is among `B`. -/
def PublishesP (E : DkgEnv F G) (B : List (PublicP F G)) : DkgP.Dkg F G → List (DCall F G) → Prop
  | _, [] => True
  | d, c :: cs => (∀ m, saidP E d c = some m → m ∈ B) ∧ PublishesP E B (dStep E d c) cs

/-- The participants of `H` follow the Pedersen DKG over a reliable broadcast channel, as
`BroadcastR`. -/
structure BroadcastP (E : DkgEnv F G) (H : Finset Nat) (D : Nat → DkgP.Dkg F G) (B : List (PublicP F G))
    (cs : Nat → List (DCall F G)) : Prop where
  heard : ∀ i ∈ H, (cs i).filterMap heardP = B
  said : ∀ i ∈ H, PublishesP E B (D i) (cs i)
  dealt : ∀ i ∈ H, ∃ pre dh k rnd vk vk' post out, cs i = pre ++ DCall.deals dh k rnd vk vk' :: post ∧
    ((dRun E (D i) pre).deals E dh k rnd vk vk').2 = .ok out ∧
    ∀ j ∈ H, j ≠ i → ∃ dd k k', out.get j = some dd ∧ DCall.deal dd k k' ∈ cs j

end

end Kyber.Spec
