/-
Specification vocabulary for C153: two runs of a key generation by the same group, and a participant of the
second one who is handed messages of the first.
-/
import Verif.Spec.DkgHonest
import Verif.Spec.DkgRabinHonest

namespace Kyber.Spec

open Kyber.Poly Kyber.VssP Kyber.DkgP

variable {F G : Type} [Field F] [AddCommGroup G] [SMul F G] [DecidableEq G]

/-- Two runs of the Pedersen DKG by one group: the same long-term keys, in the same order, and the same
threshold. Secrets, polynomials, nonces and ephemeral keys are independent. -/
structure SameGroup (N M : Net F G) : Prop where
  n : M.n = N.n
  t : M.t = N.t
  x : ∀ i < N.n, M.x i = N.x i

/-- The call made at participant `i` of the run `N` when, for the dealers in `old`, the deal and the responses
delivered are those of the run `M`. What participant `i` does itself belongs to `N`. -/
def replayed (E : DkgEnv F G) (N M : Net F G) (old : Nat → Bool) (z : F) (i : Nat) : HMsg → DCall F G
  | .deal j => .deal (if old j then M.dealMsg E j i else N.dealMsg E j i) (N.vk i j) z
  | .resp j l => .response (if old j then M.respMsg E j l else N.respMsg E j l) z
  | m => m.call E N z i

/-- Two runs of the Rabin DKG by one group. -/
structure SameGroupR (N M : RNet F G) : Prop where
  n : M.n = N.n
  t : M.t = N.t
  x : ∀ i < N.n, M.x i = N.x i

/-- The same for the Rabin DKG, where there are also the commitments revealed in the second phase. -/
def replayedR (E : VssR.Env F G) (N M : RNet F G) (old : Nat → Bool) (z : F) (ord : MapOrder) (i : Nat) :
    RMsg → QCall F G
  | .deal j => .deal (if old j then M.dealMsg E j i else N.dealMsg E j i) (N.vk i j)
  | .resp j l => .response (if old j then M.respMsg E j l else N.respMsg E j l) z
  | .commits j => .commits ord (if old j then M.commitMsg E j else N.commitMsg E j) z
  | m => m.call E N z ord i

end Kyber.Spec
