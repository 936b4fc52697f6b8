/-
Specification vocabulary for an honest run of the Rabin DKG: the participants, the messages they
exchange, and the orders in which a participant may receive them.
-/
import Verif.Spec.DkgRabin

namespace Kyber.Spec

open Kyber.Poly Kyber.VssR Kyber.DkgR
open Kyber.VssP (EncryptedDeal)

variable {F G : Type} [Field F] [AddCommGroup G] [SMul F G] [DecidableEq G]

/-- The data of `n` participants: keys, secret and blinding polynomials, the randomness of
participant `i` towards participant `j`, and the generators. -/
structure RNet (F G : Type) where
  n : Nat
  t : Nat
  x : Nat → F
  sec : Nat → F
  fD : Nat → List F
  gD : Nat → List F
  dh : Nat → Nat → F
  k : Nat → Nat → F
  vk : Nat → Nat → F
  ck : Nat → F
  D : Nat → Dkg F G

namespace RNet

/-- The public keys. -/
def pubs (E : Env F G) (N : RNet F G) : List G := (List.range N.n).map (fun i => N.x i • E.suite.base)

/-- The participants are set up as the API asks for: distinct usable keys, usable nonces, and every
generator created with the same list and threshold. -/
structure Honest (E : Env F G) (N : RNet F G) : Prop where
  nodup : (N.pubs E).Nodup
  x : ∀ i < N.n, Usable E.suite (N.x i • E.suite.base)
  k : ∀ i j, Usable E.suite (N.k i j • E.suite.base)
  vk : ∀ i j, Usable E.suite (N.vk i j • E.suite.base)
  ck : ∀ i, Usable E.suite (N.ck i • E.suite.base)
  start : ∀ i < N.n, newDistKeyGenerator E (N.x i) (N.pubs E) N.t (N.sec i) (N.fD i) (N.gD i) =
    .ok (N.D i)

/-- The encrypted deal of participant `j` for participant `i`. -/
def enc (E : Env F G) (N : RNet F G) (j i : Nat) : EncryptedDeal G :=
  match (N.D j).dealer.encryptedDeal E i (N.dh j i) (N.k j i) with
  | .ok e => e
  | _ => ⟨0, [], [], []⟩

/-- The deal of participant `j` for participant `i`. -/
def dealMsg (E : Env F G) (N : RNet F G) (j i : Nat) : DkgR.Deal G := ⟨j, N.enc E j i⟩

/-- The approval by participant `l` of the deal of participant `j`. -/
def respMsg (E : Env F G) (N : RNet F G) (j l : Nat) : DkgR.Response :=
  let r : VssP.Response := ⟨(N.D j).dealer.sessionId, l, true, []⟩
  ⟨j, { r with signature := Schnorr.sign E.suite (N.vk l j) (N.x l) (r.hash E.suite) }⟩

/-- The polynomial of participant `j`. -/
def poly (N : RNet F G) (j : Nat) : List F := N.sec j :: (N.fD j).take (N.t - 1)

/-- The commitments to the polynomial of participant `j`, signed. -/
def commitMsg (E : Env F G) (N : RNet F G) (j : Nat) : SecretCommits G :=
  let sc : SecretCommits G :=
    ⟨j, (N.poly j).map (· • E.suite.base), (N.D j).dealer.sessionId, []⟩
  { sc with signature := Schnorr.sign E.suite (N.ck j) (N.x j) (sc.hash E.suite) }

end RNet

/-- What can happen at a participant in an honest run. -/
inductive RMsg
  /-- it calls `deals()` -/
  | deals
  /-- it receives the deal of `j` -/
  | deal (j : Nat)
  /-- it receives the response of `l` to the deal of `j` -/
  | resp (j l : Nat)
  /-- it calls `set_timeout()` -/
  | timeout
  /-- it calls `secret_commits()` -/
  | ownCommits
  /-- it receives the secret commitments of `j` -/
  | commits (j : Nat)
  deriving DecidableEq

namespace RMsg

/-- The messages meant for participant `i` of `n`. -/
def Wanted (n i : Nat) : RMsg → Prop
  | .deals => True
  | .deal j => j < n ∧ j ≠ i
  | .resp j l => j < n ∧ l < n ∧ l ≠ i ∧ l ≠ j
  | .timeout => True
  | .ownCommits => True
  | .commits j => j < n ∧ j ≠ i

/-- How participant `i` comes by the deal of `j`. -/
def dealOf (i j : Nat) : RMsg := if j = i then .deals else .deal j

/-- What participant `i` must have done or received before: a response needs the deal it is about;
the commitments of a dealer need its deal and all responses to it; a timeout is set after all deals
and responses have arrived. -/
def Needs (n i : Nat) : RMsg → RMsg → Prop
  | .resp j _, m' => m' = dealOf i j
  | .ownCommits, m' => m' = .deals ∨ ∃ l < n, l ≠ i ∧ m' = .resp i l
  | .commits j, m' => m' = .deal j ∨ ∃ l < n, l ≠ i ∧ l ≠ j ∧ m' = .resp j l
  | .timeout, m' => m'.Wanted n i ∧ (m' = .deals ∨ (∃ j, m' = .deal j) ∨ ∃ j l, m' = .resp j l)
  | .deals, _ => False
  | .deal _, _ => False

/-- The call made at participant `i`; `z` is randomness that is not used in an honest run. -/
def call (E : Env F G) (N : RNet F G) (z : F) (ord : MapOrder) (i : Nat) : RMsg → QCall F G
  | .deals => .deals (N.dh i) (N.k i) (N.vk i i)
  | .deal j => .deal (N.dealMsg E j i) (N.vk i j)
  | .resp j l => .response (N.respMsg E j l) z
  | .timeout => .timeout
  | .ownCommits => .ownCommits (N.ck i)
  | .commits j => .commits ord (N.commitMsg E j) z

/-- The call succeeds in state `d` of participant `i`, and returns exactly the messages that the
other participants receive. -/
def Succeeds (E : Env F G) (N : RNet F G) (z : F) (ord : MapOrder) (i : Nat) (d : Dkg F G) :
    RMsg → Prop
  | .deals => ∃ dd, (d.deals E (N.dh i) (N.k i) (N.vk i i)).2 = .ok dd ∧
      ∀ j, dd.get j = if j < N.n ∧ j ≠ i then some (N.dealMsg E i j) else none
  | .deal j => (d.processDeal E (N.dealMsg E j i) (N.vk i j)).2 = .ok (N.respMsg E j i)
  | .resp j l => (d.processResponse E (N.respMsg E j l) z).2 = .ok none
  | .timeout => True
  | .ownCommits => (d.secretCommits E.suite (N.ck i)).2 = .ok (N.commitMsg E i)
  | .commits j => (d.processSecretCommits E ord (N.commitMsg E j) z).2 = .ok none

end RMsg

/-- A possible history at participant `i`: messages meant for it, none delivered twice, each after
what it needs. -/
structure RSchedule (n i : Nat) (s : List RMsg) : Prop where
  wanted : ∀ m ∈ s, m.Wanted n i
  once : ∀ m, m ≠ .timeout → s.count m ≤ 1
  causal : ∀ pre m post, s = pre ++ m :: post → ∀ m', m.Needs n i m' → m' ∈ pre

/-- Everything meant for participant `i` has arrived. -/
def RComplete (n i : Nat) (s : List RMsg) : Prop := ∀ m, m.Wanted n i → m ≠ .timeout → m ∈ s

end Kyber.Spec
