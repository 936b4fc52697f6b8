/-
Specification vocabulary for an honest run of the Pedersen DKG: the participants, the messages they
exchange, and the orders in which a participant may receive them.
-/
import Verif.Spec.DkgPedersen

namespace Kyber.Spec

open Kyber.Poly Kyber.VssP Kyber.DkgP

variable {F G : Type} [Field F] [AddCommGroup G] [SMul F G] [DecidableEq G]

/-- The data of `n` participants: keys, secret polynomials, the randomness of participant `i`
towards participant `j`, and the generators. -/
structure Net (F G : Type) where
  n : Nat
  t : Nat
  x : Nat → F
  sec : Nat → F
  draws : Nat → List F
  dh : Nat → Nat → F
  k : Nat → Nat → F
  rnd : Nat → Nat → F
  vk : Nat → Nat → F
  D : Nat → Dkg F G

namespace Net

/-- The public keys. -/
def pubs (E : DkgEnv F G) (N : Net F G) : List G := (List.range N.n).map (fun i => N.x i • E.suite.base)

/-- The participants are set up as the API asks for: distinct usable keys, usable nonces, and every
generator created with the same list and threshold. -/
structure Honest (E : DkgEnv F G) (N : Net F G) : Prop where
  nodup : (N.pubs E).Nodup
  x : ∀ i < N.n, Usable E.suite (N.x i • E.suite.base)
  k : ∀ i j, Usable E.suite (N.k i j • E.suite.base)
  rnd : ∀ i j, Usable E.suite (N.rnd i j • E.suite.base)
  vk : ∀ i j, Usable E.suite (N.vk i j • E.suite.base)
  start : ∀ i < N.n, newDistKeyGenerator E.suite (N.x i) (N.pubs E) N.t (N.sec i) (N.draws i) =
    .ok (N.D i)

/-- A participant `j` outside `H` who cheats without being noticed: its dealer has the key `x j` and
encrypts to every participant in `H` a deal whose share lies on the commitments at that participant's
index. Threshold, commitments and shares are its choice (`secretPoly` only has to give the shares), and
the commitments need not belong to a polynomial. -/
structure Convincing (E : DkgEnv F G) (N : Net F G) (H : Nat → Prop) (j : Nat) : Prop where
  long : (N.D j).dealer.long = N.x j
  verifiers : (N.D j).dealer.verifiers = N.pubs E
  ctx : (N.D j).dealer.hkdfContext = VssP.context E.suite (N.x j • E.suite.base) (N.pubs E)
  sid : (N.D j).dealer.sessionId = VssP.sessionId E.suite (N.x j • E.suite.base) (N.pubs E)
    (N.D j).dealer.secretCommits (N.D j).newT
  deals : (N.D j).dealer.deals = (List.range N.n).map (fun i => (⟨(N.D j).dealer.sessionId,
    (N.D j).dealer.secretPoly.eval i, (N.D j).newT, (N.D j).dealer.secretCommits⟩ : VssP.Deal F G))
  valid : VssP.validT (N.D j).newT (N.pubs E) = true
  check : ∀ i < N.n, H i → (⟨none, (N.D j).dealer.secretCommits⟩ : PubPoly G).check E.suite.base
    ((N.D j).dealer.secretPoly.eval i) = .ok true

/-- The participants in `H` follow the protocol, the others convince them. -/
structure Fair (E : DkgEnv F G) (N : Net F G) (H : Nat → Prop) : Prop where
  nodup : (N.pubs E).Nodup
  x : ∀ i < N.n, Usable E.suite (N.x i • E.suite.base)
  k : ∀ i j, Usable E.suite (N.k i j • E.suite.base)
  rnd : ∀ i j, Usable E.suite (N.rnd i j • E.suite.base)
  vk : ∀ i j, Usable E.suite (N.vk i j • E.suite.base)
  start : ∀ i < N.n, H i → newDistKeyGenerator E.suite (N.x i) (N.pubs E) N.t (N.sec i) (N.draws i) =
    .ok (N.D i)
  others : ∀ j < N.n, ¬ H j → N.Convincing E H j

/-- The encrypted deal of participant `j` for participant `i`. -/
def enc (E : DkgEnv F G) (N : Net F G) (j i : Nat) : EncryptedDeal G :=
  match (N.D j).dealer.encryptedDeal E.toEnv i (N.dh j i) (N.k j i) with
  | .ok e => e
  | _ => ⟨0, [], [], []⟩

/-- The signed deal of participant `j` for participant `i`. -/
def dealMsg (E : DkgEnv F G) (N : Net F G) (j i : Nat) : DkgP.Deal G :=
  { index := j, deal := N.enc E j i,
    signature := Schnorr.sign E.suite (N.rnd j i) (N.x j) (E.encDist j (N.enc E j i)) }

/-- The approval by participant `l` of the deal of participant `j`. -/
def respMsg (E : DkgEnv F G) (N : Net F G) (j l : Nat) : DkgP.Response :=
  let r : VssP.Response := ⟨(N.D j).dealer.sessionId, l, true, []⟩
  ⟨j, { r with signature := Schnorr.sign E.suite (N.vk l j) (N.x l) (r.hash E.suite) }⟩

end Net

/-- What can happen at a participant in an honest run. -/
inductive HMsg
  /-- it calls `deals()` -/
  | deals
  /-- it receives the deal of `j` -/
  | deal (j : Nat)
  /-- it receives the response of `l` to the deal of `j` -/
  | resp (j l : Nat)
  /-- it calls `set_timeout()` -/
  | timeout
  deriving DecidableEq

namespace HMsg

/-- The messages meant for participant `i` of `n`. -/
def Wanted (n i : Nat) : HMsg → Prop
  | .deals => True
  | .deal j => j < n ∧ j ≠ i
  | .resp j l => j < n ∧ l < n ∧ l ≠ i ∧ l ≠ j
  | .timeout => True

/-- The call made at participant `i`; `z` is randomness that is not used in an honest run. -/
def call (E : DkgEnv F G) (N : Net F G) (z : F) (i : Nat) : HMsg → DCall F G
  | .deals => .deals (N.dh i) (N.k i) (N.rnd i) (N.vk i i) z
  | .deal j => .deal (N.dealMsg E j i) (N.vk i j) z
  | .resp j l => .response (N.respMsg E j l) z
  | .timeout => .timeout

/-- The call succeeds in state `d` of participant `i`, and returns exactly the messages that the
other participants receive. -/
def Succeeds (E : DkgEnv F G) (N : Net F G) (z : F) (i : Nat) (d : Dkg F G) : HMsg → Prop
  | .deals => ∃ dd, (d.deals E (N.dh i) (N.k i) (N.rnd i) (N.vk i i) z).2 = .ok dd ∧
      ∀ j, dd.get j = if j < N.n ∧ j ≠ i then some (N.dealMsg E i j) else none
  | .deal j => (d.processDeal E (N.dealMsg E j i) (N.vk i j) z).2 = .ok (N.respMsg E j i)
  | .resp j l => (d.processResponse E (N.respMsg E j l) z).2 = .ok none
  | .timeout => True

end HMsg

/-- A possible history at participant `i`: messages meant for it, none delivered twice, in any
order; timeouts at any time. -/
structure Schedule (n i : Nat) (s : List HMsg) : Prop where
  wanted : ∀ m ∈ s, m.Wanted n i
  once : ∀ m, m ≠ .timeout → s.count m ≤ 1

/-- Everything meant for participant `i` has arrived. -/
def Complete (n i : Nat) (s : List HMsg) : Prop := ∀ m, m.Wanted n i → m ≠ .timeout → m ∈ s

end Kyber.Spec
