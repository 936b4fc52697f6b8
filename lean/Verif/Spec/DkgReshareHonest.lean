/-
Specification vocabulary for an honest resharing with the Pedersen DKG: old and new nodes, the
messages they exchange, and the orders in which a node may receive them.
-/
import Verif.Spec.DkgHonest
import Verif.Spec.Shamir
import Verif.Spec.DkgReshare

namespace Kyber.Spec

open Kyber.Poly Kyber.VssP Kyber.DkgP

variable {F G : Type} [Field F] [AddCommGroup G] [SMul F G] [DecidableEq G]

/-- The data of a resharing from `n` old nodes to `m` new ones: the old polynomial `f`, the keys, the
polynomials and the randomness of old node `j` towards new node `i`, the nonce `vk i j` of new node `i`
for its answer to old node `j`, the configurations and the generators. A node that belongs to both
groups has one generator, which occurs as `O j` and as `D i`. -/
structure ReNet (F G : Type) where
  n : Nat
  m : Nat
  t : Nat
  oldT : Nat
  f : List F
  xo : Nat → F
  xn : Nat → F
  draws : Nat → List F
  dh : Nat → Nat → F
  k : Nat → Nat → F
  rnd : Nat → Nat → F
  vk : Nat → Nat → F
  oc : Nat → Config F G
  nc : Nat → Config F G
  O : Nat → Dkg F G
  D : Nat → Dkg F G

namespace ReNet

/-- The public keys of the old and of the new nodes, and the commitments to the old polynomial. -/
def oldPubs (E : DkgEnv F G) (N : ReNet F G) : List G := (List.range N.n).map (fun j => N.xo j • E.suite.base)
@[inherit_doc oldPubs] def newPubs (E : DkgEnv F G) (N : ReNet F G) : List G :=
  (List.range N.m).map (fun i => N.xn i • E.suite.base)
@[inherit_doc oldPubs] def commits (E : DkgEnv F G) (N : ReNet F G) : List G := N.f.map (fun a => a • E.suite.base)

/-- The configuration of the node with key `x` agrees with the others. -/
structure Agrees (E : DkgEnv F G) (N : ReNet F G) (x : F) (c : Config F G) : Prop where
  longterm : c.longterm = x
  oldNodes : c.oldNodes = N.oldPubs E
  newNodes : c.newNodes = N.newPubs E
  threshold : c.threshold = N.t
  oldThreshold : c.oldThreshold = N.oldT
  coeffs : ∀ cs, c.publicCoeffs = some cs → cs = N.commits E
  share : ∀ sh, c.share = some sh → sh.commits = N.commits E

/-- The nodes are set up as the API asks for: distinct usable keys in each group, usable nonces,
configurations that agree; every old node gives its share of `f`, a new node that is not an old one
gives the commitments. -/
structure Honest (E : DkgEnv F G) (N : ReNet F G) : Prop where
  nodupO : (N.oldPubs E).Nodup
  nodupN : (N.newPubs E).Nodup
  xo : ∀ j < N.n, Usable E.suite (N.xo j • E.suite.base)
  xn : ∀ i < N.m, Usable E.suite (N.xn i • E.suite.base)
  k : ∀ j i, Usable E.suite (N.k j i • E.suite.base)
  rnd : ∀ j i, Usable E.suite (N.rnd j i • E.suite.base)
  vk : ∀ i j, Usable E.suite (N.vk i j • E.suite.base)
  f : N.f ≠ []
  agreeO : ∀ j < N.n, N.Agrees E (N.xo j) (N.oc j)
  agreeN : ∀ i < N.m, N.Agrees E (N.xn i) (N.nc i)
  holds : ∀ j < N.n, ∃ sh, (N.oc j).share = some sh ∧ sh.share.v = polyVal N.f ((j + 1 : Nat) : F)
  startO : ∀ j < N.n, ∃ s, newDistKeyHandler E.suite (N.oc j) s (N.draws j) = .ok (N.O j)
  startN : ∀ i < N.m, ∃ s dr, newDistKeyHandler E.suite (N.nc i) s dr = .ok (N.D i)
  knows : ∀ i < N.m, ((N.nc i).share.isSome || (N.nc i).publicCoeffs.isSome) = true
  both : ∀ i < N.m, (N.nc i).share.isSome = true → ∃ j < N.n, N.xn i = N.xo j ∧ N.D i = N.O j

/-- The encrypted deal of old node `j` for new node `i`. -/
def enc (E : DkgEnv F G) (N : ReNet F G) (j i : Nat) : EncryptedDeal G :=
  match (N.O j).dealer.encryptedDeal E.toEnv i (N.dh j i) (N.k j i) with
  | .ok e => e
  | _ => ⟨0, [], [], []⟩

/-- The signed deal of old node `j` for new node `i`. -/
def dealMsg (E : DkgEnv F G) (N : ReNet F G) (j i : Nat) : DkgP.Deal G :=
  { index := j, deal := N.enc E j i,
    signature := Schnorr.sign E.suite (N.rnd j i) (N.xo j) (E.encDist j (N.enc E j i)) }

/-- The approval by new node `l` of the deal of old node `j`. -/
def respMsg (E : DkgEnv F G) (N : ReNet F G) (j l : Nat) : DkgP.Response :=
  let r : VssP.Response := ⟨(N.O j).dealer.sessionId, l, true, []⟩
  ⟨j, { r with signature := Schnorr.sign E.suite (N.vk l j) (N.xn l) (r.hash E.suite) }⟩

/-- What new node `i` may be asked to do. It receives the deals of all old nodes, also its own if it
is one of them, and the responses of the other new nodes. -/
def WantedNew (N : ReNet F G) (i : Nat) : HMsg → Prop
  | .deals => True
  | .deal j => j < N.n
  | .resp j l => j < N.n ∧ l < N.m ∧ l ≠ i
  | .timeout => True

/-- What an old node that leaves may be asked to do: it receives all responses. -/
def WantedOld (N : ReNet F G) : HMsg → Prop
  | .deals => True
  | .deal _ => False
  | .resp j l => j < N.n ∧ l < N.m
  | .timeout => True

/-- The call made at new node `i`; `z` is randomness that is not used in an honest run. -/
def callNew (E : DkgEnv F G) (N : ReNet F G) (z : F) (i : Nat) : HMsg → DCall F G
  | .deals => .deals (N.dh (N.D i).oidx) (N.k (N.D i).oidx) (N.rnd (N.D i).oidx) z z
  | .deal j => .deal (N.dealMsg E j i) (N.vk i j) z
  | .resp j l => .response (N.respMsg E j l) z
  | .timeout => .timeout

/-- The call made at old node `j`, which leaves. -/
def callOld (E : DkgEnv F G) (N : ReNet F G) (z : F) (j : Nat) : HMsg → DCall F G
  | .deals => .deals (N.dh j) (N.k j) (N.rnd j) z z
  | .deal _ => .timeout
  | .resp j l => .response (N.respMsg E j l) z
  | .timeout => .timeout

/-- The call succeeds in state `d` of new node `i`, and returns exactly the messages that the other
nodes receive; a node without a share has no deals. -/
def SucceedsNew (E : DkgEnv F G) (N : ReNet F G) (z : F) (i : Nat) (d : Dkg F G) : HMsg → Prop
  | .deals => ∃ dd, (d.deals E (N.dh (N.D i).oidx) (N.k (N.D i).oidx) (N.rnd (N.D i).oidx) z z).2 = .ok dd ∧
      ((N.nc i).share = none → dd = []) ∧
      ∀ j < N.n, (N.nc i).share.isSome = true → N.xn i = N.xo j →
        ∀ l, dd.get l = if l < N.m then some (N.dealMsg E j l) else none
  | .deal j => (d.processDeal E (N.dealMsg E j i) (N.vk i j) z).2 = .ok (N.respMsg E j i)
  | .resp j l => (d.processResponse E (N.respMsg E j l) z).2 = .ok none
  | .timeout => True

/-- The same for old node `j`, which leaves. -/
def SucceedsOld (E : DkgEnv F G) (N : ReNet F G) (z : F) (j : Nat) (d : Dkg F G) : HMsg → Prop
  | .deals => ∃ dd, (d.deals E (N.dh j) (N.k j) (N.rnd j) z z).2 = .ok dd ∧
        ∀ l, dd.get l = if l < N.m then some (N.dealMsg E j l) else none
  | .deal _ => True
  | .resp j' l => (d.processResponse E (N.respMsg E j' l) z).2 = .ok none
  | .timeout => True

/-- A possible history: messages meant for the node, none delivered twice, in any order; timeouts and
calls of `deals` at any time. -/
structure Sched (wanted : HMsg → Prop) (s : List HMsg) : Prop where
  wanted : ∀ m ∈ s, wanted m
  once : ∀ m, m ≠ .timeout → m ≠ .deals → s.count m ≤ 1

/-- Every deal and response meant for the node has arrived. -/
def Done (wanted : HMsg → Prop) (s : List HMsg) : Prop :=
  ∀ m, wanted m → m ≠ .timeout → m ≠ .deals → m ∈ s

/-- The polynomial that old node `j` shares out for the threshold `T`: its share of `f` is the
constant term. -/
def poly (N : ReNet F G) (T j : Nat) : List F :=
  polyVal N.f ((j + 1 : Nat) : F) :: (N.draws j).take (T - 1)

/-- The new polynomial: the combination of those of the first `f.length` old nodes that interpolates
at zero. -/
def newPoly (N : ReNet F G) (T : Nat) : List F :=
  combine (F := F) (Finset.range N.f.length) (N.poly T) T

end ReNet

end Kyber.Spec
