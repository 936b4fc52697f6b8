/-
A concrete environment for the DKG, used in examples only.
-/
import Verif.Spec.ToyVss
import Verif.Spec.DkgHonest

namespace Kyber.Toy

open Kyber.VssP Kyber.DkgP Kyber.Spec

/-- serialisation of a distributed deal -/
def encDist (i : Nat) (e : EncryptedDeal (ZMod 11)) : Bytes :=
  encN i ++ encF e.dhkey ++ encB e.signature ++ encB e.nonce ++ encB e.cipher

/-- The environment for the Pedersen DKG. -/
def envD : DkgEnv (ZMod 11) (ZMod 11) := { envP with encDist := encDist }

/-- The same with a hash without collisions. -/
def envDI : DkgEnv (ZMod 11) (ZMod 11) :=
  { envP with suite := { suite with hash := fun b => b }, encDist := encDist }

theorem envDI_lawful : envDI.suite.Lawful where
  base_lin := ⟨fun a b => add_smul a b _, fun a b => mul_smul a b _⟩
  encG_length P := lawful.encG_length P
  encS_length P := lawful.encS_length P
  decG_encG := lawful.decG_encG
  decS_encS := lawful.decS_encS
  canonS_encS := lawful.canonS_encS
  canonS_unique := lawful.canonS_unique

/-- a generator, or nothing -/
def getDkg (r : Res DkgError (Dkg (ZMod 11) (ZMod 11))) : Dkg (ZMod 11) (ZMod 11) :=
  match r with
  | .ok d => d
  | _ => ⟨⟨0, [], none, [], none, 0, 0⟩, 0, ⟨none, []⟩, defaultDealer, [], [], 0, 0, 0, 0, false,
      false, false, false, false, false, false⟩

/-- Three participants with the keys 3, 5, 2, threshold 2. -/
def net (E : DkgEnv (ZMod 11) (ZMod 11)) : Net (ZMod 11) (ZMod 11) where
  n := 3
  t := 2
  x i := [3, 5, 2].getD i 1
  sec i := [7, 1, 4].getD i 0
  draws i := [[5], [6], [9]].getD i []
  dh i j := ((i + j + 1 : Nat) : ZMod 11)
  k i _ := if i = 0 then 4 else 6
  rnd _ j := if j = 0 then 8 else 3
  vk _ _ := 5
  D i := getDkg (newDistKeyGenerator E.suite ([3, 5, 2].getD i 1) [6, 10, 4] 2
    ([7, 1, 4].getD i 0) ([[5], [6], [9]].getD i []))

end Kyber.Toy
