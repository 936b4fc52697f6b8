/-
A concrete group of participants for the Rabin DKG, used in examples only.
-/
import Verif.Spec.ToyVssR
import Verif.Spec.DkgRabinHonest

namespace Kyber.Toy

open Kyber.VssR Kyber.DkgR Kyber.Spec

/-- The environment of the Rabin VSS with a hash without collisions. -/
def envRI : VssR.Env (ZMod 11) (ZMod 11) :=
  ⟨{ suite with hash := fun b => b }, prims, codecR, fun _ => 5⟩

theorem envRI_lawful : envRI.suite.Lawful where
  base_lin := ⟨fun a b => add_smul a b _, fun a b => mul_smul a b _⟩
  encG_length P := lawful.encG_length P
  encS_length P := lawful.encS_length P
  decG_encG := lawful.decG_encG
  decS_encS := lawful.decS_encS
  canonS_encS := lawful.canonS_encS
  canonS_unique := lawful.canonS_unique

/-- a generator, or nothing -/
def getDkgR (r : Res DkgError (Dkg (ZMod 11) (ZMod 11))) : Dkg (ZMod 11) (ZMod 11) :=
  match r with
  | .ok d => d
  | _ => ⟨0, 0, 0, [], 0, ⟨0, 0, 0, [], [], [], 0, [], [], newAggregator [] [] 0 []⟩, [], [], [], []⟩

/-- Three participants with the keys 3, 5, 2, threshold 2. -/
def netR (E : VssR.Env (ZMod 11) (ZMod 11)) : RNet (ZMod 11) (ZMod 11) where
  n := 3
  t := 2
  x i := [3, 5, 2].getD i 1
  sec i := [7, 1, 4].getD i 0
  fD i := [[5], [6], [9]].getD i []
  gD i := [[2, 8], [3, 7], [10, 1]].getD i []
  dh i j := ((i + j + 1 : Nat) : ZMod 11)
  k i _ := if i = 0 then 4 else 6
  vk _ _ := 5
  ck _ := 4
  D i := getDkgR (newDistKeyGenerator E ([3, 5, 2].getD i 1) [6, 10, 4] 2
    ([7, 1, 4].getD i 0) ([[5], [6], [9]].getD i []) ([[2, 8], [3, 7], [10, 1]].getD i []))

end Kyber.Toy
