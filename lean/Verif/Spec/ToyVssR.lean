/-
A concrete serialisation of Rabin deals for the toy suite, used in examples only.
-/
import Verif.Spec.ToyVss
import Verif.Model.VssRabin

namespace Kyber.Toy

/-- serialisation of the deals of the Rabin VSS -/
def codecR : VssR.Codec (ZMod 11) (ZMod 11) where
  enc d := encB d.sessionId ++ (encN d.secShare.i ++ (encF d.secShare.v ++ (encN d.rndShare.i ++
    (encF d.rndShare.v ++ (encN d.t ++ (encL d.commitments ++ []))))))
  dec b := do
    let (sid, b) ← decB b
    let (i, b) ← decN b
    let (v, b) ← decF b
    let (i', b) ← decN b
    let (v', b) ← decF b
    let (t, b) ← decN b
    let (cs, _) ← decL b
    some ⟨sid, ⟨i, v⟩, ⟨i', v'⟩, t, cs⟩

theorem codecR_lawful (d : VssR.Deal (ZMod 11) (ZMod 11)) :
    codecR.dec (codecR.enc d) = some d := by
  simp only [codecR, decB_encB, Option.bind_eq_bind, Option.bind_some, decN_encN, decF_encF,
    decL_encL]

/-- The environment of the Rabin VSS examples; the second base point is 5. -/
def envR : VssR.Env (ZMod 11) (ZMod 11) := ⟨suite, prims, codecR, fun _ => 5⟩

end Kyber.Toy
