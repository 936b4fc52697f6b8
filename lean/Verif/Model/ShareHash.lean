/-
Model of `PubShare::hash` (`src/share/poly.rs`). `PriShare::hash` is `Dss.shareHash`.
-/
import Verif.Model.Dss

namespace Kyber.Poly

/-- `PubShare::hash`, poly.rs:389-394: `self.i as u32` keeps the low 32 bits of the index. -/
def pubShareHash {F G : Type} (S : Suite F G) (s : Share G) : Bytes := S.hash (S.encG s.v ++ u32le s.i)

end Kyber.Poly
