/-
Key pairs, `src/util/key/key_pair.rs`, with the generator of `src/group/edwards25519/{curve,suite}.rs`.

SHA-512 is a parameter, as is the random stream.
-/
import Verif.Model.Ed.Ge

namespace Kyber.Ed

open Kyber Kyber.ModInt Kyber.Rand

/-- `Pair`, key_pair.rs:21-26. -/
structure Pair where
  pub : Ext
  priv : Bytes

/-- `new_key_and_seed`, curve.rs:92-102: secret, seed, and the second half of the digest. -/
def newKeyAndSeed {σ : Type} (sha : Bytes → Bytes) (S : Stream σ) (st : σ) :
    σ × Res StreamError (Bytes × Bytes × Bytes) :=
  match Rand.bytes S st (List.replicate 32 0) with
  | (st', .ok b) => (st', .ok ((clampKey (sha b)).1, b, (clampKey (sha b)).2))
  | (st', .err e) => (st', .err e)
  | (st', .panic) => (st', .panic)

/-- `new_key`, curve.rs:108-114, and suite.rs:75-82. -/
def newKeyOf {σ : Type} (sha : Bytes → Bytes) (S : Stream σ) (st : σ) : σ × Res StreamError (Option Bytes) :=
  match newKeyAndSeed sha S st with
  | (st', .ok k) => (st', .ok (some k.1))
  | (st', .err e) => (st', .err e)
  | (st', .panic) => (st', .panic)

/-- `gen`, key_pair.rs:57-68, for a suite with the generator `newKey` and the method `pick` of its
scalars; the errors of the generator are passed on. -/
def Pair.gen {σ ε : Type} (newKey : σ → σ × Res ε (Option Bytes)) (pick : σ → σ × Res ε Bytes) (st : σ) :
    σ × Res ε Pair :=
  match newKey st with
  | (st', .ok (some k)) => (st', .ok ⟨ptMul k none, k⟩)
  | (st', .ok none) =>
    match pick st' with
    | (st'', .ok k) => (st'', .ok ⟨ptMul k none, k⟩)
    | (st'', .err e) => (st'', .err e)
    | (st'', .panic) => (st'', .panic)
  | (st', .err e) => (st', .err e)
  | (st', .panic) => (st', .panic)

/-- `new_key_pair`, key_pair.rs:42-48, for `SuiteEd25519`. Its generator never returns `None`, so
that the stand-in for `pick` is not reached. -/
def newKeyPair {σ : Type} (sha : Bytes → Bytes) (S : Stream σ) (st : σ) : σ × Res StreamError Pair :=
  Pair.gen (newKeyOf sha S) (fun st => (st, .panic)) st

end Kyber.Ed
