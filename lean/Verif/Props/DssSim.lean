/-
Property C147: a threshold signature gives away nothing but the signature. What fewer than `t` holders get from any
number of DSS sessions under one key can be computed from the public keys, the signatures and uniform scalars
(`src/sign/dss/dss_sig.rs`). The keys with which the participants sign their messages are theirs and have nothing to do
with the distributed key; the simulator may use them.
-/
import Verif.Props.FeldmanSim

set_option linter.unusedSectionVars false

namespace Kyber.Spec

open Kyber.Poly Kyber.Schnorr Kyber.Dss

variable {F G : Type} [Field F]

/-- The polynomial with the value `s` at zero and `y i` at the points of `C`, in the coefficients of `SimBasis`. -/
def simPoly (t : Nat) (C : Finset Nat) (e0 : List F) (e : Nat → List F) (s : F) (y : Nat → F) : List F :=
  (List.range t).map (fun k => e0.getD k 0 * s + ∑ i ∈ C, y i * (e i).getD k 0)

/-- One signature: the secret of the random key, the message, and for each participant the scalar that it picks to sign
its message. -/
structure Signing (F : Type) where
  nonce : F
  msg : Bytes
  own : Nat → F

/-- What fewer than `t` holders get: their shares of the key and its commitments, and in each session their shares of
the random key, its commitments and the messages of everybody. -/
structure SignView (F G : Type) (C : Finset Nat) (m : Nat) where
  shares : C → F
  commits : List G
  sessions : Fin m → (C → F) × List G × (Nat → Res DssError (PartialSig F))

/-- What a part of the coalition gets. -/
def SignView.restrict {F G : Type} {C : Finset Nat} {m : Nat} (v : SignView F G C m) (D : Finset Nat) (hD : D ⊆ C) :
    SignView F G D m :=
  ⟨fun i => v.shares ⟨i.1, hD i.2⟩, v.commits, fun l =>
    (fun i => (v.sessions l).1 ⟨i.1, hD i.2⟩, (v.sessions l).2.1, (v.sessions l).2.2)⟩

variable [AddCommGroup G] [SMul F G] [DecidableEq G]

/-- The message of participant `i`: `new_dss` and `partial_sig` with its shares of the two polynomials. -/
def sentPartial (S : Suite F G) (x : Nat → F) (participants : List G) (t : Nat) (as rs : List F) (msg : Bytes) (k : F)
    (i : Nat) : Res DssError (PartialSig F) := do
  let d ← newDss S (x i) participants ⟨(⟨as⟩ : PriPoly F).eval i, as.map (fun c => c • S.base)⟩
    ⟨(⟨rs⟩ : PriPoly F).eval i, rs.map (fun c => c • S.base)⟩ msg t
  let p ← partialSig S k d
  .ok p.1

/-- The message that the simulator writes for participant `i`, from the public key `A`, the signature `R`, `s` and the
shares `y` and `z` of the coalition. -/
def simPartial (S : Suite F G) (x : Nat → F) (participants : List G) (t : Nat) (C : Finset Nat) (e0 : List F)
    (e : Nat → List F) (A R : G) (s : F) (y z : Nat → F) (msg : Bytes) (k : F) (i : Nat) :
    Res DssError (PartialSig F) :=
  match participants.findIdx? (fun p => decide (p = x i • S.base)) with
  | none => .err .publicKeyNotInParticipants
  | some j =>
    let h := dssChallenge S R A msg
    let sh : Share F := ⟨j, polyVal (simPoly t C e0 e s (fun l => h * y l + z l)) ((i + 1 : Nat) : F)⟩
    let sid := S.hash (((simCommits S.base t C e0 e A y).map S.encG).flatten ++
      ((simCommits S.base t C e0 e R z).map S.encG).flatten)
    .ok ⟨sh, sid, sign S k (x i) (partialHash S sh sid)⟩

/-- What the coalition gets from the sessions `ss`, with the polynomials `as` of the key and `rs l` of the random keys. -/
def signView (S : Suite F G) (x : Nat → F) (participants : List G) (t : Nat) (C : Finset Nat) {m : Nat}
    (ss : Fin m → Signing F) (as : List F) (rs : Fin m → List F) : SignView F G C m :=
  ⟨fun i => ((⟨as⟩ : PriPoly F).eval i.1).v, as.map (fun c => c • S.base), fun l =>
    (fun i => ((⟨rs l⟩ : PriPoly F).eval i.1).v, (rs l).map (fun c => c • S.base), fun i =>
      sentPartial S x participants t as (rs l) (ss l).msg ((ss l).own i) i)⟩

/-- What the simulator makes for the coalition, from the public key `A`, the signatures `sig` and scalars `y`, `z`. -/
def simSignView (S : Suite F G) (x : Nat → F) (participants : List G) (t : Nat) (C : Finset Nat) (e0 : List F)
    (e : Nat → List F) {m : Nat} (msgs : Fin m → Bytes) (own : Fin m → Nat → F) (A : G) (sig : Fin m → G × F)
    (y : C → F) (z : Fin m → C → F) : SignView F G C m :=
  ⟨y, simCommits S.base t C e0 e A (extend y), fun l =>
    (z l, simCommits S.base t C e0 e (sig l).1 (extend (z l)), fun i =>
      simPartial S x participants t C e0 e A (sig l).1 (sig l).2 (extend y) (extend (z l)) (msgs l) (own l i) i)⟩

end Kyber.Spec

namespace Kyber.Props

open Kyber Kyber.Poly Kyber.Spec Kyber.Schnorr Kyber.Dss

variable {F G : Type} [Field F]

/-- A polynomial of length `t` is determined by its value at zero and at the points of `C`. -/
theorem eq_simPoly {t : Nat} {C : Finset Nat} {e0 : List F} {e : Nat → List F} (he : SimBasis t C e0 e) (f : List F)
    (hf : f.length = t) (y : Nat → F) (hy : ∀ i ∈ C, y i = polyVal f ((i + 1 : Nat) : F)) :
    f = simPoly t C e0 e (f.getD 0 0) y := by
  unfold simPoly
  refine List.ext_getElem (by simp [hf]) (fun k h1 h2 => ?_)
  have hk : k < t := by simpa using h2
  rw [List.getElem_map, List.getElem_range]
  have hfk : f[k]'(by omega) = f.getD k 0 := by
    rw [List.getD_eq_getElem?_getD, List.getElem?_eq_getElem (by omega)]; rfl
  rw [hfk, he.spec f hf k hk]
  congr 1
  exact Finset.sum_congr rfl (fun i hi => by rw [hy i hi])

variable [AddCommGroup G] [DecidableEq G] [SMul F G]

/-- C147: the message of every participant is a fixed function of the public key, the signature, the shares of the
coalition, and the key with which the participant signs its message. -/
theorem C147_message {S : Suite F G} (hB : Lin F S.base) (x : Nat → F) (participants : List G) {t : Nat}
    {C : Finset Nat} {e0 : List F} {e : Nat → List F} (he : SimBasis t C e0 e) (a r : F) (as rs : List F)
    (ha : (a :: as).length = t) (hr : (r :: rs).length = t) (y z : Nat → F)
    (hy : ∀ i ∈ C, y i = ((⟨a :: as⟩ : PriPoly F).eval i).v) (hz : ∀ i ∈ C, z i = ((⟨r :: rs⟩ : PriPoly F).eval i).v)
    (msg : Bytes) (k : F) (i : Nat) :
    sentPartial S x participants t (a :: as) (r :: rs) msg k i =
      simPartial S x participants t C e0 e (a • S.base) (r • S.base)
        (r + dssChallenge S (r • S.base) (a • S.base) msg * a) y z msg k i := by
  have hA := C146_commits hB he (a :: as) ha y hy
  have hR := C146_commits hB he (r :: rs) hr z hz
  rw [List.getD_cons_zero] at hA hR
  unfold simPartial
  rw [← hA, ← hR]
  generalize hh : dssChallenge S (r • S.base) (a • S.base) msg = h
  have hp := eq_simPoly he (List.zipWith (· + ·) ((a :: as).map (h * ·)) (r :: rs)) (by
      simp only [List.length_zipWith, List.length_map, ha, hr, min_self])
    (fun l => h * y l + z l) (fun l hl => by
      rw [polyVal_zipWith_add (by simp_all), Dss.polyVal_map_mul]
      simp only [hy l hl, hz l hl, eval_v])
  have h0 : (List.zipWith (· + ·) ((a :: as).map (h * ·)) (r :: rs)).getD 0 0 = r + h * a := by simp [add_comm]
  rw [h0] at hp
  have hv : polyVal (simPoly t C e0 e (r + h * a) (fun l => h * y l + z l)) ((i + 1 : Nat) : F) =
      h * ((⟨a :: as⟩ : PriPoly F).eval i).v + ((⟨r :: rs⟩ : PriPoly F).eval i).v := by
    rw [← hp, polyVal_zipWith_add (by simp_all), Dss.polyVal_map_mul, eval_v, eval_v]
  dsimp only
  rw [hv]
  unfold sentPartial newDss
  dsimp only
  cases participants.findIdx? (fun p => decide (p = x i • S.base)) with
  | none => rfl
  | some j =>
    subst hh
    rfl

/-- C147: what the coalition gets from any number of sessions is what the simulator makes. -/
theorem C147_view {S : Suite F G} (hB : Lin F S.base) (x : Nat → F) (participants : List G) {t : Nat}
    {C : Finset Nat} {e0 : List F} {e : Nat → List F} (he : SimBasis t C e0 e) {m : Nat} (ss : Fin m → Signing F)
    (a : F) (as : List F) (ha : (a :: as).length = t) (rs : Fin m → List F)
    (hr : ∀ l, ((ss l).nonce :: rs l).length = t) (y : C → F) (z : Fin m → C → F)
    (hy : ∀ i, y i = ((⟨a :: as⟩ : PriPoly F).eval i.1).v)
    (hz : ∀ l i, z l i = ((⟨(ss l).nonce :: rs l⟩ : PriPoly F).eval i.1).v) :
    signView S x participants t C ss (a :: as) (fun l => (ss l).nonce :: rs l) =
      simSignView S x participants t C e0 e (fun l => (ss l).msg) (fun l => (ss l).own) (a • S.base)
        (fun l => ((ss l).nonce • S.base,
          (ss l).nonce + dssChallenge S ((ss l).nonce • S.base) (a • S.base) (ss l).msg * a)) y z := by
  have hy' : ∀ i ∈ C, extend y i = ((⟨a :: as⟩ : PriPoly F).eval i).v := fun i hi => by rw [extend, dif_pos hi, hy]
  have hz' : ∀ l, ∀ i ∈ C, extend (z l) i = ((⟨(ss l).nonce :: rs l⟩ : PriPoly F).eval i).v := fun l i hi => by
    rw [extend, dif_pos hi, hz]
  unfold signView simSignView
  congr 1
  · exact funext fun i => (hy i).symm
  · exact C146_commits hB he (a :: as) ha _ hy'
  · refine funext fun l => Prod.ext (funext fun i => (hz l i).symm) (Prod.ext ?_ (funext fun i => ?_))
    · exact C146_commits hB he ((ss l).nonce :: rs l) (hr l) _ (hz' l)
    · exact C147_message hB x participants he a (ss l).nonce as (rs l) ha (hr l) _ _ hy' (hz' l) _ _ i

/-- C147, counted: whatever the coalition can get from any number of sessions, as many draws of the two kinds of
polynomials lead to it as draws of the simulator, which knows only the public key and the signatures. -/
theorem C147_count (q : Nat) [CharP F q] (S : Suite F G) (hB : Lin F S.base) (t : Nat) (C : Finset Nat)
    (hq : ∀ i ∈ C, i + 1 < q) (ht : 2 ≤ t) (hcard : C.card + 1 = t) :
    ∃ (e0 : List F) (e : Nat → List F), ∀ (x : Nat → F) (participants : List G) (m : Nat) (ss : Fin m → Signing F)
      (a : F) (D : Finset Nat) (hD : D ⊆ C) (observed : SignView F G D m),
      Nat.card { d : Drawn F (t - 1) × (Fin m → Drawn F (t - 1)) //
        signView S x participants t D ss (a :: d.1.1) (fun l => (ss l).nonce :: (d.2 l).1) = observed } =
      Nat.card { d : (C → F) × (Fin m → C → F) //
        (simSignView S x participants t C e0 e (fun l => (ss l).msg) (fun l => (ss l).own) (a • S.base)
          (fun l => ((ss l).nonce • S.base,
            (ss l).nonce + dssChallenge S ((ss l).nonce • S.base) (a • S.base) (ss l).msg * a)) d.1 d.2).restrict D hD =
          observed } := by
  obtain ⟨e0, e, he⟩ := exists_simBasis (F := F) q t C hq ht hcard
  refine ⟨e0, e, fun x participants m ss a D hD observed => ?_⟩
  obtain ⟨φ, hφ⟩ := shares_equiv q t C hq ht hcard a
  have hψ := fun l => shares_equiv (F := F) q t C hq ht hcard (ss l).nonce
  choose ψ hψ using hψ
  refine Nat.card_congr ((φ.prodCongr (Equiv.piCongrRight ψ)).subtypeEquiv (fun d => ?_))
  have := C147_view hB x participants he ss a d.1.1 (by rw [List.length_cons, d.1.2]; omega) (fun l => (d.2 l).1)
    (fun l => by rw [List.length_cons, (d.2 l).2]; omega) (φ d.1) (fun l => ψ l (d.2 l)) (fun i => hφ _ i)
    (fun l i => hψ l _ i)
  have hr : signView S x participants t D ss (a :: d.1.1) (fun l => (ss l).nonce :: (d.2 l).1) =
      (signView S x participants t C ss (a :: d.1.1) (fun l => (ss l).nonce :: (d.2 l).1)).restrict D hD := rfl
  rw [hr, this]
  rfl

/-! ## Examples -/

namespace DssSimExample

open Kyber.Toy

/-- Two signatures by three participants. -/
def two : Fin 2 → Signing (ZMod 11) := fun l => if l = 0 then ⟨4, [1], fun i => i⟩ else ⟨9, [2, 3], fun _ => 5⟩

def keys (i : Nat) : ZMod 11 := [3, 5, 2].getD i 1

/-- `C147_message`: the polynomials `7 + 5 X` and `4 + 6 X`, participant 2 controlled; participant 0 sends a partial
signature. -/
example : (∃ (e0 : List (ZMod 11)) (e : Nat → List (ZMod 11)), SimBasis 2 {2} e0 e) ∧
    Lin (ZMod 11) envD.suite.base ∧
    ∃ ps, sentPartial envD.suite keys [6, 10, 4] 2 [7, 5] [4, 6] [1] 8 0 = .ok ps :=
  ⟨exists_simBasis 11 2 {2} (by decide) (by decide) (by decide), lawful.base_lin, _, rfl⟩

/-- `C147_count`: what participant 2 gets in two signatures with the key 7 is made by the simulator as often as it
occurs, and it occurs. -/
example : ∃ (e0 : List (ZMod 11)) (e : Nat → List (ZMod 11)) (observed : SignView (ZMod 11) (ZMod 11) {2} 2),
    Nat.card { d : Drawn (ZMod 11) 1 × (Fin 2 → Drawn (ZMod 11) 1) //
      signView envD.suite keys [6, 10, 4] 2 {2} two (7 :: d.1.1) (fun l => (two l).nonce :: (d.2 l).1) = observed } =
    Nat.card { d : (({2} : Finset Nat) → ZMod 11) × (Fin 2 → ({2} : Finset Nat) → ZMod 11) //
      (simSignView envD.suite keys [6, 10, 4] 2 {2} e0 e (fun l => (two l).msg) (fun l => (two l).own)
        ((7 : ZMod 11) • envD.suite.base) (fun l => ((two l).nonce • envD.suite.base, (two l).nonce +
          dssChallenge envD.suite ((two l).nonce • envD.suite.base) ((7 : ZMod 11) • envD.suite.base) (two l).msg * 7))
        d.1 d.2).restrict {2} (Finset.Subset.refl _) = observed } ∧
    Nat.card { d : Drawn (ZMod 11) 1 × (Fin 2 → Drawn (ZMod 11) 1) //
      signView envD.suite keys [6, 10, 4] 2 {2} two (7 :: d.1.1) (fun l => (two l).nonce :: (d.2 l).1) =
        observed } ≠ 0 := by
  obtain ⟨e0, e, h⟩ := C147_count 11 envD.suite lawful.base_lin 2 {2} (by decide) (by decide) (by decide)
  refine ⟨e0, e, signView envD.suite keys [6, 10, 4] 2 {2} two [7, 5] (fun l => [(two l).nonce, 6]),
    h keys [6, 10, 4] 2 two 7 {2} (Finset.Subset.refl _) _, ?_⟩
  have := finite_drawn (F := ZMod 11) 1
  have : Nonempty { d : Drawn (ZMod 11) 1 × (Fin 2 → Drawn (ZMod 11) 1) //
      signView envD.suite keys [6, 10, 4] 2 {2} two (7 :: d.1.1) (fun l => (two l).nonce :: (d.2 l).1) =
        signView envD.suite keys [6, 10, 4] 2 {2} two [7, 5] (fun l => [(two l).nonce, 6]) } :=
    ⟨⟨(⟨[5], rfl⟩, fun _ => ⟨[6], rfl⟩), rfl⟩⟩
  exact Nat.card_pos.ne'

end DssSimExample

end Kyber.Props

namespace Kyber.Ed

open Kyber Kyber.ModInt Kyber.Poly Kyber.Spec Kyber.Props Kyber.Dss

/-- C147 on edwards25519. -/
theorem C147_edwards25519 (sha hash : Bytes → Bytes) (t : Nat) (C : Finset Nat) (hq : ∀ i ∈ C, i + 1 < L) (ht : 2 ≤ t)
    (hcard : C.card + 1 = t) :
    ∃ (e0 : List (ZMod L)) (e : Nat → List (ZMod L)), ∀ (x : Nat → ZMod L) (participants : List EdPt) (m : Nat)
      (ss : Fin m → Signing (ZMod L)) (a : ZMod L) (D : Finset Nat) (hD : D ⊆ C)
      (observed : SignView (ZMod L) EdPt D m),
      Nat.card { d : Drawn (ZMod L) (t - 1) × (Fin m → Drawn (ZMod L) (t - 1)) //
        signView (edSuite sha hash) x participants t D ss (a :: d.1.1) (fun l => (ss l).nonce :: (d.2 l).1) =
          observed } =
      Nat.card { d : (C → ZMod L) × (Fin m → C → ZMod L) //
        (simSignView (edSuite sha hash) x participants t C e0 e (fun l => (ss l).msg) (fun l => (ss l).own) (a • basePt)
          (fun l => ((ss l).nonce • basePt, (ss l).nonce +
            dssChallenge (edSuite sha hash) ((ss l).nonce • basePt) (a • basePt) (ss l).msg * a)) d.1 d.2).restrict D
              hD = observed } :=
  C147_count L (edSuite sha hash) (edSuite_lawful sha hash).base_lin t C hq ht hcard

/-- `C147_edwards25519` with threshold 2. -/
example (sha hash : Bytes → Bytes) := C147_edwards25519 sha hash 2 {2}
  (by intro i hi; rw [Finset.mem_singleton.1 hi]; decide +kernel) le_rfl (by decide)

end Kyber.Ed
