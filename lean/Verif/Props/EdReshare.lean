/-
Property C34 for groups with torsion: the scalars need to act linearly on the base point only, so that the statements
hold on edwards25519. Old commitments are multiples of the base point; nothing is assumed of the points that the
dealers of the resharing send.
-/
import Verif.Props.DkgPedersenReshare
import Verif.Props.EdSuite

set_option linter.unusedSectionVars false

namespace Kyber.Props

open Kyber Kyber.Poly Kyber.Spec Kyber.VssP Kyber.DkgP

variable {F G : Type} [Field F] [AddCommGroup G] [DecidableEq G] [SMul F G]

/-- C34: the new public key is the old one, if the constant commitment of each qualified deal is the public share of the
dealer. The dealers may send any other points. -/
theorem C34_same_key_base (q : Nat) [CharP F q] (E : DkgEnv F G) (hB : Lin F E.suite.base) (c : Config F G) (secret : F)
    (draws : List F) (d0 : Dkg F G) (h0 : newDistKeyHandler E.suite c secret draws = .ok d0)
    (hre : d0.isResharing = true) (hp : d0.newPresent = true) (hq : c.oldNodes.length ≤ q)
    (f : List F) (hf : f ≠ []) (hco : d0.c.publicCoeffs = some (f.map (fun a => a • E.suite.base)))
    (cs : List (DCall F G)) (ord : MapOrder) (k : DistKeyShare F G)
    (hk : (dRun E d0 cs).distKeyShare E.suite ord = .ok k)
    (hD : ∀ i v, (dRun E d0 cs).verifiers.get i = some v → v.aggregator.dealCertified = true →
      ∃ dl, v.aggregator.deal = some dl ∧
        dl.commitments.getD 0 0 = polyVal f ((i + 1 : Nat) : F) • E.suite.base) :
    k.publicKey = .ok (f.getD 0 0 • E.suite.base) := by
  have hn : (dRun E d0 cs).verifiers.keys.Nodup := reach_nodup h0 E cs
  have hst := newDistKeyHandler_ok h0
  have hne : f.map (fun a => a • E.suite.base) ≠ [] := by simpa using hf
  have hQ : ∀ i, i ∈ qualSet (dRun E d0 cs) ↔ Qualified (dRun E d0 cs) i := fun i => mem_qualSet hn
  have : ∀ i, ∃ dl : VssP.Deal F G, i ∈ qualSet (dRun E d0 cs) →
      (∃ v, (dRun E d0 cs).verifiers.get i = some v ∧ v.aggregator.deal = some dl) ∧
      dl.commitments.getD 0 0 = polyVal f ((i + 1 : Nat) : F) • E.suite.base := by
    intro i
    by_cases hi : i ∈ qualSet (dRun E d0 cs)
    · obtain ⟨v, hv, hc⟩ := (hQ i).1 hi
      obtain ⟨dl, hdl, h⟩ := hD i v hv hc
      exact ⟨dl, fun _ => ⟨⟨v, hv, hdl⟩, h⟩⟩
    · exact ⟨⟨[], ⟨0, 0⟩, 0, []⟩, fun h => absurd h hi⟩
  choose D hD' using this
  obtain ⟨-, h2, -, h4, -⟩ := (C34_dist_key_share_iff E c secret draws d0 h0 hre hp _ hco hne cs
    ord k _ _ hQ D (fun i hi => (hD' i hi).1) rfl).1 hk
  rw [List.length_map] at h2 h4
  set K := firstT (qualSet (dRun E d0 cs)) f.length with hKd
  have hKQ : K ⊆ qualSet (dRun E d0 cs) := firstT_subset _ _
  have hinj : Set.InjOn (xc F) K := xc_injOn q K (fun i hi => by
    obtain ⟨v, hv, -⟩ := (hQ i).1 (hKQ hi)
    have h1 := (reach_bound h0 E cs i (AMap.mem_keys.2 ⟨v, AMap.mem_of_get hv⟩)).2
    rw [(hst.reshare hre).1] at h1
    omega)
  have hcard : K.card = f.length := card_firstT _ _ (List.length_pos_iff.2 hf) h2
  have hpos := newT_pos h0 hp
  have hhead : k.commits.getD 0 0 = f.getD 0 0 • E.suite.base := by
    rw [h4, combine_getD K _ _ 0 hpos, ← weights_polyVal K hinj f hcard.ge, hB.sum]
    refine Finset.sum_congr rfl (fun i hi => ?_)
    rw [(hD' i (hKQ hi)).2, hB.mul]
  unfold DistKeyShare.publicKey
  rw [Res.unwrap_eq_ok]
  cases hc : k.commits with
  | nil =>
    have := congrArg List.length (hc ▸ h4 : ([] : List G) = _)
    simp [combine] at this
    omega
  | cons a l => rw [hc] at hhead; simpa using hhead

/-- What holds of C34 against arbitrary messages, also on edwards25519: the public key stays the same if the participant
itself approved the deal of every qualified dealer. Missing, as in `C34_approved_partial`: deals that it answered with a
complaint. -/
theorem C34_approved_base_partial (q : Nat) [CharP F q] (E : DkgEnv F G) (hB : Lin F E.suite.base) (c : Config F G)
    (secret : F) (draws : List F) (d0 : Dkg F G) (h0 : newDistKeyHandler E.suite c secret draws = .ok d0)
    (hre : d0.isResharing = true) (hq : c.oldNodes.length ≤ q)
    (f : List F) (hf : f ≠ []) (hco : d0.c.publicCoeffs = some (f.map (fun a => a • E.suite.base)))
    (cs : List (DCall F G)) (ord : MapOrder) (k : DistKeyShare F G)
    (hk : (dRun E d0 cs).distKeyShare E.suite ord = .ok k)
    (happ : ∀ i, Qualified (dRun E d0 cs) i → ∃ pre dd n n' post r,
      cs = pre ++ .deal dd n n' :: post ∧ dd.index = i ∧
      ((dRun E d0 pre).processDeal E dd n n').2 = .ok r ∧ r.response.status = true) :
    k.publicKey = .ok (f.getD 0 0 • E.suite.base) ∧
    k.share.v • E.suite.base = pointVal k.commits ((k.share.i + 1 : Nat) : F) := by
  have hne : f.map (fun a => a • E.suite.base) ≠ [] := by simpa using hf
  obtain ⟨hp, -, -, -, hs⟩ := C34_share_on_commits E c secret draws d0 h0 hre _ hco hne cs ord k hk
  refine ⟨C34_same_key_base q E hB c secret draws d0 h0 hre hp hq f hf hco cs ord k hk ?_, hs⟩
  intro i v hv hc
  obtain ⟨pre, dd, n, n', post, r, hsplit, rfl, hr, hs⟩ := happ i ⟨v, hv, hc⟩
  obtain ⟨-, v', dl, h1, h2, h3, -⟩ := C34_approval E c secret draws d0 h0 hre hp _ hco hne pre dd
    n n' ((dRun E d0 pre).processDeal E dd n n').1 r (Prod.ext rfl hr) hs
  have hrun : dRun E d0 cs = dRun E ((dRun E d0 pre).processDeal E dd n n').1 post := by
    rw [hsplit]; simp only [dRun, List.foldl_append, List.foldl_cons]; rfl
  obtain ⟨vcs, -, h4⟩ := (dRun_evolves E ((dRun E d0 pre).processDeal E dd n n').1 post).ver _ v' h1
  rw [hrun] at hv
  rw [hv] at h4
  cases h4
  rw [pointVal_map_smul _ hB] at h3
  exact ⟨dl, (vRun_ext E.toEnv v' vcs).deal dl h2, h3⟩

namespace EdReshareExample

open Kyber.Toy DkgPExample

/-- `C34_approved_base_partial`, `C34_same_key_base`: the resharing of `newNode`, with the old polynomial `[1, 4]`. -/
example : ∀ k, (dRun envDI newNode (reshared 9)).distKeyShare envDI.suite MapOrder.id = .ok k →
    k.publicKey = .ok ((1 : ZMod 11) • envDI.suite.base) := by
  intro k hk
  refine (C34_approved_base_partial 11 envDI envDI_lawful.base_lin _ _ _ newNode newNode_ok.1 newNode_ok.2.1 (by decide)
    [1, 4] (by decide) newNode_ok.2.2.2.2.1 (reshared 9) MapOrder.id k hk ?_).1
  intro i hi
  rw [reshared_qual 9 (Or.inl rfl)] at hi
  have : i = 0 ∨ i = 1 := by simpa using hi
  rcases this with rfl | rfl
  · exact ⟨[], _, _, _, _, _, rfl, by decide +kernel, reshared_honest.2.1, rfl⟩
  · exact ⟨(reshared 9).take 1, _, _, _, _, _, rfl, by decide +kernel, reshared_honest.2.2, rfl⟩

end EdReshareExample

end Kyber.Props

namespace Kyber.Ed

open Kyber Kyber.ModInt Kyber.Poly Kyber.Spec Kyber.Props Kyber.VssP Kyber.DkgP

/-- The suite of edwards25519 has the property that is asked of the base point. -/
example (sha hash : Bytes → Bytes) : Lin (ZMod L) (edSuite sha hash).base := (edSuite_lawful sha hash).base_lin

end Kyber.Ed
