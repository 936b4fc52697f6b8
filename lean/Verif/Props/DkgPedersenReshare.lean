/-
Property C34: resharing with the Pedersen DKG (`src/share/dkg/pedersen/dkg.rs`).
-/
import Verif.Lemmas.DkgReshare
import Verif.Props.DkgPedersenQual

set_option linter.unusedSectionVars false

namespace Kyber.Props

open Kyber Kyber.Poly Kyber.Spec Kyber.VssP Kyber.DkgP

variable {F G : Type} [Field F] [AddCommGroup G] [DecidableEq G]

/-! ## The states in which `resharing_key` runs -/

section

variable [SMul F G]

theorem reach_bound {S : Suite F G} {c : Config F G} {secret : F} {draws : List F} {d : Dkg F G}
    (h : newDistKeyHandler S c secret draws = .ok d) (E : DkgEnv F G) (cs : List (DCall F G)) :
    ∀ i ∈ (dRun E d cs).verifiers.keys, i < (dRun E d cs).verifiers.length ∧
      i < d.c.oldNodes.length := by
  intro i hi
  have hk := (dRun_evolves E d cs).keys
  have hlen : (dRun E d cs).verifiers.length = (dRun E d cs).verifiers.keys.length :=
    (AMap.length_keys _).symm
  rw [hlen, hk]
  rw [hk] at hi
  rcases started_keys h with h | h <;> rw [h] at hi ⊢
  · cases hi
  · rw [List.length_range]
    exact ⟨List.mem_range.1 hi, List.mem_range.1 hi⟩

theorem newT_pos {S : Suite F G} {c : Config F G} {secret : F} {draws : List F} {d : Dkg F G}
    (h : newDistKeyHandler S c secret draws = .ok d) (hp : d.newPresent = true) : 0 < d.newT := by
  have hst := newDistKeyHandler_ok h
  rw [hst.newT]
  split
  · omega
  · have h1 := hst.nidx
    rw [hp] at h1
    have h2 := findPub_some h1
    have : 0 < c.newNodes.length := by
      have := h2.1
      cases hn : c.newNodes with
      | nil => rw [hn] at h2; simp at h2
      | cons a l => simp
    unfold minimumT
    omega

/-- The deals that the loop collects if every qualified dealer has one. -/
theorem collect_full {d : Dkg F G} (hn : d.verifiers.keys.Nodup) (ord : MapOrder)
    (D : Nat → VssP.Deal F G) (Q : Finset Nat) (hQ : ∀ i, i ∈ Q ↔ Qualified d i)
    (hD : ∀ i ∈ Q, ∃ v, d.verifiers.get i = some v ∧ v.aggregator.deal = some (D i)) :
    (collect (ord.run d.verifiers)).keys.toFinset = Q ∧
    (∀ i ∈ Q, (collect (ord.run d.verifiers)).get i = some (D i)) ∧
    (∀ e ∈ collect (ord.run d.verifiers), e.1 ∈ Q ∧ e.2 = D e.1) := by
  have hperm : ((ord.run d.verifiers).map Prod.fst).Perm d.verifiers.keys := (ord.perm _).map _
  have hsub := collect_keys_sub (ord.run d.verifiers)
  have hmn : (collect (ord.run d.verifiers)).keys.Nodup := (hperm.nodup_iff.2 hn).sublist hsub
  have hof : ∀ i v, (i, v) ∈ ord.run d.verifiers → d.verifiers.get i = some v := fun i v h =>
    AMap.get_of_mem hn ((ord.perm _).mem_iff.1 h)
  have h3 : ∀ e ∈ collect (ord.run d.verifiers), e.1 ∈ Q ∧ e.2 = D e.1 := by
    rintro ⟨i, dl⟩ he
    obtain ⟨v, hv, hc, hd⟩ := mem_collect he
    have hi : i ∈ Q := (hQ i).2 ⟨v, hof i v hv, hc⟩
    obtain ⟨w, hw, hd'⟩ := hD i hi
    rw [hof i v hv] at hw; cases hw
    rw [hd] at hd'; cases hd'
    exact ⟨hi, rfl⟩
  have hmem : ∀ i, i ∈ (collect (ord.run d.verifiers)).keys ↔ i ∈ Q := by
    intro i
    constructor
    · intro hi
      obtain ⟨dl, hdl⟩ := AMap.mem_keys.1 hi
      exact (h3 _ hdl).1
    · intro hi
      obtain ⟨v, hv, hc⟩ := (hQ i).1 hi
      refine collect_all (fun e he hce => ?_) ((ord.perm _).mem_iff.2 (AMap.mem_of_get hv)) hc
      obtain ⟨j, w⟩ := e
      obtain ⟨w', hw', hd'⟩ := hD j ((hQ j).2 ⟨w, hof j w he, hce⟩)
      rw [hof j w he] at hw'; cases hw'
      simp only; rw [hd']; rfl
  refine ⟨?_, ?_, h3⟩
  · ext i; rw [List.mem_toFinset, hmem]
  · intro i hi
    obtain ⟨dl, hdl⟩ := AMap.get_of_mem_keys ((hmem i).2 hi)
    have := h3 _ (AMap.mem_of_get hdl)
    rw [hdl]; simp only at this; rw [this.2]

end

section

variable [SMul F G]

omit [DecidableEq G] in
theorem combine_congr (S : Finset Nat) {C C' : Nat → List G} (len : Nat) (h : ∀ i ∈ S, C i = C' i) :
    combine (F := F) S C len = combine (F := F) S C' len := by
  unfold combine
  refine List.map_congr_left (fun k _ => Finset.sum_congr rfl (fun i hi => ?_))
  rw [h i hi]

end

section

variable [SMul F G]

theorem interpolate_weight (K : Finset Nat) (y : Nat → F) :
    (Lagrange.interpolate K (xc F) y).eval 0 = ∑ i ∈ K, weight F K i * y i := by
  rw [Lagrange.interpolate_apply, Polynomial.eval_finsetSum]
  refine Finset.sum_congr rfl (fun i _ => ?_)
  rw [Polynomial.eval_mul, Polynomial.eval_C, ← lag0_eq_eval_basis, lag0_eq_weight, mul_comm]

/-! ## C34: the result -/

end

section

variable [SMul F G]

/-- C34: what `dist_key_share` of a participant of the new group returns, in every reachable state,
for every iteration order, when each qualified dealer's deal `D i` is there. `coeffs` are the
commitments of the old group. It succeeds exactly if enough dealers are qualified, for the
threshold of the configuration and for the old polynomial, each qualified deal has commitments for
the new threshold, and the resulting share is on the resulting polynomial. The deals of the `K`
first qualified dealers are combined with the weights of the interpolation at zero. -/
theorem C34_dist_key_share_iff (E : DkgEnv F G) (c : Config F G) (secret : F) (draws : List F)
    (d0 : Dkg F G) (h0 : newDistKeyHandler E.suite c secret draws = .ok d0)
    (hre : d0.isResharing = true) (hp : d0.newPresent = true)
    (coeffs : List G) (hco : d0.c.publicCoeffs = some coeffs) (hne : coeffs ≠ [])
    (cs : List (DCall F G)) (ord : MapOrder) (k : DistKeyShare F G) (Q K : Finset Nat)
    (hQ : ∀ i, i ∈ Q ↔ Qualified (dRun E d0 cs) i) (D : Nat → VssP.Deal F G)
    (hD : ∀ i ∈ Q, ∃ v, (dRun E d0 cs).verifiers.get i = some v ∧ v.aggregator.deal = some (D i))
    (hK : K = firstT Q coeffs.length) :
    (dRun E d0 cs).distKeyShare E.suite ord = .ok k ↔
      c.oldThreshold ≤ Q.card ∧ coeffs.length ≤ Q.card ∧
      (∀ i ∈ Q, d0.newT ≤ (D i).commitments.length) ∧
      k.commits = combine (F := F) K (fun i => (D i).commitments) d0.newT ∧
      k.share = ⟨d0.nidx, ∑ i ∈ K, weight F K i * (D i).secShare.v⟩ ∧
      k.share.v • E.suite.base = pointVal k.commits ((d0.nidx + 1 : Nat) : F) ∧
      k.privatePoly.length = coeffs.length ∧
      toPoly k.privatePoly = Lagrange.interpolate K (xc F) (fun i => (D i).secShare.v) := by
  set d := dRun E d0 cs with hd
  have hst := newDistKeyHandler_ok h0
  have hev := dRun_evolves E d0 cs
  have hn : d.verifiers.keys.Nodup := reach_nodup h0 E cs
  obtain ⟨coeffs', hc1, -, hc3, -⟩ := hst.receiver hre hp
  rw [hco] at hc1; cases hc1
  have holdT : d.oldT = coeffs.length := hev.oldT.trans hc3
  have hnewT : d.newT = d0.newT := hev.newT
  have hnidx : d.nidx = d0.nidx := hev.nidx
  have hthr := C36_threshold_certified E c secret draws d0 h0 hp cs ord Q hQ
  have hre' : (c.share.isSome || c.publicCoeffs.isSome) = true := by rw [← hst.resharing, hre]
  rw [if_pos hre'] at hthr
  have hrec : d.canReceive = true := by rw [hev.canReceive, hst.receive, hp]
  have hunf : d.distKeyShare E.suite ord = .ok k ↔
      c.oldThreshold ≤ Q.card ∧ d.resharingKey E.suite ord = .ok k := by
    unfold Dkg.distKeyShare
    rw [Res.ite_err_eq_ok, Bool.not_eq_false, hthr, if_neg (by simp [hrec]),
      if_pos (hev.isResharing.trans hre)]
  rw [hunf]
  refine and_congr_right (fun _ => ?_)
  obtain ⟨g1, g2, g3⟩ := collect_full hn ord D Q hQ hD
  have hpos : 0 < d.oldT := by
    rw [holdT]; exact List.length_pos_iff.2 hne
  have hKQ : K ⊆ Q := hK ▸ firstT_subset _ _
  rw [resharingKey_spec E.suite ord d hn (fun i hi => (reach_bound h0 E cs i hi).1) hpos k _ rfl K
    (by rw [g1, holdT]; exact hK), g1, holdT, hnewT, hnidx]
  have e1 : commitsOf (collect (ord.run d.verifiers)) K d0.newT =
      combine (F := F) K (fun i => (D i).commitments) d0.newT :=
    combine_congr K _ (fun i hi => by simp only [cmts]; rw [g2 i (hKQ hi)]; rfl)
  have e2 : ∀ i ∈ K, dealVal (collect (ord.run d.verifiers)) (fun dl => dl.secShare.v) i =
      (D i).secShare.v := fun i hi => by simp only [dealVal]; rw [g2 i (hKQ hi)]; rfl
  have e3 : shareOf (collect (ord.run d.verifiers)) K = ∑ i ∈ K, weight F K i * (D i).secShare.v :=
    Finset.sum_congr rfl (fun i hi => by rw [e2 i hi])
  have e4 : Lagrange.interpolate K (xc F) (dealVal (collect (ord.run d.verifiers))
      (fun dl => dl.secShare.v)) = Lagrange.interpolate K (xc F) (fun i => (D i).secShare.v) :=
    Lagrange.interpolate_eq_of_values_eq_on _ _ e2
  rw [e1, e3, e4]
  have e5 : (∀ e ∈ collect (ord.run d.verifiers), d0.newT ≤ e.2.commitments.length) ↔
      ∀ i ∈ Q, d0.newT ≤ (D i).commitments.length := by
    constructor
    · intro h i hi
      exact h _ (AMap.mem_of_get (g2 i hi))
    · intro h e he
      obtain ⟨h1, h2⟩ := g3 e he
      rw [h2]; exact h _ h1
  rw [e5]
  constructor
  · rintro ⟨a1, -, a3, a4, a5, a6, a7⟩
    exact ⟨a1, a3, a5, a6, by rw [a6, a5]; exact a4, a7⟩
  · rintro ⟨a1, a3, a5, a6, a4, a7⟩
    exact ⟨a1, newT_pos h0 hp, a3, by rw [a6, a5] at a4; exact a4, a5, a6, a7⟩

/-- C34: whatever happened before, and whatever the deals are, a key returned by a resharing has as
many commitments as the new threshold, belongs to the participant's own index, and its share is on
the polynomial of its commitments. -/
theorem C34_share_on_commits (E : DkgEnv F G) (c : Config F G) (secret : F) (draws : List F)
    (d0 : Dkg F G) (h0 : newDistKeyHandler E.suite c secret draws = .ok d0)
    (hre : d0.isResharing = true)
    (coeffs : List G) (hco : d0.c.publicCoeffs = some coeffs) (hne : coeffs ≠ [])
    (cs : List (DCall F G)) (ord : MapOrder) (k : DistKeyShare F G)
    (hk : (dRun E d0 cs).distKeyShare E.suite ord = .ok k) :
    d0.newPresent = true ∧ k.commits.length = d0.newT ∧ 0 < d0.newT ∧ k.share.i = d0.nidx ∧
    k.share.v • E.suite.base = pointVal k.commits ((k.share.i + 1 : Nat) : F) := by
  have hst := newDistKeyHandler_ok h0
  have hev := dRun_evolves E d0 cs
  unfold Dkg.distKeyShare at hk
  rw [Res.ite_err_eq_ok, Res.ite_err_eq_ok, hev.canReceive, hst.receive, Bool.not_eq_false,
    if_pos (hev.isResharing.trans hre)] at hk
  obtain ⟨-, hp, hk⟩ := hk
  rw [Bool.not_eq_false] at hp
  obtain ⟨coeffs', hc1, -, hc3, -⟩ := hst.receiver hre hp
  rw [hco] at hc1; cases hc1
  have hpos : 0 < (dRun E d0 cs).oldT := by
    rw [hev.oldT, hc3]; exact List.length_pos_iff.2 hne
  rw [resharingKey_spec E.suite ord _ (reach_nodup h0 E cs) (fun i hi => (reach_bound h0 E cs i hi).1)
    hpos k _ rfl _ rfl] at hk
  obtain ⟨-, a1, -, a2, a3, a4, -⟩ := hk
  rw [a3, a4]
  refine ⟨hp, ?_, hev.newT ▸ a1, hev.nidx, a2⟩
  simp only [commitsOf, combine, List.length_map, List.length_range]
  exact hev.newT

/-- What holds of C79: if the deals of all qualified dealers are there, the iteration order of the
hash maps does not matter. Missing: qualified dealers without a deal (`C79_violated`). -/
theorem C79_order_partial (E : DkgEnv F G) (c : Config F G) (secret : F) (draws : List F)
    (d0 : Dkg F G) (h0 : newDistKeyHandler E.suite c secret draws = .ok d0)
    (hre : d0.isResharing = true) (hp : d0.newPresent = true)
    (coeffs : List G) (hco : d0.c.publicCoeffs = some coeffs) (hne : coeffs ≠ [])
    (cs : List (DCall F G)) (ord ord' : MapOrder) (k : DistKeyShare F G)
    (hall : ∀ i v, (dRun E d0 cs).verifiers.get i = some v → v.aggregator.dealCertified = true →
      v.aggregator.deal.isSome)
    (h : (dRun E d0 cs).distKeyShare E.suite ord = .ok k) :
    (dRun E d0 cs).distKeyShare E.suite ord' = .ok k := by
  have hn : (dRun E d0 cs).verifiers.keys.Nodup := reach_nodup h0 E cs
  have hQ : ∀ i, i ∈ qualSet (dRun E d0 cs) ↔ Qualified (dRun E d0 cs) i := fun i => mem_qualSet hn
  have : ∀ i, ∃ dl : VssP.Deal F G, i ∈ qualSet (dRun E d0 cs) →
      ∃ v, (dRun E d0 cs).verifiers.get i = some v ∧ v.aggregator.deal = some dl := by
    intro i
    by_cases hi : i ∈ qualSet (dRun E d0 cs)
    · obtain ⟨v, hv, hc⟩ := (hQ i).1 hi
      obtain ⟨dl, hdl⟩ := Option.isSome_iff_exists.1 (hall i v hv hc)
      exact ⟨dl, fun _ => ⟨v, hv, hdl⟩⟩
    · exact ⟨⟨[], ⟨0, 0⟩, 0, []⟩, fun h => absurd h hi⟩
  choose D hD using this
  rw [C34_dist_key_share_iff E c secret draws d0 h0 hre hp coeffs hco hne cs ord k _ _ hQ D hD rfl] at h
  rw [C34_dist_key_share_iff E c secret draws d0 h0 hre hp coeffs hco hne cs ord' k _ _ hQ D hD rfl]
  exact h

/-! ## C34: the key is preserved -/

end

section

variable [Module F G]

omit [DecidableEq G] in
/-- Interpolating a polynomial "in the exponent" at zero. -/
theorem weights_pointVal (K : Finset Nat) (hK : Set.InjOn (xc F) K) (Cs : List G)
    (hl : Cs.length ≤ K.card) :
    ∑ i ∈ K, weight F K i • pointVal Cs ((i + 1 : Nat) : F) = Cs.getD 0 0 := by
  classical
  simp only [pointVal_eq_sum, Finset.smul_sum, smul_smul]
  rw [Finset.sum_comm]
  have h2 : ∀ j ∈ Finset.range Cs.length,
      (∑ i ∈ K, (weight F K i * ((i + 1 : Nat) : F) ^ j) • Cs.getD j 0) =
        (if j = 0 then (1 : F) else 0) • Cs.getD j 0 := by
    intro j hj
    rw [← Finset.sum_smul]
    congr 1
    have h3 := interpolate_weight K (fun i => ((i + 1 : Nat) : F) ^ j)
    rw [← h3]
    have h4 : Lagrange.interpolate K (xc F) (fun i => ((i + 1 : Nat) : F) ^ j) =
        (Polynomial.X ^ j : Polynomial F) := by
      symm
      apply Lagrange.eq_interpolate_of_eval_eq _ hK
      · rw [Polynomial.degree_X_pow]
        have := Finset.mem_range.1 hj
        exact_mod_cast (by omega : j < K.card)
      · intro i hi
        rw [Polynomial.eval_pow, Polynomial.eval_X]
        rfl
    rw [h4, Polynomial.eval_pow, Polynomial.eval_X]
    by_cases hj0 : j = 0
    · subst hj0; simp
    · rw [if_neg hj0, zero_pow hj0]
  rw [Finset.sum_congr rfl h2]
  by_cases hlen : 0 < Cs.length
  · rw [Finset.sum_eq_single_of_mem 0 (Finset.mem_range.2 hlen)]
    · simp
    · intro b _ hb; simp [hb]
  · have : Cs = [] := List.length_eq_zero_iff.1 (by omega)
    subst this; simp

end

section

variable [SMul F G]

theorem weights_polyVal (K : Finset Nat) (hK : Set.InjOn (xc F) K) (f : List F)
    (hl : f.length ≤ K.card) :
    ∑ i ∈ K, weight F K i * polyVal f ((i + 1 : Nat) : F) = f.getD 0 0 := by
  have h := weights_pointVal K hK f hl
  rw [← h]
  refine Finset.sum_congr rfl (fun i _ => ?_)
  rw [smul_eq_mul]
  congr 1
  rw [pointVal_eq_sum]
  unfold polyVal
  refine Finset.sum_congr rfl (fun j _ => ?_)
  rw [smul_eq_mul, mul_comm]

end

section

variable [SMul F G]

omit [DecidableEq G] in
theorem combine_getD (K : Finset Nat) (C : Nat → List G) (len j : Nat) (hj : j < len) :
    (combine (F := F) K C len).getD j 0 = ∑ i ∈ K, weight F K i • (C i).getD j 0 := by
  unfold combine
  rw [List.getD_eq_getElem?_getD, List.getElem?_map, List.getElem?_range hj]
  rfl

end

section

variable [Module F G]

omit [DecidableEq G] in
theorem pointVal_combine (K : Finset Nat) (C : Nat → List G) (len : Nat)
    (hlen : ∀ i ∈ K, (C i).length = len) (x : F) :
    pointVal (combine (F := F) K C len) x = ∑ i ∈ K, weight F K i • pointVal (C i) x := by
  have h1 : ∀ i ∈ K, weight F K i • pointVal (C i) x =
      ∑ j ∈ Finset.range len, x ^ j • (weight F K i • (C i).getD j 0) := by
    intro i hi
    rw [pointVal_eq_sum, hlen i hi, Finset.smul_sum]
    refine Finset.sum_congr rfl (fun j _ => ?_)
    rw [smul_smul, smul_smul, mul_comm]
  rw [Finset.sum_congr rfl h1, Finset.sum_comm]
  have hl : (combine (F := F) K C len).length = len := by simp [combine]
  rw [pointVal_eq_sum, hl]
  refine Finset.sum_congr rfl (fun j hj => ?_)
  rw [combine_getD K C len j (Finset.mem_range.1 hj), Finset.smul_sum]

end

section

variable [SMul F G]

omit [DecidableEq G] in
theorem combine_map_smul (K : Finset Nat) (g : Nat → List F) (len : Nat) {B : G} (hB : Lin F B) :
    combine (F := F) K (fun i => (g i).map (fun a => a • B)) len =
      (combine (F := F) K g len).map (fun a => a • B) := by
  unfold combine
  rw [List.map_map]
  refine List.map_congr_left (fun j _ => ?_)
  simp only [Function.comp]
  rw [hB.sum]
  refine Finset.sum_congr rfl (fun i _ => ?_)
  rw [smul_eq_mul, hB.mul]
  congr 1
  rw [List.getD_eq_getElem?_getD, List.getElem?_map, List.getD_eq_getElem?_getD]
  cases (g i)[j]? with
  | none => exact hB.zero.symm
  | some a => rfl

theorem polyVal_combine (K : Finset Nat) (g : Nat → List F) (len : Nat)
    (hlen : ∀ i ∈ K, (g i).length = len) (x : F) :
    polyVal (combine (F := F) K g len) x = ∑ i ∈ K, weight F K i * polyVal (g i) x := by
  have e : ∀ l : List F, polyVal l x = pointVal l x := fun l => by
    rw [pointVal_eq_sum]
    exact Finset.sum_congr rfl (fun j _ => by rw [smul_eq_mul, mul_comm])
  rw [e, pointVal_combine K g len hlen]
  exact Finset.sum_congr rfl (fun i _ => by rw [e, smul_eq_mul])

end

section

variable [Module F G]

/-- C34: the new public key is the old one, if the constant commitment of each qualified deal is the
dealer's public share: the value at `i + 1` of the old commitments. -/
theorem C34_same_key (q : Nat) [CharP F q] (E : DkgEnv F G) (c : Config F G) (secret : F)
    (draws : List F) (d0 : Dkg F G) (h0 : newDistKeyHandler E.suite c secret draws = .ok d0)
    (hre : d0.isResharing = true) (hp : d0.newPresent = true) (hq : c.oldNodes.length ≤ q)
    (coeffs : List G) (hco : d0.c.publicCoeffs = some coeffs) (hne : coeffs ≠ [])
    (cs : List (DCall F G)) (ord : MapOrder) (k : DistKeyShare F G)
    (hk : (dRun E d0 cs).distKeyShare E.suite ord = .ok k)
    (hD : ∀ i v, (dRun E d0 cs).verifiers.get i = some v → v.aggregator.dealCertified = true →
      ∃ dl, v.aggregator.deal = some dl ∧
        dl.commitments.getD 0 0 = pointVal coeffs ((i + 1 : Nat) : F)) :
    k.publicKey = .ok (coeffs.getD 0 0) := by
  have hn : (dRun E d0 cs).verifiers.keys.Nodup := reach_nodup h0 E cs
  have hst := newDistKeyHandler_ok h0
  have hQ : ∀ i, i ∈ qualSet (dRun E d0 cs) ↔ Qualified (dRun E d0 cs) i := fun i => mem_qualSet hn
  have : ∀ i, ∃ dl : VssP.Deal F G, i ∈ qualSet (dRun E d0 cs) →
      (∃ v, (dRun E d0 cs).verifiers.get i = some v ∧ v.aggregator.deal = some dl) ∧
      dl.commitments.getD 0 0 = pointVal coeffs ((i + 1 : Nat) : F) := by
    intro i
    by_cases hi : i ∈ qualSet (dRun E d0 cs)
    · obtain ⟨v, hv, hc⟩ := (hQ i).1 hi
      obtain ⟨dl, hdl, h⟩ := hD i v hv hc
      exact ⟨dl, fun _ => ⟨⟨v, hv, hdl⟩, h⟩⟩
    · exact ⟨⟨[], ⟨0, 0⟩, 0, []⟩, fun h => absurd h hi⟩
  choose D hD' using this
  obtain ⟨-, h2, -, h4, -⟩ := (C34_dist_key_share_iff E c secret draws d0 h0 hre hp coeffs hco hne cs
    ord k _ _ hQ D (fun i hi => (hD' i hi).1) rfl).1 hk
  set K := firstT (qualSet (dRun E d0 cs)) coeffs.length with hKd
  have hKQ : K ⊆ qualSet (dRun E d0 cs) := firstT_subset _ _
  have hinj : Set.InjOn (xc F) K := xc_injOn q K (fun i hi => by
    obtain ⟨v, hv, -⟩ := (hQ i).1 (hKQ hi)
    have h1 := (reach_bound h0 E cs i (AMap.mem_keys.2 ⟨v, AMap.mem_of_get hv⟩)).2
    rw [(hst.reshare hre).1] at h1
    omega)
  have hcard : K.card = coeffs.length := card_firstT _ _ (List.length_pos_iff.2 hne) h2
  have hpos := newT_pos h0 hp
  have hhead : k.commits.getD 0 0 = coeffs.getD 0 0 := by
    rw [h4, combine_getD K _ _ 0 hpos, ← weights_pointVal K hinj coeffs hcard.ge]
    refine Finset.sum_congr rfl (fun i hi => ?_)
    rw [(hD' i (hKQ hi)).2]
  unfold DistKeyShare.publicKey
  rw [Res.unwrap_eq_ok]
  cases hc : k.commits with
  | nil =>
    have := congrArg List.length (hc ▸ h4 : ([] : List G) = _)
    simp [combine] at this
    omega
  | cons a l => rw [hc] at hhead; simpa using hhead

/-! ## C34: honest dealers -/

end

section

variable [SMul F G]

/-- C34: honest resharing. The old participants hold shares of the polynomial `f`; participant `i`
starts `O i` with its share. If a participant of the new group holds certified deals of at least
`f.length` old participants, each the deal that participant made for it, it gets its share of the
new polynomial `h`, with the commitments of `h`. `h` has the new threshold as its length and `f(0)`
as its constant term, and it is the same for every new participant with the same dealers. -/
theorem C34_honest (q : Nat) [CharP F q] (E : DkgEnv F G) (hB : Lin F E.suite.base) (c : Config F G) (secret : F)
    (draws : List F) (d0 : Dkg F G) (h0 : newDistKeyHandler E.suite c secret draws = .ok d0)
    (hre : d0.isResharing = true) (hp : d0.newPresent = true) (hq : c.oldNodes.length ≤ q)
    (f : List F) (hf : f ≠ [])
    (hco : d0.c.publicCoeffs = some (f.map (fun a => a • E.suite.base)))
    (cs : List (DCall F G)) (ord : MapOrder) (Q K : Finset Nat)
    (hQ : ∀ i, i ∈ Q ↔ Qualified (dRun E d0 cs) i)
    (hold : c.oldThreshold ≤ Q.card) (henough : f.length ≤ Q.card) (hK : K = firstT Q f.length)
    -- the old participants
    (oc : Nat → Config F G) (osec : Nat → F) (odraws : Nat → List F) (O : Nat → Dkg F G)
    (hO : ∀ i ∈ Q, newDistKeyHandler E.suite (oc i) (osec i) (odraws i) = .ok (O i) ∧
      (oc i).newNodes = c.newNodes ∧ (oc i).threshold = c.threshold ∧
      ∃ sh, (oc i).share = some sh ∧ sh.share.v = polyVal f ((i + 1 : Nat) : F))
    (hdeal : ∀ i ∈ Q, ∃ v dl, (dRun E d0 cs).verifiers.get i = some v ∧
      v.aggregator.deal = some dl ∧ (O i).dealer.deals[d0.nidx]? = some dl) :
    let h := combine (F := F) K (fun i => (O i).dealer.secretPoly.coeffs) d0.newT
    h.length = d0.newT ∧ h.getD 0 0 = f.getD 0 0 ∧
    ∃ k, (dRun E d0 cs).distKeyShare E.suite ord = .ok k ∧
      k.commits = h.map (fun a => a • E.suite.base) ∧
      k.share = ⟨d0.nidx, polyVal h ((d0.nidx + 1 : Nat) : F)⟩ := by
  intro h
  have hst := newDistKeyHandler_ok h0
  have hKQ : K ⊆ Q := hK ▸ firstT_subset _ _
  have hinj : Set.InjOn (xc F) K := xc_injOn q K (fun i hi => by
    obtain ⟨v, hv, -⟩ := (hQ i).1 (hKQ hi)
    have h1 := (reach_bound h0 E cs i (AMap.mem_keys.2 ⟨v, AMap.mem_of_get hv⟩)).2
    rw [(hst.reshare hre).1] at h1
    omega)
  have hcard : K.card = f.length := by
    rw [hK]; exact card_firstT _ _ (List.length_pos_iff.2 hf) henough
  have hpos := newT_pos h0 hp
  have hlen : h.length = d0.newT := by simp [h, combine]
  -- the old dealers
  have hOd : ∀ i ∈ Q, (O i).dealer.secretPoly.coeffs.length = d0.newT ∧
      (O i).dealer.secretPoly.coeffs.getD 0 0 = polyVal f ((i + 1 : Nat) : F) ∧
      ∀ dl, (O i).dealer.deals[d0.nidx]? = some dl →
        dl.commitments = (O i).dealer.secretPoly.coeffs.map (fun a => a • E.suite.base) ∧
        dl.secShare.v = polyVal (O i).dealer.secretPoly.coeffs ((d0.nidx + 1 : Nat) : F) := by
    intro i hi
    obtain ⟨g1, g2, g3, sh, g4, g5⟩ := hO i hi
    have hsi := newDistKeyHandler_ok g1
    have hT : (O i).newT = d0.newT := by rw [hsi.newT, hst.newT, g2, g3]
    have hnd := hsi.issue sh g4
    rw [hT] at hnd
    obtain ⟨-, n1, -, -, -, -, -, n2, n3, -, -, n4, -⟩ := newDealer_ok hnd
    refine ⟨?_, ?_, ?_⟩
    · rw [n2]
      simp only [List.length_cons, List.length_take]
      omega
    · rw [n2]; simpa using g5
    · intro dl hdl
      rw [n4, List.getElem?_map] at hdl
      cases hr : (List.range (oc i).newNodes.length)[d0.nidx]? with
      | none => rw [hr] at hdl; cases hdl
      | some j =>
        have hj : j = d0.nidx := by
          have h1 := List.getElem?_eq_some_iff.1 hr
          obtain ⟨h1, h2⟩ := h1
          rw [List.getElem_range] at h2
          exact h2.symm
        subst hj
        rw [hr] at hdl
        simp only [Option.map_some, Option.some.injEq] at hdl
        subst hdl
        refine ⟨by rw [n3, n2], ?_⟩
        exact eval_v _ _
  have hex : ∀ i, ∃ dl : VssP.Deal F G, i ∈ Q →
      (∃ v, (dRun E d0 cs).verifiers.get i = some v ∧ v.aggregator.deal = some dl) ∧
      dl.commitments = (O i).dealer.secretPoly.coeffs.map (fun a => a • E.suite.base) ∧
      dl.secShare.v = polyVal (O i).dealer.secretPoly.coeffs ((d0.nidx + 1 : Nat) : F) := by
    intro i
    by_cases hi : i ∈ Q
    · obtain ⟨v, dl, hv, hdl, ho⟩ := hdeal i hi
      exact ⟨dl, fun _ => ⟨⟨v, hv, hdl⟩, (hOd i hi).2.2 dl ho⟩⟩
    · exact ⟨⟨[], ⟨0, 0⟩, 0, []⟩, fun h => absurd h hi⟩
  choose D hD using hex
  have hhead : h.getD 0 0 = f.getD 0 0 := by
    show (combine (F := F) K _ d0.newT).getD 0 0 = _
    rw [combine_getD K _ _ 0 hpos, ← weights_polyVal K hinj f hcard.ge]
    exact Finset.sum_congr rfl (fun i hi => by rw [(hOd i (hKQ hi)).2.1, smul_eq_mul])
  have hcm : combine (F := F) K (fun i => (D i).commitments) d0.newT = h.map (fun a => a • E.suite.base) := by
    rw [← combine_map_smul K _ _ hB]
    exact combine_congr K _ (fun i hi => (hD i (hKQ hi)).2.1)
  have hsv : ∑ i ∈ K, weight F K i * (D i).secShare.v = polyVal h ((d0.nidx + 1 : Nat) : F) := by
    rw [polyVal_combine K _ _ (fun i hi => (hOd i (hKQ hi)).1)]
    exact Finset.sum_congr rfl (fun i hi => by rw [(hD i (hKQ hi)).2.2])
  obtain ⟨pp, hpl, hpp⟩ := exists_coeffs
    (Lagrange.interpolate K (xc F) (fun i => (D i).secShare.v)) f.length (by
      have := Lagrange.degree_interpolate_lt (fun i => (D i).secShare.v) hinj
      rwa [hcard] at this)
  refine ⟨hlen, hhead, ⟨h.map (fun a => a • E.suite.base), ⟨d0.nidx, polyVal h ((d0.nidx + 1 : Nat) : F)⟩,
    pp⟩, ?_, rfl, rfl⟩
  rw [C34_dist_key_share_iff E c secret draws d0 h0 hre hp _ hco (by simpa using hf) cs ord _ Q K hQ D
    (fun i hi => (hD i hi).1) (by rw [List.length_map]; exact hK)]
  refine ⟨hold, by rw [List.length_map]; exact henough, ?_, hcm.symm, by rw [hsv], ?_, ?_, ?_⟩
  · intro i hi
    rw [(hD i hi).2.1, List.length_map, (hOd i hi).1]
  · exact (pointVal_map_smul _ hB _).symm
  · simpa using hpl
  · exact hpp

end

section

variable [SMul F G]

/-- C34: the shares of any `h.length` new participants recover the old secret, for a polynomial `h`
with the same constant term as the old one (as in `C34_honest`). -/
theorem C34_recover (q : Nat) [CharP F q] (ord : MapOrder) (f h : List F) (hl : h ≠ [])
    (hh : h.getD 0 0 = f.getD 0 0) (keys : List (DistKeyShare F G))
    (hkeys : ∀ k ∈ keys, k.share.v = polyVal h ((k.share.i + 1 : Nat) : F))
    (hi : ∀ k ∈ keys, k.share.i < q)
    (hcount : h.length ≤ (keys.map (fun k => k.share.i)).toFinset.card) :
    Poly.recoverSecret ord (keys.map (fun k => some k.share)) h.length = .ok (f.getD 0 0) := by
  have hind : indices (keys.map (fun k => some k.share)) =
      (keys.map (fun k => k.share.i)).toFinset := indices_map_some keys (fun k => k.share)
  cases h with
  | nil => exact absurd rfl hl
  | cons a l =>
    rw [← hh]
    refine C01_recover_secret q ord a l _ _ ?_ ?_ (by simp) (by rw [hind]; exact hcount)
    · intro s hs
      obtain ⟨k, hk, he⟩ := List.mem_map.1 hs
      cases he
      exact hkeys k hk
    · intro i hi'
      rw [hind, List.mem_toFinset] at hi'
      obtain ⟨k, hk, rfl⟩ := List.mem_map.1 hi'
      exact hi k hk

/-! ## C34: which deals are approved -/

theorem vRun_index (E : Env F G) (w : Verifier F G) (vcs : List (VCall F G)) :
    (vRun E w vcs).index = w.index := by
  induction vcs generalizing w with
  | nil => rfl
  | cons c cs ih => exact (ih (vStep E w c)).trans (vStep_ident E w c).2.2.1

theorem reach_ver {S : Suite F G} {c : Config F G} {secret : F} {draws : List F} {d0 : Dkg F G}
    (h0 : newDistKeyHandler S c secret draws = .ok d0) (E : DkgEnv F G) (cs : List (DCall F G))
    {i : Nat} {v : Verifier F G} (hv : (dRun E d0 cs).verifiers.get i = some v) :
    v.index = d0.nidx ∧ v.aggregator.verifiers = d0.c.newNodes := by
  have hev := dRun_evolves E d0 cs
  have hst := newDistKeyHandler_ok h0
  have hk : i ∈ d0.verifiers.keys := hev.keys ▸ AMap.mem_keys.2 ⟨v, AMap.mem_of_get hv⟩
  obtain ⟨v0, hv0⟩ := AMap.get_of_mem_keys hk
  obtain ⟨vcs, -, hrun⟩ := hev.ver i v0 hv0
  rw [hv] at hrun
  cases hrun
  have hstart : v0.index = d0.nidx ∧ v0.aggregator.verifiers = d0.c.newNodes := by
    rw [hst.verifiers] at hv0
    split at hv0
    · rw [startVers_get, Option.map_eq_some_iff] at hv0
      obtain ⟨p, -, rfl⟩ := hv0
      exact ⟨rfl, rfl⟩
    · cases hv0
  refine ⟨?_, (vRun_ext E.toEnv v0 vcs).verifiers.trans hstart.2⟩
  rw [← hstart.1]
  exact vRun_index E.toEnv v0 vcs

end

section

variable [SMul F G]

/-- The outcome of `process_deal` at a new participant of a resharing. -/
theorem reshare_processDeal (E : DkgEnv F G) (d d' : Dkg F G) (dd : DkgP.Deal G) (k k' : F)
    (r : DkgP.Response) (hre : d.isResharing = true) (hrec : d.canReceive = true)
    (coeffs : List G) (hne : coeffs ≠ []) (B : G) (hdp : d.dpub = ⟨some B, coeffs⟩)
    (hidx : ∀ i v, d.verifiers.get i = some v → v.index = d.nidx)
    (h : d.processDeal E dd k k' = (d', .ok r)) :
    ∃ v v' dl own, d.verifiers.get dd.index = some v ∧ v.aggregator.deal = none ∧
      d'.verifiers.get dd.index = some v' ∧ v'.aggregator.deal = some dl ∧
      dl.secShare.i = d.nidx ∧ r.index = dd.index ∧ r.response.index = d.nidx ∧
      v'.aggregator.responses.get d.nidx = some own ∧
      (own.status = true ↔ (v.aggregator.remember dl).checkDeal E.suite dl = .ok ()) ∧
      (r.response.status = true ↔ own.status = true ∧
        dl.commitments.head? = some (pointVal coeffs ((dd.index + 1 : Nat) : F))) := by
  unfold Dkg.processDeal at h
  split at h
  · cases congrArg Prod.snd h
  split at h
  · cases congrArg Prod.snd h
  rename_i pubb hpub
  split at h
  · cases congrArg Prod.snd h
  · cases congrArg Prod.snd h
  split at h
  · cases congrArg Prod.snd h
  rename_i ver hver
  have hcases := processEncryptedDeal_cases E.toEnv ver dd.deal k
  split at h
  · cases congrArg Prod.snd h
  · cases congrArg Prod.snd h
  rename_i w resp hw
  rw [hw] at hcases
  rcases hcases with (⟨err, hc⟩ | hc) | ⟨dl, -, hi, hnone, ⟨-, hc⟩ | ⟨st, hst, hc1, hc2⟩⟩
  · cases congrArg Prod.snd hc
  · cases congrArg Prod.snd hc
  · cases congrArg Prod.snd hc
  simp only at hc1 hc2
  have hvi := hidx _ _ hver
  rcases addResponse_cases (ver.aggregator.remember dl) (mkReply E.toEnv ver dl k st) with
    ⟨e, ha⟩ | ⟨-, -, ha⟩
  · rw [ha] at hc2; cases hc2
  rw [ha] at hc1 hc2
  simp only [Res.bind_ok, Res.ok.injEq] at hc2
  have hrem : (ver.aggregator.remember dl).deal = some dl := by
    unfold Aggregator.remember; rw [hnone]
  have hwd : w.aggregator.deal = some dl := by rw [hc1]; exact hrem
  have hwr : w.aggregator.responses.get d.nidx = some (mkReply E.toEnv ver dl k st) := by
    rw [hc1]
    show ((ver.aggregator.remember dl).responses.insert (mkReply E.toEnv ver dl k st).index _).get _ = _
    rw [AMap.get_insert, if_pos (by rw [← hvi]; rfl)]
  have hstat : (mkReply E.toEnv ver dl k st).status = st := rfl
  have hri : resp.index = d.nidx := by rw [hc2]; exact hvi
  rw [if_pos (by rw [hre, hrec]; rfl), hdp, pubEval_eq _ hne, hwd] at h
  simp only [Option.bind_some] at h
  have hget : ∀ u : Verifier F G, (d.setVerifier dd.index u).verifiers.get dd.index = some u := by
    intro u
    show (d.verifiers.insert dd.index u).get dd.index = _
    rw [AMap.get_insert, if_pos rfl]
  have hun : ∀ (u : Verifier F G) i b, u.aggregator.deal = some dl →
      u.aggregator.responses.get d.nidx = some (mkReply E.toEnv ver dl k st) →
      (u.unsafeSetResponseDkg i b).aggregator.deal = some dl ∧
      (u.unsafeSetResponseDkg i b).aggregator.responses.get d.nidx =
        some (mkReply E.toEnv ver dl k st) := by
    intro u i b h1 h2
    have := addResponse_ext u.aggregator ⟨u.aggregator.sid, i, b, []⟩
    exact ⟨this.deal _ h1, this.responses _ _ h2⟩
  cases hhd : dl.commitments.head? with
  | none => rw [hhd] at h; cases congrArg Prod.snd h
  | some c0 =>
    rw [hhd] at h
    simp only at h
    by_cases hc0 : pointVal coeffs ((dd.index + 1 : Nat) : F) = c0
    · rw [if_neg (by simpa using hc0)] at h
      simp only [hre, Bool.not_true, Bool.and_false, Bool.false_eq_true, if_false, Prod.mk.injEq,
        Res.ok.injEq] at h
      obtain ⟨rfl, rfl⟩ := h
      refine ⟨ver, w, dl, _, hver, hnone, hget w, hwd, hi.trans hvi, rfl, hri, hwr,
        by rw [hstat]; exact hst.symm, ?_⟩
      simp only
      rw [hhd, hc2, hc0]; simp
    · rw [if_pos (by simpa using hc0)] at h
      unfold Dkg.reject at h
      simp only [Prod.mk.injEq, Res.ok.injEq] at h
      obtain ⟨rfl, rfl⟩ := h
      obtain ⟨u1, u2⟩ : (if (findPub d.c.newNodes pubb).2 = true then
          w.unsafeSetResponseDkg (findPub d.c.newNodes pubb).1 statusComplaint else w).aggregator.deal =
            some dl ∧ (if (findPub d.c.newNodes pubb).2 = true then
          w.unsafeSetResponseDkg (findPub d.c.newNodes pubb).1 statusComplaint
            else w).aggregator.responses.get d.nidx = some (mkReply E.toEnv ver dl k st) := by
        split
        · exact hun w _ _ hwd hwr
        · exact ⟨hwd, hwr⟩
      obtain ⟨u3, u4⟩ := hun _ d.nidx statusComplaint u1 u2
      refine ⟨ver, _, dl, _, hver, hnone, hget _, u3, hi.trans hvi, rfl, hri, u4,
        by rw [hstat]; exact hst.symm, ?_⟩
      simp only
      rw [hhd]
      constructor
      · intro h; cases h
      · rintro ⟨-, h⟩; exact absurd (Option.some.inj h).symm hc0

/-- What the checks of the VSS say about a deal that has been stored. -/
theorem checkDeal_iff {S : Suite F G} (a : Aggregator F G) (dl : VssP.Deal F G)
    (hs : a.sid = dl.sessionId) (ht : a.t = dl.t) :
    a.checkDeal S dl = .ok () ↔ validT dl.t a.verifiers = true ∧ dl.secShare.i < a.verifiers.length ∧
      dl.commitments ≠ [] ∧
      dl.secShare.v • S.base = pointVal dl.commitments ((dl.secShare.i + 1 : Nat) : F) := by
  unfold Aggregator.checkDeal
  rw [Res.ite_err_eq_ok, Res.ite_err_eq_ok, Res.ite_err_eq_ok, Res.ite_err_eq_ok, Res.bind_eq_ok, hs, ht]
  simp only [Bool.not_eq_false, ne_eq, not_true_eq_false, not_false_eq_true, true_and, not_le,
    Res.mapErr_eq_ok, Res.ite_err_eq_ok, and_true, not_not]
  refine and_congr_right (fun _ => and_congr_right (fun _ => ?_))
  by_cases hne : dl.commitments = []
  · simp only [hne, ne_eq, not_true_eq_false, false_and, iff_false]
    rintro ⟨ps, h, -⟩
    cases h
  · rw [pubEval_eq _ hne]
    simp [hne]

/-- C34: a participant of the new group approves only deals of a share of the old secret: the
constant commitment is the dealer's public share, and the participant's share is on the committed
polynomial. -/
theorem C34_approval (E : DkgEnv F G) (c : Config F G) (secret : F) (draws : List F)
    (d0 : Dkg F G) (h0 : newDistKeyHandler E.suite c secret draws = .ok d0)
    (hre : d0.isResharing = true) (hp : d0.newPresent = true)
    (coeffs : List G) (hco : d0.c.publicCoeffs = some coeffs) (hne : coeffs ≠ [])
    (cs : List (DCall F G)) (dd : DkgP.Deal G) (k k' : F) (d' : Dkg F G) (r : DkgP.Response)
    (h : (dRun E d0 cs).processDeal E dd k k' = (d', .ok r)) (happ : r.response.status = true) :
    r.index = dd.index ∧ ∃ v' dl, d'.verifiers.get dd.index = some v' ∧ v'.aggregator.deal = some dl ∧
      dl.commitments.getD 0 0 = pointVal coeffs ((dd.index + 1 : Nat) : F) ∧
      dl.secShare.v • E.suite.base = pointVal dl.commitments ((d0.nidx + 1 : Nat) : F) := by
  have hst := newDistKeyHandler_ok h0
  have hev := dRun_evolves E d0 cs
  obtain ⟨coeffs', hc1, hc2, -, -⟩ := hst.receiver hre hp
  rw [hco] at hc1; cases hc1
  obtain ⟨v, v', dl, own, a1, a2, a3, a4, a5, a6, a7, a8, a9, a10⟩ := reshare_processDeal E _ d' dd k k' r
    (hev.isResharing.trans hre) (hev.canReceive.trans (hst.receive.trans hp)) coeffs hne _
    (hev.dpub.trans hc2) (fun i v hv => ((reach_ver h0 E cs hv).1).trans hev.nidx.symm) h
  obtain ⟨b1, b2⟩ := a10.1 happ
  refine ⟨a6, v', dl, a3, a4, ?_, ?_⟩
  · cases hc : dl.commitments with
    | nil => rw [hc] at b2; cases b2
    | cons x l => rw [hc] at b2; simpa using b2
  · have hr : v.aggregator.remember dl = { v.aggregator with
        commits := dl.commitments, sid := dl.sessionId, deal := some dl, t := dl.t } := by
      unfold Aggregator.remember; rw [a2]
    have hck := a9.1 b1
    rw [hr, checkDeal_iff _ _ rfl rfl] at hck
    rw [hck.2.2.2, a5, show (dRun E d0 cs).nidx = d0.nidx from hev.nidx]

end

section

variable [SMul F G]

/-- C34, against arbitrary messages: the public key should stay the same in every resharing that
finishes. Hash without collisions, distinct keys, fewer old participants than elements of the
field. -/
def C34_statement : Prop :=
  ∀ (F G : Type) (_ : Field F) (_ : AddCommGroup G) (_ : Module F G) (_ : DecidableEq G)
    (q : Nat) (_ : CharP F q) (E : DkgEnv F G) (_ : E.suite.Lawful)
    (_ : Function.Injective E.suite.hash) (c : Config F G) (_ : c.oldNodes.Nodup)
    (_ : c.newNodes.Nodup) (_ : c.oldNodes.length ≤ q) (secret : F) (draws : List F) (d0 : Dkg F G)
    (_ : newDistKeyHandler E.suite c secret draws = .ok d0) (_ : d0.isResharing = true)
    (coeffs : List G) (_ : d0.c.publicCoeffs = some coeffs) (_ : coeffs ≠ [])
    (cs : List (DCall F G)) (ord : MapOrder) (k : DistKeyShare F G)
    (_ : (dRun E d0 cs).distKeyShare E.suite ord = .ok k),
    k.publicKey = .ok (coeffs.getD 0 0)

end

section

variable [Module F G]

/-- What holds: the public key stays the same if the participant itself approved the deal of every
qualified dealer, whatever else happened. Missing: deals that the participant answered with a
complaint, which can become qualified all the same (`C34_violated_rejected`). -/
theorem C34_approved_partial (q : Nat) [CharP F q] (E : DkgEnv F G) (c : Config F G) (secret : F)
    (draws : List F) (d0 : Dkg F G) (h0 : newDistKeyHandler E.suite c secret draws = .ok d0)
    (hre : d0.isResharing = true) (hq : c.oldNodes.length ≤ q)
    (coeffs : List G) (hco : d0.c.publicCoeffs = some coeffs) (hne : coeffs ≠ [])
    (cs : List (DCall F G)) (ord : MapOrder) (k : DistKeyShare F G)
    (hk : (dRun E d0 cs).distKeyShare E.suite ord = .ok k)
    (happ : ∀ i, Qualified (dRun E d0 cs) i → ∃ pre dd n n' post r,
      cs = pre ++ .deal dd n n' :: post ∧ dd.index = i ∧
      ((dRun E d0 pre).processDeal E dd n n').2 = .ok r ∧ r.response.status = true) :
    k.publicKey = .ok (coeffs.getD 0 0) := by
  have hp := (C34_share_on_commits E c secret draws d0 h0 hre coeffs hco hne cs ord k hk).1
  refine C34_same_key q E c secret draws d0 h0 hre hp hq coeffs hco hne cs ord k hk ?_
  intro i v hv hc
  obtain ⟨pre, dd, n, n', post, r, hsplit, rfl, hr, hs⟩ := happ i ⟨v, hv, hc⟩
  obtain ⟨-, v', dl, h1, h2, h3, -⟩ := C34_approval E c secret draws d0 h0 hre hp coeffs hco hne pre dd
    n n' ((dRun E d0 pre).processDeal E dd n n').1 r (Prod.ext rfl hr) hs
  have hrun : dRun E d0 cs = dRun E ((dRun E d0 pre).processDeal E dd n n').1 post := by
    rw [hsplit]; simp only [dRun, List.foldl_append, List.foldl_cons]; rfl
  obtain ⟨vcs, -, h4⟩ := (dRun_evolves E ((dRun E d0 pre).processDeal E dd n n').1 post).ver _ v' h1
  rw [hrun] at hv
  rw [hv] at h4
  cases h4
  exact ⟨dl, (vRun_ext E.toEnv v' vcs).deal dl h2, h3⟩

/-! ## C78: a refused deal -/

end

section

variable [SMul F G]

/-- C78, the intended property: a deal that a participant answers with a complaint never becomes
qualified for this participant, unless the dealer justifies it. -/
def C78_statement : Prop :=
  ∀ (F G : Type) (_ : Field F) (_ : AddCommGroup G) (_ : Module F G) (_ : DecidableEq G)
    (E : DkgEnv F G) (_ : E.suite.Lawful)
    (_ : Function.Injective E.suite.hash) (c : Config F G) (_ : c.oldNodes.Nodup)
    (_ : c.newNodes.Nodup) (secret : F) (draws : List F) (d0 : Dkg F G)
    (_ : newDistKeyHandler E.suite c secret draws = .ok d0)
    (pre post : List (DCall F G)) (dd : DkgP.Deal G) (n n' : F) (r : DkgP.Response)
    (_ : ((dRun E d0 pre).processDeal E dd n n').2 = .ok r) (_ : r.response.status = false)
    (_ : ∀ c ∈ post, ∀ j, c ≠ .justification j),
    ¬ Qualified (dRun E d0 (pre ++ .deal dd n n' :: post)) dd.index

end

section

variable [SMul F G]

/-- C78: the complaint that a new participant sends because a deal is not a share of the old secret
is not what it stores: its own stored response approves the deal if the deal is consistent in
itself. -/
theorem C78_rejection_not_stored (E : DkgEnv F G) (c : Config F G) (secret : F) (draws : List F)
    (d0 : Dkg F G) (h0 : newDistKeyHandler E.suite c secret draws = .ok d0)
    (hre : d0.isResharing = true) (hp : d0.newPresent = true)
    (coeffs : List G) (hco : d0.c.publicCoeffs = some coeffs) (hne : coeffs ≠ [])
    (pre post : List (DCall F G)) (dd : DkgP.Deal G) (n n' : F) (r : DkgP.Response)
    (h : ((dRun E d0 pre).processDeal E dd n n').2 = .ok r) :
    ∃ v dl own, (dRun E d0 (pre ++ .deal dd n n' :: post)).verifiers.get dd.index = some v ∧
      v.aggregator.deal = some dl ∧ v.aggregator.responses.get d0.nidx = some own ∧
      (own.status = true ↔ validT dl.t c.newNodes = true ∧ dl.secShare.i < c.newNodes.length ∧
        dl.commitments ≠ [] ∧
        dl.secShare.v • E.suite.base = pointVal dl.commitments ((dl.secShare.i + 1 : Nat) : F)) ∧
      (r.response.status = true ↔ own.status = true ∧
        dl.commitments.head? = some (pointVal coeffs ((dd.index + 1 : Nat) : F))) := by
  have hst := newDistKeyHandler_ok h0
  have hev := dRun_evolves E d0 pre
  obtain ⟨coeffs', hc1, hc2, -, -⟩ := hst.receiver hre hp
  rw [hco] at hc1; cases hc1
  obtain ⟨v, v', dl, own, a1, a2, a3, a4, a5, a6, a7, a8, a9, a10⟩ := reshare_processDeal E _
    ((dRun E d0 pre).processDeal E dd n n').1 dd n n' r
    (hev.isResharing.trans hre) (hev.canReceive.trans (hst.receive.trans hp)) coeffs hne _
    (hev.dpub.trans hc2) (fun i v hv => ((reach_ver h0 E pre hv).1).trans hev.nidx.symm)
    (Prod.ext rfl h)
  rw [show (dRun E d0 pre).nidx = d0.nidx from hev.nidx] at a8
  obtain ⟨vcs, -, h4⟩ := (dRun_evolves E ((dRun E d0 pre).processDeal E dd n n').1 post).ver _ v' a3
  have hrun : dRun E d0 (pre ++ .deal dd n n' :: post) =
      dRun E ((dRun E d0 pre).processDeal E dd n n').1 post := by
    simp only [dRun, List.foldl_append, List.foldl_cons]; rfl
  have hx := vRun_ext E.toEnv v' vcs
  refine ⟨_, dl, own, hrun ▸ h4, hx.deal _ a4, hx.responses _ _ a8, ?_, a10⟩
  rw [a9]
  have hr : v.aggregator.remember dl = { v.aggregator with
      commits := dl.commitments, sid := dl.sessionId, deal := some dl, t := dl.t } := by
    unfold Aggregator.remember; rw [a2]
  have hvs : v.aggregator.verifiers = c.newNodes := (reach_ver h0 E pre a1).2.trans hst.newNodes
  rw [hr, checkDeal_iff _ _ rfl rfl]
  simp only
  rw [hvs]

/-! ## C79: the iteration order -/

end

section

variable [SMul F G]

/-- C79, the intended property: the key that a participant of the new group gets is determined by
what happened before, not by the iteration order of the hash map. -/
def C79_statement : Prop :=
  ∀ (F G : Type) (_ : Field F) (_ : AddCommGroup G) (_ : Module F G) (_ : DecidableEq G)
    (E : DkgEnv F G) (_ : E.suite.Lawful)
    (_ : Function.Injective E.suite.hash) (c : Config F G) (_ : c.oldNodes.Nodup)
    (_ : c.newNodes.Nodup) (secret : F) (draws : List F) (d0 : Dkg F G)
    (_ : newDistKeyHandler E.suite c secret draws = .ok d0)
    (cs : List (DCall F G)) (ord ord' : MapOrder) (k k' : DistKeyShare F G)
    (_ : (dRun E d0 cs).distKeyShare E.suite ord = .ok k)
    (_ : (dRun E d0 cs).distKeyShare E.suite ord' = .ok k'), k = k'

/-! ## Concrete cases -/

end

namespace DkgPExample

open Kyber.Toy

section

variable [SMul F G]

/-- Old node `i` of two (keys 3, 5; the old polynomial is `[1, 4]`) with share `sh`; the new nodes have
the keys 2 and 4, and `a` is the other coefficient of its polynomial. -/
def oldConfig (x : ZMod 11) (i : Nat) (sh : ZMod 11) : Config (ZMod 11) (ZMod 11) :=
  ⟨x, [6, 10], none, [4, 8], some ⟨[2, 8], ⟨i, sh⟩, []⟩, 2, 2⟩
@[inherit_doc oldConfig] def oldNode (x : ZMod 11) (i : Nat) (sh a : ZMod 11) :
    Dkg (ZMod 11) (ZMod 11) := getDkg (newDistKeyHandler envDI.suite (oldConfig x i sh) 0 [a])

/-- The new node with key 2. -/
def newNode : Dkg (ZMod 11) (ZMod 11) :=
  getDkg (newDistKeyHandler envDI.suite ⟨2, [6, 10], some [2, 8], [4, 8], none, 2, 2⟩ 0 [])

theorem newNode_ok :
    newDistKeyHandler envDI.suite ⟨2, [6, 10], some [2, 8], [4, 8], none, 2, 2⟩ 0 [] = .ok newNode ∧
    newNode.isResharing = true ∧ newNode.newPresent = true ∧ newNode.nidx = 0 ∧
    newNode.c.publicCoeffs = some [2, 8] ∧ newNode.newT = 2 := ⟨rfl, rfl, rfl, rfl, rfl, rfl⟩

/-- The deal that `d` makes for new node `j`. -/
def dealOf (d : Dkg (ZMod 11) (ZMod 11)) (j : Nat) : DkgP.Deal (ZMod 11) :=
  match (d.deals envDI (fun _ => 3) (fun _ => 4) (fun _ => 5) 5 1).2 with
  | .ok m => (m.get j).getD ⟨0, ⟨0, [], [], []⟩, []⟩
  | _ => ⟨0, ⟨0, [], [], []⟩, []⟩

/-- New node 0 gets the deals of both old nodes, and the other new node approves both; old node 1
reshares `s` instead of its share 9. -/
def reshared (s : ZMod 11) : List (DCall (ZMod 11) (ZMod 11)) :=
  [.deal (dealOf (oldNode 3 0 5 6) 0) 5 1, .deal (dealOf (oldNode 5 1 s 7) 0) 5 1,
   .response (approval (oldNode 3 0 5 6).dealer.sessionId 4 0 1) 1,
   .response (approval (oldNode 5 1 s 7).dealer.sessionId 4 1 1) 1]

/-- With the right share: the weights are 2 and -1, so the new polynomial is
`2 [5, 6] - [9, 7] = [1, 5]`. -/
theorem reshared_honest : (dRun envDI newNode (reshared 9)).distKeyShare envDI.suite MapOrder.id =
      .ok ⟨[1 * 2, 5 * 2], ⟨0, 1 + 5⟩, [6, 5]⟩ ∧
    (((dRun envDI newNode []).processDeal envDI (dealOf (oldNode 3 0 5 6) 0) 5 1).2 =
      .ok (approval (oldNode 3 0 5 6).dealer.sessionId 2 0 0)) ∧
    (((dRun envDI newNode ((reshared 9).take 1)).processDeal envDI (dealOf (oldNode 5 1 9 7) 0) 5 1).2 =
      .ok (approval (oldNode 5 1 9 7).dealer.sessionId 2 1 0)) := by
  decide +kernel

/-- The complaint of new node 0 about the deal of old node 1. -/
def refusal : DkgP.Response :=
  let r : VssP.Response := ⟨(oldNode 5 1 3 7).dealer.sessionId, 0, false, []⟩
  ⟨1, { r with signature := Schnorr.sign envDI.suite 1 2 (r.hash envDI.suite) }⟩

/-- A wrong share: new node 0 answers with a complaint, and nevertheless takes the deal. -/
theorem reshared_wrong : (dRun envDI newNode (reshared 3)).distKeyShare envDI.suite MapOrder.id =
      .ok ⟨[7 * 2, 5 * 2], ⟨0, 7 + 5⟩, [1, 10]⟩ ∧
    ((dRun envDI newNode ((reshared 3).take 1)).processDeal envDI (dealOf (oldNode 5 1 3 7) 0) 5 1).2 =
      .ok refusal ∧
    (dRun envDI newNode (reshared 3)).certified MapOrder.id = true := by
  decide +kernel

theorem reshared_qual (s : ZMod 11) (hs : s = 9 ∨ s = 3) (i : Nat) :
    Qualified (dRun envDI newNode (reshared s)) i ↔ i ∈ ({0, 1} : Finset Nat) := by
  rw [← mem_qualSet (reach_nodup newNode_ok.1 envDI _)]
  have : qualSet (dRun envDI newNode (reshared s)) = {0, 1} := by
    rcases hs with rfl | rfl <;> decide +kernel
  rw [this]

/-- The deals of old node `i`, as a list. -/
def dealList (d : Dkg (ZMod 11) (ZMod 11)) (j : Nat) : VssP.Deal (ZMod 11) (ZMod 11) :=
  d.dealer.deals.getD j ⟨[], ⟨0, 0⟩, 0, []⟩

theorem reshared_deals : ∀ i ∈ ({0, 1} : Finset Nat), ∃ v,
    (dRun envDI newNode (reshared 9)).verifiers.get i = some v ∧
    v.aggregator.deal = some (dealList (if i = 0 then oldNode 3 0 5 6 else oldNode 5 1 9 7) 0) := by
  have key : ∀ i ∈ ({0, 1} : Finset Nat), ((dRun envDI newNode (reshared 9)).verifiers.get i).bind
      (fun v => v.aggregator.deal) =
        some (dealList (if i = 0 then oldNode 3 0 5 6 else oldNode 5 1 9 7) 0) := by
    decide +kernel
  intro i hi
  have h := key i hi
  cases hg : (dRun envDI newNode (reshared 9)).verifiers.get i with
  | none => rw [hg] at h; cases h
  | some v => rw [hg] at h; exact ⟨v, rfl, h⟩


/-- `C34_dist_key_share_iff`: the key in this history. -/
example := C34_dist_key_share_iff envDI _ 0 [] newNode newNode_ok.1 newNode_ok.2.1 newNode_ok.2.2.1 [2, 8]
  newNode_ok.2.2.2.2.1 (by decide) (reshared 9) MapOrder.rev ⟨[1 * 2, 5 * 2], ⟨0, 1 + 5⟩, [6, 5]⟩ {0, 1} {0, 1}
  (fun i => (reshared_qual 9 (Or.inl rfl) i).symm) _ reshared_deals (by decide)

/-- `C79_order_partial`: all deals are there, and the key is the same in the other order. -/
example : (dRun envDI newNode (reshared 9)).distKeyShare envDI.suite MapOrder.rev =
    .ok ⟨[1 * 2, 5 * 2], ⟨0, 1 + 5⟩, [6, 5]⟩ := by
  refine C79_order_partial envDI _ 0 [] newNode newNode_ok.1 newNode_ok.2.1 newNode_ok.2.2.1 [2, 8]
    newNode_ok.2.2.2.2.1 (by decide) (reshared 9) MapOrder.id MapOrder.rev _ (fun i v hv hc => ?_) reshared_honest.1
  obtain ⟨v', h1, h2⟩ := reshared_deals i
    ((reshared_qual 9 (Or.inl rfl) i).1 ((mem_qualSet (reach_nodup newNode_ok.1 envDI _)).1 (by
      have : ∀ i ∈ ({0, 1} : Finset Nat), i ∈ qualSet (dRun envDI newNode (reshared 9)) := by decide +kernel
      refine this i ?_
      have hk : (dRun envDI newNode (reshared 9)).verifiers.keys = [0, 1] := by decide +kernel
      have := AMap.get_isSome.1 (by rw [hv]; rfl : ((dRun envDI newNode (reshared 9)).verifiers.get i).isSome)
      rw [hk] at this
      simpa using this)))
  rw [h1] at hv
  cases hv
  rw [h2]; rfl

/-- `C34_approval` for the deal of old node 0. -/
example : ∃ v' dl, ((dRun envDI newNode []).processDeal envDI (dealOf (oldNode 3 0 5 6) 0) 5 1).1.verifiers.get
      (dealOf (oldNode 3 0 5 6) 0).index = some v' ∧ v'.aggregator.deal = some dl := by
  obtain ⟨-, v', dl, h1, h2, -⟩ := C34_approval envDI _ 0 [] newNode newNode_ok.1 newNode_ok.2.1 newNode_ok.2.2.1
    [2, 8] newNode_ok.2.2.2.2.1 (by decide) [] (dealOf (oldNode 3 0 5 6) 0) 5 1
    ((dRun envDI newNode []).processDeal envDI (dealOf (oldNode 3 0 5 6) 0) 5 1).1
    (approval (oldNode 3 0 5 6).dealer.sessionId 2 0 0)
    (by rw [← reshared_honest.2.1]) (by unfold approval; rfl)
  exact ⟨v', dl, h1, h2⟩

/-- `C34_honest` for new node 0 with the deals of both old nodes. -/
example : ∃ k, (dRun envDI newNode (reshared 9)).distKeyShare envDI.suite MapOrder.rev = .ok k ∧
    k.commits = ([1, 5] : List (ZMod 11)).map (fun a => a • (2 : ZMod 11)) ∧
    k.share = ⟨0, polyVal [1, 5] ((0 + 1 : Nat) : ZMod 11)⟩ := by
  obtain ⟨-, -, h⟩ := C34_honest 11 envDI envDI_lawful.base_lin _ _ _ newNode newNode_ok.1 newNode_ok.2.1 newNode_ok.2.2.1
    (by decide) [1, 4] (by decide) newNode_ok.2.2.2.2.1 (reshared 9) MapOrder.rev {0, 1} {0, 1}
    (fun i => (reshared_qual 9 (Or.inl rfl) i).symm) (by decide) (by decide) (by decide)
    (fun i => if i = 0 then oldConfig 3 0 5 else oldConfig 5 1 9) (fun _ => 0)
    (fun i => if i = 0 then [6] else [7])
    (fun i => if i = 0 then oldNode 3 0 5 6 else oldNode 5 1 9 7)
    (by
      intro i hi
      have : i = 0 ∨ i = 1 := by simpa using hi
      rcases this with rfl | rfl
      · exact ⟨rfl, rfl, rfl, _, rfl, by decide⟩
      · exact ⟨rfl, rfl, rfl, _, rfl, by decide⟩)
    (by
      intro i hi
      obtain ⟨v, h1, h2⟩ := reshared_deals i hi
      refine ⟨v, _, h1, h2, ?_⟩
      have : i = 0 ∨ i = 1 := by simpa using hi
      rcases this with rfl | rfl
      · rfl
      · rfl)
  have hc : combine (F := ZMod 11) {0, 1} (fun i => (if i = 0 then oldNode 3 0 5 6
      else oldNode 5 1 9 7).dealer.secretPoly.coeffs) newNode.newT = [1, 5] := by decide +kernel
  rw [hc] at h
  exact h

/-- `C34_same_key`, `C34_approved_partial`: in this history the participant approves both deals. -/
example : ∀ k, (dRun envDI newNode (reshared 9)).distKeyShare envDI.suite MapOrder.id = .ok k →
    k.publicKey = .ok 2 := by
  intro k hk
  refine C34_approved_partial 11 envDI _ _ _ newNode newNode_ok.1 newNode_ok.2.1 (by decide) [2, 8]
    newNode_ok.2.2.2.2.1 (by decide) (reshared 9) MapOrder.id k hk ?_
  intro i hi
  rw [reshared_qual 9 (Or.inl rfl)] at hi
  have : i = 0 ∨ i = 1 := by simpa using hi
  rcases this with rfl | rfl
  · exact ⟨[], _, _, _, _, _, rfl, by decide +kernel, reshared_honest.2.1, rfl⟩
  · exact ⟨(reshared 9).take 1, _, _, _, _, _, rfl, by decide +kernel, reshared_honest.2.2, rfl⟩

/-- `C34_recover` on the shares 6 and 0 of the two new nodes. -/
example : Poly.recoverSecret MapOrder.rev [some (⟨1, 0⟩ : Share (ZMod 11)), some ⟨0, 6⟩] 2 = .ok 1 :=
  C34_recover (G := ZMod 11) 11 MapOrder.rev [1, 4] [1, 5] (by decide) rfl
    [⟨[2, 10], ⟨1, 0⟩, []⟩, ⟨[2, 10], ⟨0, 6⟩, []⟩] (by decide) (by decide) (by decide)

/-- `C34_share_on_commits` even with the wrong deal. -/
example : (7 + 5 : ZMod 11) • (2 : ZMod 11) = pointVal [7 * 2, 5 * 2] ((0 + 1 : Nat) : ZMod 11) :=
  (C34_share_on_commits envDI _ _ _ newNode newNode_ok.1 newNode_ok.2.1 [2, 8] newNode_ok.2.2.2.2.1
    (by decide) (reshared 3) MapOrder.id _ reshared_wrong.1).2.2.2.2

/-- `C78_rejection_not_stored` for the wrong deal: the complaint goes out, the approval is stored. -/
example : ∃ v dl own, (dRun envDI newNode (reshared 3)).verifiers.get 1 = some v ∧
    v.aggregator.deal = some dl ∧ v.aggregator.responses.get 0 = some own ∧
    (false = true ↔ own.status = true ∧
      dl.commitments.head? = some (pointVal [2, 8] ((1 + 1 : Nat) : ZMod 11))) := by
  obtain ⟨v, dl, own, h1, h2, h3, -, h5⟩ := C78_rejection_not_stored envDI _ _ _ newNode newNode_ok.1
    newNode_ok.2.1 newNode_ok.2.2.1 [2, 8] newNode_ok.2.2.2.2.1 (by decide) ((reshared 3).take 1)
    ((reshared 3).drop 2) (dealOf (oldNode 5 1 3 7) 0) 5 1 refusal reshared_wrong.2.1
  exact ⟨v, dl, own, h1, h2, h3, h5⟩

/-- Old node `i` of four (keys 3, 5, 1, 7), which reshare `[1, 4]` to new nodes with the keys
2, 4, 6. -/
def oldNode4 (x : ZMod 11) (i : Nat) (sh a : ZMod 11) : Dkg (ZMod 11) (ZMod 11) :=
  getDkg (newDistKeyHandler envDI.suite
    ⟨x, [6, 10, 2, 3], none, [4, 8, 1], some ⟨[2, 8], ⟨i, sh⟩, []⟩, 2, 2⟩ 0 [a])
@[inherit_doc oldNode4] def newNode4 : Dkg (ZMod 11) (ZMod 11) := getDkg (newDistKeyHandler envDI.suite
  ⟨2, [6, 10, 2, 3], some [2, 8], [4, 8, 1], none, 2, 2⟩ 0 [])

/-- New node 0 gets the deals of the old nodes 0, 1, 2; the deal of old node 3 does not arrive, but
the other new nodes approve it, then there is a timeout. -/
def missingDeal : List (DCall (ZMod 11) (ZMod 11)) :=
  [.deal (dealOf (oldNode4 3 0 5 6) 0) 5 1, .deal (dealOf (oldNode4 5 1 9 7) 0) 5 1,
   .deal (dealOf (oldNode4 1 2 2 1) 0) 5 1,
   .response (approval (oldNode4 3 0 5 6).dealer.sessionId 4 0 1) 1,
   .response (approval (oldNode4 5 1 9 7).dealer.sessionId 4 1 1) 1,
   .response (approval (oldNode4 1 2 2 1).dealer.sessionId 4 2 1) 1,
   .response (approval (oldNode4 7 3 6 9).dealer.sessionId 4 3 1) 1,
   .response (approval (oldNode4 7 3 6 9).dealer.sessionId 6 3 2) 1, .timeout]

/-- The order of insertion, starting with the second entry. -/
def rot : MapOrder := ⟨fun l => l.rotate 1, fun l => List.rotate_perm l 1⟩

/-- The order of insertion uses the deals of 0 and 1, `rot` uses those of 1 and 2, the reverse order
finds no deal at all. -/
theorem missingDeal_keys :
    (dRun envDI newNode4 missingDeal).distKeyShare envDI.suite MapOrder.id =
      .ok ⟨[2, 5 * 2], ⟨0, 6⟩, [6, 5]⟩ ∧
    (dRun envDI newNode4 missingDeal).distKeyShare envDI.suite rot =
      .ok ⟨[2, 8 * 2], ⟨0, 9⟩, [9, 9]⟩ ∧
    (dRun envDI newNode4 missingDeal).distKeyShare envDI.suite MapOrder.rev =
      .err (.poly .notEnoughSharesForPublic) := by
  decide +kernel

end

end DkgPExample

section

variable [SMul F G]

open DkgPExample in
/-- C34 does not hold against arbitrary messages: a leaving old node reshares something else than its
share. The new node answers with a complaint, but as the other new node approves, the deal is
qualified, and the new node finishes with another public key. -/
theorem C34_violated_rejected : ¬ C34_statement := by
  intro h
  have := h (ZMod 11) (ZMod 11) _ _ _ _ 11 inferInstance Toy.envDI Toy.envDI_lawful (fun _ _ h => h)
    _ (by decide) (by decide) (by decide) _ _ newNode newNode_ok.1 newNode_ok.2.1 [2, 8]
    newNode_ok.2.2.2.2.1 (by decide) (reshared 3) MapOrder.id _ reshared_wrong.1
  revert this; decide

open DkgPExample in
/-- C78 does not hold: the deal that the new node refuses becomes qualified. -/
theorem C78_violated : ¬ C78_statement := by
  intro h
  refine h (ZMod 11) (ZMod 11) _ _ _ _ Toy.envDI Toy.envDI_lawful (fun _ _ h => h)
    _ (by decide) (by decide) _ _ newNode newNode_ok.1 ((reshared 3).take 1) ((reshared 3).drop 2) _ 5 1
    refusal reshared_wrong.2.1 rfl ?_ ?_
  · intro c hc j hj
    subst hj
    simp [reshared] at hc
  · exact (reshared_qual 3 (Or.inr rfl) 1).2 (by decide)

open DkgPExample in
/-- C79 does not hold: if a dealer is qualified whose deal did not arrive, the deals that come after
it in the iteration are left out, and which deals these are changes the key. -/
theorem C79_violated : ¬ C79_statement := by
  intro h
  have := h (ZMod 11) (ZMod 11) _ _ _ _ Toy.envDI Toy.envDI_lawful (fun _ _ h => h)
    ⟨2, [6, 10, 2, 3], some [2, 8], [4, 8, 1], none, 2, 2⟩ (by decide) (by decide) 0 [] newNode4 rfl
    missingDeal MapOrder.id rot _ _ missingDeal_keys.1 missingDeal_keys.2.1
  revert this; decide

end

end Kyber.Props
