/-
Properties C33 (the key), C36 (the qualified set) for the Pedersen DKG
(`src/share/dkg/pedersen/dkg.rs`).
-/
import Verif.Lemmas.DkgPedersenKey
import Verif.Props.VssPedersen
import Verif.Spec.ToyDkg

set_option linter.unusedSectionVars false

namespace Kyber.Props

open Kyber Kyber.Poly Kyber.Spec Kyber.VssP Kyber.DkgP

variable {F G : Type} [Field F] [AddCommGroup G] [DecidableEq G]

/-! ## Reachable states -/

section

variable [SMul F G]

theorem started_keys {S : Suite F G} {c : Config F G} {secret : F} {draws : List F} {d : Dkg F G}
    (h : newDistKeyHandler S c secret draws = .ok d) :
    d.verifiers.keys = [] ∨ d.verifiers.keys = List.range d.c.oldNodes.length := by
  rw [(newDistKeyHandler_ok h).verifiers]
  split
  · exact Or.inr (startVers_keys S d.c d.nidx)
  · exact Or.inl rfl

theorem reach_nodup {S : Suite F G} {c : Config F G} {secret : F} {draws : List F} {d : Dkg F G}
    (h : newDistKeyHandler S c secret draws = .ok d) (E : DkgEnv F G) (cs : List (DCall F G)) :
    (dRun E d cs).verifiers.keys.Nodup := by
  rw [(dRun_evolves E d cs).keys]
  rcases started_keys h with h | h <;> rw [h]
  · exact List.nodup_nil
  · exact List.nodup_range

theorem oldAgg_nodup (E : DkgEnv F G) (d : Dkg F G) (h : d.oldAggregators.keys.Nodup)
    (cs : List (DCall F G)) : (dRun E d cs).oldAggregators.keys.Nodup := by
  induction cs generalizing d with
  | nil => exact h
  | cons c cs ih =>
    apply ih
    have hset : ∀ (d : Dkg F G) i v, (d.setVerifier i v).oldAggregators = d.oldAggregators :=
      fun _ _ _ => rfl
    have hdeal : ∀ (d : Dkg F G) dd k k', (d.processDeal E dd k k').1.oldAggregators = d.oldAggregators := by
      intro d dd k k'
      unfold Dkg.processDeal
      split; · rfl
      split; · rfl
      split; · rfl
      · rfl
      split; · rfl
      split
      · rfl
      · rfl
      · simp only
        split
        · split
          · split
            · rfl
            · rfl
          · rfl
        · rfl
    cases c with
    | deals dh k rnd vk vk' =>
      show (d.deals E dh k rnd vk vk').1.oldAggregators.keys.Nodup
      unfold Dkg.deals
      split
      · exact h
      split
      · exact h
      · exact h
      · rename_i encs _
        have : ∀ (l : List Nat) (d : Dkg F G) dd,
            (Dkg.dealsLoop E encs rnd vk vk' l d dd).1.oldAggregators = d.oldAggregators := by
          intro l
          induction l with
          | nil => intro d dd; rfl
          | cons i l ihl =>
            intro d dd
            unfold Dkg.dealsLoop
            split
            · rfl
            · rename_i e he
              simp only
              split
              · split
                · exact ihl _ _
                · have h0 := hdeal { d with processed := true }
                  split
                  · rename_i d' r hd'
                    have h1 := h0 (d.signDeal E e (rnd i)) vk vk'
                    rw [hd'] at h1
                    split
                    · exact h1
                    · rw [ihl]; exact h1
                  · rename_i d' r hd'
                    have h1 := h0 (d.signDeal E e (rnd i)) vk vk'
                    rw [hd'] at h1; exact h1
                  · rename_i d' hd'
                    have h1 := h0 (d.signDeal E e (rnd i)) vk vk'
                    rw [hd'] at h1; exact h1
              · exact ihl _ _
        rw [this]; exact h
    | deal dd k k' => show (d.processDeal E dd k k').1.oldAggregators.keys.Nodup; rw [hdeal]; exact h
    | response r k =>
      show (d.processResponse E r k).1.oldAggregators.keys.Nodup
      unfold Dkg.processResponse
      split
      · unfold Dkg.processResharingResponse
        have h' : ∀ a, (d.oldAggregators.insert r.index a).keys.Nodup :=
          fun a => AMap.nodup_insert h _ _
        simp only
        split
        · exact h' _
        · exact h' _
        · split
          · exact h' _
          · split
            · exact h' _
            · split <;> exact h' _
      · split
        · exact h
        · split
          · exact h
          · exact h
          · simp only
            split
            · exact h
            · split
              · exact h
              · exact h
              · exact h
              · split <;> exact h
    | justification j =>
      show (d.processJustification E j).1.oldAggregators.keys.Nodup
      unfold Dkg.processJustification
      split <;> exact h
    | timeout => exact h

/-! ## C36: the qualified set -/

/-- C36: in every reachable state of a participant of the new group, `qual` lists exactly the
dealers whose deal is certified: not caught, at least `t` approvals, no complaint, and nobody
missing (before the timeout) or at most `n - t` missing (after it); each once; any two iteration
orders give the same list up to rearrangement; and `is_in_qual` answers membership. -/
theorem C36_qual (E : DkgEnv F G) (c : Config F G) (secret : F) (draws : List F) (d0 : Dkg F G)
    (h0 : newDistKeyHandler E.suite c secret draws = .ok d0) (hp : d0.newPresent = true)
    (cs : List (DCall F G)) (ord ord' : MapOrder) :
    let d := dRun E d0 cs
    (∀ i, i ∈ d.qual ord ↔ ∃ v, d.verifiers.get i = some v ∧
      v.aggregator.badDealer = false ∧
      v.aggregator.t ≤ (approvedBy v.aggregator.responses v.aggregator.verifiers.length).card ∧
      complainedBy v.aggregator.responses v.aggregator.verifiers.length = ∅ ∧
      (if v.aggregator.timeout then
        (missing v.aggregator.responses v.aggregator.verifiers.length).card + v.aggregator.t
          ≤ v.aggregator.verifiers.length
        else missing v.aggregator.responses v.aggregator.verifiers.length = ∅)) ∧
    (∀ i ∈ d.qual ord, i < d.c.oldNodes.length) ∧
    (d.qual ord).Nodup ∧ (d.qual ord).Perm (d.qual ord') ∧
    (∀ i, d.isInQual ord i = true ↔ i ∈ d.qual ord) := by
  intro d
  have hev := dRun_evolves E d0 cs
  have hn : d.verifiers.keys.Nodup := reach_nodup h0 E cs
  have hh : HasVerifiers d := by
    rintro ⟨-, -, h3⟩
    rw [show d.newPresent = true from hev.newPresent.trans hp] at h3; cases h3
  have hmem : ∀ ord : MapOrder, ∀ i, i ∈ d.qual ord ↔
      ∃ v, d.verifiers.get i = some v ∧ v.aggregator.dealCertified = true := by
    intro ord i
    rw [(qual_perm hh ord).mem_iff, mem_pick hn]
  refine ⟨?_, ?_, (qual_perm hh ord).nodup_iff.2 (pick_nodup _ hn),
    (qual_perm hh ord).trans (qual_perm hh ord').symm, ?_⟩
  · intro i
    rw [hmem]
    constructor
    · rintro ⟨v, hv, hc⟩; exact ⟨v, hv, (C23_certified_iff _).1 hc⟩
    · rintro ⟨v, hv, hc⟩; exact ⟨v, hv, (C23_certified_iff _).2 hc⟩
  · intro i hi
    obtain ⟨v, hv, -⟩ := (hmem ord i).1 hi
    have hk : i ∈ d.verifiers.keys := AMap.get_isSome.1 (by rw [hv]; rfl)
    have hk' : i ∈ d0.verifiers.keys := by rw [← hev.keys]; exact hk
    rw [show d.c = d0.c from hev.c]
    rcases started_keys h0 with h | h <;> rw [h] at hk'
    · cases hk'
    · exact List.mem_range.1 hk'
  · intro i
    rw [hmem]
    unfold Dkg.isInQual
    rw [List.any_eq_true]
    constructor
    · rintro ⟨⟨j, v⟩, he, hc⟩
      simp only [Bool.and_eq_true, decide_eq_true_eq] at hc
      obtain ⟨hc, rfl⟩ := hc
      exact ⟨v, AMap.get_of_mem hn ((ord.perm _).subset he), hc⟩
    · rintro ⟨v, hv, hc⟩
      exact ⟨(i, v), (ord.perm _).symm.subset (AMap.mem_of_get hv), by simp [hc]⟩

/-- C36: `certified` is true exactly when every dealer's deal is certified and no response at all
is missing; it does not depend on the iteration order although the loop stops early. -/
theorem C36_certified (E : DkgEnv F G) (c : Config F G) (secret : F) (draws : List F) (d0 : Dkg F G)
    (h0 : newDistKeyHandler E.suite c secret draws = .ok d0) (hp : d0.newPresent = true)
    (hnd : d0.c.oldNodes.Nodup) (cs : List (DCall F G)) (ord : MapOrder) :
    let d := dRun E d0 cs
    d.certified ord = true ↔ ∀ i < d.c.oldNodes.length, ∃ v, d.verifiers.get i = some v ∧
      v.aggregator.dealCertified = true ∧
      missing v.aggregator.responses v.aggregator.verifiers.length = ∅ := by
  intro d
  have hev := dRun_evolves E d0 cs
  have hn : d.verifiers.keys.Nodup := reach_nodup h0 E cs
  have hkeys : d.verifiers.keys = List.range d.c.oldNodes.length := by
    rw [show d.verifiers.keys = d0.verifiers.keys from hev.keys, show d.c = d0.c from hev.c,
      (newDistKeyHandler_ok h0).verifiers, if_pos ⟨hp, hnd⟩, startVers_keys]
  have hlen : d.verifiers.length = d.c.oldNodes.length := by
    rw [← AMap.length_keys, hkeys, List.length_range]
  unfold Dkg.certified
  rw [if_neg (by
    rintro ⟨-, -, h3⟩
    rw [show d.newPresent = true from hev.newPresent.trans hp] at h3; cases h3)]
  simp only [zero_add, decide_eq_true_eq]
  have hl2 : d.c.oldNodes.length = ((ord.run d.verifiers).map
      (fun e => (e.2.aggregator.dealCertified, e.2.aggregator.missingResponses))).length := by
    rw [List.length_map, (ord.perm d.verifiers).length_eq, hlen]
  rw [hl2, goodCount_full, ← hl2]
  have hmiss : ∀ v : Verifier F G, v.aggregator.missingResponses = [] ↔
      missing v.aggregator.responses v.aggregator.verifiers.length = ∅ := by
    intro v
    rw [List.eq_nil_iff_forall_not_mem, Finset.eq_empty_iff_forall_notMem]
    simp only [C23_missing_responses]
  constructor
  · intro h i hi
    have hk : i ∈ d.verifiers.keys := by rw [hkeys]; exact List.mem_range.2 hi
    obtain ⟨v, hv⟩ := AMap.get_of_mem_keys hk
    have := h _ (List.mem_map_of_mem ((ord.perm _).symm.subset (AMap.mem_of_get hv)))
    exact ⟨v, hv, this.1, (hmiss v).1 this.2⟩
  · intro h e he
    obtain ⟨⟨i, v⟩, hv, rfl⟩ := List.mem_map.1 he
    have hv' := AMap.get_of_mem hn ((ord.perm _).subset hv)
    have hi : i < d.c.oldNodes.length := by
      rw [← List.mem_range, ← hkeys]; exact AMap.get_isSome.1 (by rw [hv']; rfl)
    obtain ⟨v', hv2, h1, h2⟩ := h i hi
    rw [hv'] at hv2; cases hv2
    exact ⟨h1, (hmiss v).2 h2⟩

/-- C36: `threshold_certified` counts the qualified dealers: at least `threshold` in a fresh DKG, at
least `old_threshold` when resharing. -/
theorem C36_threshold_certified (E : DkgEnv F G) (c : Config F G) (secret : F) (draws : List F)
    (d0 : Dkg F G) (h0 : newDistKeyHandler E.suite c secret draws = .ok d0)
    (hp : d0.newPresent = true) (cs : List (DCall F G)) (ord : MapOrder) (Q : Finset Nat) :
    let d := dRun E d0 cs
    (∀ i, i ∈ Q ↔ Qualified d i) →
    (d.thresholdCertified ord = true ↔
      (if c.share.isSome || c.publicCoeffs.isSome then c.oldThreshold else c.threshold) ≤ Q.card) := by
  intro d hQ
  have hev := dRun_evolves E d0 cs
  have hst := newDistKeyHandler_ok h0
  have hn : d.verifiers.keys.Nodup := reach_nodup h0 E cs
  have hh : HasVerifiers d := by
    rintro ⟨-, -, h3⟩
    rw [show d.newPresent = true from hev.newPresent.trans hp] at h3; cases h3
  have hq : Q = qualSet d := by
    ext i; rw [hQ, mem_qualSet hn]
  unfold Dkg.thresholdCertified
  rw [qual_length hh hn, hq, show d.isResharing = _ from hev.isResharing.trans hst.resharing,
    show d.c = d0.c from hev.c, hst.threshold, hst.oldThreshold]
  split <;> simp

/-! ## C33: the distributed key -/

/-- C33: what `dist_key_share` of a fresh DKG returns, in every reachable state and for every
iteration order: it succeeds exactly if enough dealers (at least one) are qualified, the deal of
each of them is there, and their deals have the same number of commitments; then the commitments
are the sums of the qualified dealers' commitments, and the share is the sum of their shares. -/
theorem C33_dist_key_share_iff (E : DkgEnv F G) (x : F) (ps : List G) (t : Nat) (secret : F)
    (draws : List F) (d0 : Dkg F G)
    (h0 : newDistKeyGenerator E.suite x ps t secret draws = .ok d0) (cs : List (DCall F G))
    (ord : MapOrder) (k : DistKeyShare F G) (Q : Finset Nat) :
    let d := dRun E d0 cs
    (∀ i, i ∈ Q ↔ Qualified d i) →
    (d.distKeyShare E.suite ord = .ok k ↔
      t ≤ Q.card ∧ Q.Nonempty ∧ ∃ (D : Nat → VssP.Deal F G) (len : Nat),
        (∀ i ∈ Q, ∃ v, d.verifiers.get i = some v ∧ v.aggregator.deal = some (D i) ∧
          (D i).commitments.length = len) ∧
        k = { commits := (List.range len).map (fun j => ∑ i ∈ Q, (D i).commitments.getD j 0),
              share := ⟨d0.nidx, ∑ i ∈ Q, (D i).secShare.v⟩,
              privatePoly := d0.dealer.secretPoly.coeffs }) := by
  intro d hQ
  have h0' : newDistKeyHandler E.suite ⟨x, [], none, ps, none, t, 0⟩ secret draws = .ok d0 := h0
  have hst := newDistKeyHandler_ok h0'
  have hev := dRun_evolves E d0 cs
  have hn : d.verifiers.keys.Nodup := reach_nodup h0' E cs
  have hq : Q = qualSet d := by ext i; rw [hQ, mem_qualSet hn]
  have hre : d.isResharing = false := hev.isResharing.trans hst.resharing
  have hp0 : d0.newPresent = true := by
    by_contra hp
    rw [Bool.not_eq_true] at hp
    have h1 := hst.nidx
    unfold newDistKeyHandler at h0'
    rw [Res.ite_err_eq_ok] at h0'
    simp only at h0'
    rw [Res.ite_err_eq_ok, Res.ite_err_eq_ok, Res.ite_err_eq_ok] at h0'
    refine h0'.2.2.2.1 ⟨rfl, ?_⟩
    simp only at h1
    rw [h1]; exact hp
  have hthr := C36_threshold_certified E _ secret draws d0 h0' hp0 cs ord Q hQ
  simp only [Option.isSome_none, Bool.or_self, Bool.false_eq_true, if_false] at hthr
  have hrec : d.canReceive = true := by rw [hev.canReceive, hst.receive, hp0]
  have hpoly : d.dealer.secretPoly = d0.dealer.secretPoly := by
    have := congrArg Dealer.secretPoly hev.dealer; exact this
  have hunf : d.distKeyShare E.suite ord = .ok k ↔ t ≤ Q.card ∧ d.dkgKey E.suite ord = .ok k := by
    unfold Dkg.distKeyShare
    rw [Res.ite_err_eq_ok, Bool.not_eq_false, hthr, if_neg (by simp [hrec]), if_neg (by simp [hre])]
  rw [hunf]
  refine and_congr_right (fun _ => ?_)
  have hval : ∀ (D : Nat → VssP.Deal F G) (len : Nat),
      (∀ i ∈ Q, ∃ v, d.verifiers.get i = some v ∧ v.aggregator.deal = some (D i) ∧
          (D i).commitments.length = len) → Q.Nonempty →
      d.dkgKey E.suite ord = .ok
        { commits := (List.range len).map (fun j => ∑ i ∈ Q, (D i).commitments.getD j 0),
          share := ⟨d0.nidx, ∑ i ∈ Q, (D i).secShare.v⟩,
          privatePoly := d0.dealer.secretPoly.coeffs } := by
    intro D len hD hne
    have := dkgKey_eq E.suite ord d hn D len (by
      intro i v hv hc
      obtain ⟨v', hv', h1, h2⟩ := hD i ((hQ i).2 ⟨v, hv, hc⟩)
      rw [hv] at hv'; cases hv'
      exact ⟨h1, h2⟩) (hq ▸ hne)
    rw [this, ← hq, hpoly, show d.nidx = d0.nidx from hev.nidx]
  constructor
  · intro hk
    obtain ⟨hne, len, hall⟩ := dkgKey_inv hn hk
    rw [← hq] at hne
    have hchoice : ∃ D : Nat → VssP.Deal F G, ∀ i ∈ Q, ∃ v, d.verifiers.get i = some v ∧
        v.aggregator.deal = some (D i) ∧ (D i).commitments.length = len := by
      have : ∀ i, ∃ dl : VssP.Deal F G, i ∈ Q → ∃ v, d.verifiers.get i = some v ∧
          v.aggregator.deal = some dl ∧ dl.commitments.length = len := by
        intro i
        by_cases hi : i ∈ Q
        · obtain ⟨v, hv, hc⟩ := (hQ i).1 hi
          obtain ⟨dl, h1, h2⟩ := hall i v hv hc
          exact ⟨dl, fun _ => ⟨v, hv, h1, h2⟩⟩
        · exact ⟨⟨[], ⟨0, 0⟩, 0, []⟩, fun h => absurd h hi⟩
      choose D hD using this
      exact ⟨D, fun i hi => hD i hi⟩
    obtain ⟨D, hD⟩ := hchoice
    refine ⟨hne, D, len, hD, ?_⟩
    have := hval D len hD hne
    rw [hk] at this
    exact Res.ok.inj this
  · rintro ⟨hne, D, len, hD, rfl⟩
    exact hval D len hD hne

/-- C33: the result does not depend on the iteration order of the hash map of verifiers. -/
theorem C33_order_independent (E : DkgEnv F G) (x : F) (ps : List G) (t : Nat) (secret : F)
    (draws : List F) (d0 : Dkg F G)
    (h0 : newDistKeyGenerator E.suite x ps t secret draws = .ok d0) (cs : List (DCall F G))
    (ord ord' : MapOrder) (k : DistKeyShare F G)
    (h : (dRun E d0 cs).distKeyShare E.suite ord = .ok k) :
    (dRun E d0 cs).distKeyShare E.suite ord' = .ok k := by
  have hn : (dRun E d0 cs).verifiers.keys.Nodup := reach_nodup h0 E cs
  have hQ : ∀ i, i ∈ qualSet (dRun E d0 cs) ↔ Qualified (dRun E d0 cs) i := fun i => mem_qualSet hn
  rw [C33_dist_key_share_iff E x ps t secret draws d0 h0 cs ord k _ hQ] at h
  rw [C33_dist_key_share_iff E x ps t secret draws d0 h0 cs ord' k _ hQ]
  exact h

end

section

variable [DistribSMul F G]

theorem pointVal_sum (Q : Finset Nat) (C : Nat → List G) (len : Nat)
    (hlen : ∀ i ∈ Q, (C i).length = len) (x : F) :
    pointVal ((List.range len).map (fun j => ∑ i ∈ Q, (C i).getD j 0)) x =
      ∑ i ∈ Q, pointVal (C i) x := by
  induction len generalizing C with
  | zero =>
    rw [List.range_zero, List.map_nil, pointVal, Finset.sum_eq_zero]
    intro i hi
    rw [List.length_eq_zero_iff.1 (hlen i hi), pointVal]
  | succ len ih =>
    rw [List.range_succ_eq_map, List.map_cons, List.map_map, pointVal]
    have := ih (fun i => (C i).tail) (fun i hi => by rw [List.length_tail, hlen i hi]; rfl)
    have e : ((fun j => ∑ i ∈ Q, (C i).getD j 0) ∘ Nat.succ) = fun j => ∑ i ∈ Q, ((C i).tail).getD j 0 := by
      funext j
      refine Finset.sum_congr rfl fun i _ => ?_
      cases C i with
      | nil => rfl
      | cons c l => rfl
    rw [e, this, Finset.smul_sum, ← Finset.sum_add_distrib]
    refine Finset.sum_congr rfl fun i hi => ?_
    have := hlen i hi
    cases hc : C i with
    | nil => rw [hc] at this; simp at this
    | cons c l => rfl

end

section

variable [SMul F G]

/-- C33, the intended property: two participants of the same fresh DKG that finish with the same
qualified dealers hold the same commitments, and their shares lie on them. Hash without
collisions, distinct keys, arbitrary messages. -/
def C33_statement : Prop :=
  ∀ (F G : Type) (_ : Field F) (_ : AddCommGroup G) (_ : Module F G) (_ : DecidableEq G)
    (E : DkgEnv F G) (_ : E.suite.Lawful) (_ : 0 < E.suite.pointLen)
    (_ : Function.Injective E.suite.hash)
    (x x' : F) (ps : List G) (_ : ps.Nodup) (t : Nat) (secret secret' : F) (draws draws' : List F)
    (a b : Dkg F G)
    (_ : newDistKeyGenerator E.suite x ps t secret draws = .ok a)
    (_ : newDistKeyGenerator E.suite x' ps t secret' draws' = .ok b)
    (cs cs' : List (DCall F G)) (ord ord' : MapOrder) (k k' : DistKeyShare F G)
    (_ : ∀ i, Qualified (dRun E a cs) i ↔ Qualified (dRun E b cs') i)
    (_ : (dRun E a cs).distKeyShare E.suite ord = .ok k)
    (_ : (dRun E b cs').distKeyShare E.suite ord' = .ok k'),
    k.commits = k'.commits ∧
    k.share.v • E.suite.base = pointVal k.commits ((k.share.i + 1 : Nat) : F)

end

section

variable [DistribSMul F G]

/-- What holds: if the two participants stored deals with the same commitments from each qualified
dealer, and each of these deals was on the polynomial at the participant's index, then the
participants hold the same commitments and their shares lie on them. Missing: the hypothesis on the
stored deals, which a dealer can break (`C33_violated_equivocation`). -/
theorem C33_agreement_partial (E : DkgEnv F G) (hl : Lin F E.suite.base)
    (x x' : F) (ps : List G) (t : Nat) (secret secret' : F) (draws draws' : List F)
    (a b : Dkg F G)
    (ha : newDistKeyGenerator E.suite x ps t secret draws = .ok a)
    (hb : newDistKeyGenerator E.suite x' ps t secret' draws' = .ok b)
    (cs cs' : List (DCall F G)) (ord ord' : MapOrder) (k k' : DistKeyShare F G)
    (hQ : ∀ i, Qualified (dRun E a cs) i ↔ Qualified (dRun E b cs') i)
    (hk : (dRun E a cs).distKeyShare E.suite ord = .ok k)
    (hk' : (dRun E b cs').distKeyShare E.suite ord' = .ok k')
    (hsame : ∀ i v v' dl dl', (dRun E a cs).verifiers.get i = some v →
      (dRun E b cs').verifiers.get i = some v' → v.aggregator.deal = some dl →
      v'.aggregator.deal = some dl' → Qualified (dRun E a cs) i → dl.commitments = dl'.commitments)
    (hgood : ∀ i v dl, (dRun E a cs).verifiers.get i = some v → v.aggregator.deal = some dl →
      Qualified (dRun E a cs) i →
      dl.secShare.v • E.suite.base = pointVal dl.commitments ((a.nidx + 1 : Nat) : F)) :
    k.commits = k'.commits ∧
    k.share.v • E.suite.base = pointVal k.commits ((k.share.i + 1 : Nat) : F) := by
  have hn : (dRun E a cs).verifiers.keys.Nodup := reach_nodup ha E cs
  have hQa : ∀ i, i ∈ qualSet (dRun E a cs) ↔ Qualified (dRun E a cs) i := fun i => mem_qualSet hn
  have hQb : ∀ i, i ∈ qualSet (dRun E a cs) ↔ Qualified (dRun E b cs') i := fun i =>
    (hQa i).trans (hQ i)
  obtain ⟨-, hne, D, len, hD, rfl⟩ :=
    (C33_dist_key_share_iff E x ps t secret draws a ha cs ord k _ hQa).1 hk
  obtain ⟨-, -, D', len', hD', rfl⟩ :=
    (C33_dist_key_share_iff E x' ps t secret' draws' b hb cs' ord' k' _ hQb).1 hk'
  have heq : ∀ i ∈ qualSet (dRun E a cs), (D i).commitments = (D' i).commitments := by
    intro i hi
    obtain ⟨v, h1, h2, -⟩ := hD i hi
    obtain ⟨v', h1', h2', -⟩ := hD' i hi
    exact hsame i v v' _ _ h1 h1' h2 h2' ((hQa i).1 hi)
  constructor
  · have hlen : len = len' := by
      obtain ⟨i, hi⟩ := hne
      obtain ⟨_, -, -, h3⟩ := hD i hi
      obtain ⟨_, -, -, h3'⟩ := hD' i hi
      rw [← h3, ← h3', heq i hi]
    simp only
    rw [hlen]
    refine List.map_congr_left (fun j _ => Finset.sum_congr rfl (fun i hi => ?_))
    rw [heq i hi]
  · simp only
    rw [pointVal_sum _ (fun i => (D i).commitments) len (fun i hi => by
      obtain ⟨_, -, -, h3⟩ := hD i hi; exact h3), hl.sum]
    refine Finset.sum_congr rfl (fun i hi => ?_)
    obtain ⟨v, h1, h2, -⟩ := hD i hi
    exact hgood i v _ h1 h2 ((hQa i).1 hi)

end

section

variable [Module F G]

/-- C33: key shares that lie on the same commitments recover, from any `t` of them with `t` at least
the number of commitments, a secret whose public key is the distributed key; two selections recover
the same secret times the base point. -/
theorem C33_recover (q : Nat) [CharP F q] (ord : MapOrder) (S : Suite F G) (commits : List G)
    (t : Nat) (hl : commits.length ≤ t) (keys : List (DistKeyShare F G))
    (hc : ∀ k ∈ keys, k.commits = commits)
    (hs : ∀ k ∈ keys, k.share.v • S.base = pointVal k.commits ((k.share.i + 1 : Nat) : F))
    (hi : ∀ k ∈ keys, k.share.i < q)
    (hcount : t ≤ (keys.map (fun k => k.share.i)).toFinset.card) :
    ∃ s, Poly.recoverSecret ord (keys.map (fun k => some k.share)) t = .ok s ∧
      s • S.base = commits.getD 0 0 := by
  have hind : indices (keys.map (fun k => some k.share)) =
      (keys.map (fun k => k.share.i)).toFinset := indices_map_some keys (fun k => k.share)
  refine recoverSecret_committed q ord _ t commits S.base ?_ ?_ hl (by rw [hind]; exact hcount)
  · intro s hs'
    obtain ⟨k, hk, he⟩ := List.mem_map.1 hs'
    cases he
    rw [hs k hk, hc k hk]
  · intro i hi'
    rw [hind, List.mem_toFinset] at hi'
    obtain ⟨k, hk, rfl⟩ := List.mem_map.1 hi'
    exact hi k hk

end

/-! ## Cases -/

namespace DkgPCases

open Kyber.Toy

/-- Participant `i` of the group of three after the messages `s`. -/
def after (i : Nat) (s : List HMsg) : Dkg (ZMod 11) (ZMod 11) :=
  dRun envD ((net envD).D i) (s.map (HMsg.call envD (net envD) 1 i))

/-- All messages at participant 1. -/
def all1 : List HMsg := [.resp 0 2, .resp 1 0, .deal 2, .deals, .resp 2 0, .deal 0, .resp 1 2]

/-- All messages at participant 2. -/
def all2 : List HMsg := [.deals, .deal 0, .deal 1, .resp 0 1, .resp 2 0, .resp 1 0, .resp 2 1]

/-- Participant 0 is silent, participant 1 sets a timeout. -/
def two1 : List HMsg := [.deals, .deal 2, .resp 1 2, .timeout]

theorem start1 : newDistKeyHandler envD.suite ⟨5, [], none, [6, 10, 4], none, 2, 0⟩ 1 [6] = .ok ((net envD).D 1) := rfl

theorem start2 : newDistKeyHandler envD.suite ⟨2, [], none, [6, 10, 4], none, 2, 0⟩ 4 [9] = .ok ((net envD).D 2) := rfl

/-- `C36_qual`: its hypotheses, and the qualified dealers before any message, with a silent participant, and
at the end. -/
example : ((net envD).D 1).newPresent = true ∧ (after 1 []).qual MapOrder.rev = [] ∧
    (after 1 two1).qual MapOrder.id = [1, 2] ∧ (after 1 two1).qual MapOrder.rev = [2, 1] ∧
    (after 1 all1).qual MapOrder.rev = [2, 1, 0] := by
  decide +kernel

/-- `C36_certified`: its hypotheses, and both answers. -/
example : ((net envD).D 1).c.oldNodes.Nodup ∧ (after 1 all1).certified MapOrder.rev = true ∧
    (after 1 two1).certified MapOrder.rev = false ∧ (after 1 two1).thresholdCertified MapOrder.rev = true := by
  decide +kernel

/-- `C36_threshold_certified` with two qualified dealers of three. -/
example : (after 1 two1).thresholdCertified MapOrder.id = true :=
  (C36_threshold_certified envD _ _ _ _ start1 (by decide +kernel) _ MapOrder.id _
    (fun _ => mem_qualSet (reach_nodup start1 _ _))).2
    (show 2 ≤ (qualSet (after 1 two1)).card by decide +kernel)

/-- `C33_dist_key_share_iff`, `C33_order_independent`: the key of participant 1, with all dealers and with two. -/
example : (after 1 all1).distKeyShare envD.suite MapOrder.rev =
      .ok ⟨[(7 + 1 + 4) * 2, (5 + 6 + 9) * 2], ⟨1, (7 + 1 + 4) + (5 + 6 + 9) * 2⟩, [1, 6]⟩ ∧
    (after 1 two1).distKeyShare envD.suite MapOrder.id =
      .ok ⟨[(1 + 4) * 2, (6 + 9) * 2], ⟨1, (1 + 4) + (6 + 9) * 2⟩, [1, 6]⟩ := by
  decide +kernel

/-- `C33_agreement_partial`, `C33_recover`: participants 1 and 2 have the same commitments and recover the sum of the
secrets. -/
example : ∃ k k', (after 1 all1).distKeyShare envD.suite MapOrder.rev = .ok k ∧
    (after 2 all2).distKeyShare envD.suite MapOrder.id = .ok k' ∧ k.commits = k'.commits ∧
    k.share ≠ k'.share ∧ Poly.recoverSecret MapOrder.id [some k.share, some k'.share] 2 = .ok (7 + 1 + 4) :=
  ⟨⟨[(7 + 1 + 4) * 2, (5 + 6 + 9) * 2], ⟨1, (7 + 1 + 4) + (5 + 6 + 9) * 2⟩, [1, 6]⟩,
    ⟨[(7 + 1 + 4) * 2, (5 + 6 + 9) * 2], ⟨2, (7 + 1 + 4) + (5 + 6 + 9) * 3⟩, [4, 9]⟩, by decide +kernel⟩

end DkgPCases

end Kyber.Props
