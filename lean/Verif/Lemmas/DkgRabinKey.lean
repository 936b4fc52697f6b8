/-
The distributed key of the Rabin DKG: `qual`, `finished`, `dist_key_share`.
-/
import Verif.Lemmas.DkgRabin

set_option linter.unusedSectionVars false

namespace Kyber.DkgR

open Kyber.Poly Kyber.Spec Kyber.VssR
open Kyber.DkgP (pick mem_pick pick_perm pick_nodup pubAdd_ok pubAdd_inv zipWith_add_assoc
  map_sum_perm)

variable {F G : Type} [Field F] [AddCommGroup G] [SMul F G] [DecidableEq G]

/-! ### A stored verifier -/

/-- A stored verifier has an aggregator, with a deal for this participant. -/
theorem Stored.deal {E : Env F G} {long : F} {pubs : List G} {i : Nat} {v : Verifier F G}
    (h : Stored E long pubs i v) :
    ∃ pub v0 e dl a, pubs[i]? = some pub ∧ newVerifier E.suite long pub pubs = .ok v0 ∧
      v0.decryptDeal E e = .ok dl ∧ dl.secShare.i = v0.index ∧ v.index = v0.index ∧
      v.aggregator = some a ∧ a.deal = some dl ∧ a.t = dl.t ∧ Wf pubs a := by
  obtain ⟨pub, v0, e, k, v1, resp, cs, hp, hv0, hv1, hcs, rfl⟩ := h
  obtain ⟨f1, f2, f3, f4, f5, f6⟩ := newVerifier_fields hv0
  have hv1' : v1 = rRun E v0 [.encDeal e k] := by
    show v1 = (v0.processEncryptedDeal E e k).1
    rw [hv1]
  rcases processEncryptedDeal_cases E v0 e k with (⟨_, h⟩ | h) | ⟨d, hd, hi, hn, ⟨-, h⟩ | ⟨st, hst, h, h'⟩⟩
  · rw [hv1] at h; cases congrArg Prod.snd h
  · rw [hv1] at h; cases congrArg Prod.snd h
  · rw [hv1] at h; cases congrArg Prod.snd h
  · rw [hv1] at h
    simp only at h
    have hagg1 : ∃ a1, v1.aggregator = some a1 ∧ a1.deal = some d ∧ a1.t = d.t := by
      rw [h]
      have hfor : v0.aggregatorFor d = newAggregator pubs d.commitments d.t d.sessionId := by
        unfold Verifier.aggregatorFor; rw [f1, f2]; rfl
      rw [hfor]
      set a0 : Aggregator F G := (newAggregator pubs d.commitments d.t d.sessionId).remember d with ha0
      have hx := addResponse_ext a0 (mkReply E v0 d k st)
      refine ⟨_, rfl, hx.deal d ?_, hx.t.trans ?_⟩
      · rw [ha0]; rfl
      · rw [ha0]; rfl
    obtain ⟨a1, g1, g2, g3⟩ := hagg1
    obtain ⟨a, ha, hext⟩ := rRun_ext E v1 (.unsafeSet i true :: cs) a1 g1
    have hrun : rRun E v1 (.unsafeSet i true :: cs) =
        rRun E v0 (.encDeal e k :: .unsafeSet i true :: cs) := by
      rw [hv1', ← rRun_append]; rfl
    refine ⟨pub, v0, e, d, a, hp, hv0, hd, hi, ?_, ha, hext.deal d g2, hext.t.trans g3, ?_⟩
    · rw [hrun]; exact (rRun_ident E v0 _).2.2.1
    · have := reachable_wf E v0 f1 (.encDeal e k :: .unsafeSet i true :: cs) a (by rw [← hrun]; exact ha)
      rw [f2] at this
      exact this

/-- The index of the participant is the position that the verifiers compute. -/
theorem newVerifier_index {E : Env F G} {long : F} {pub : G} {pubs : List G} {v : Verifier F G} {i : Nat}
    (h : newVerifier E.suite long pub pubs = .ok v)
    (hi : pubs.findIdx? (fun p => decide (p = long • E.suite.base)) = some i) : v.index = i := by
  unfold newVerifier at h
  simp only [hi, Res.ok.injEq] at h
  rw [← h]

/-! ### The qualified dealers -/

/-- The qualified dealers as a set. -/
def qualSet (d : Dkg F G) : Finset Nat := (pick certifiedV d.verifiers).toFinset

theorem certifiedV_iff (v : Verifier F G) :
    certifiedV v = true ↔ ∃ a, v.aggregator = some a ∧ a.dealCertified = true := by
  unfold certifiedV
  cases v.aggregator <;> simp

theorem mem_qualSet {d : Dkg F G} (hn : d.verifiers.keys.Nodup) {i : Nat} :
    i ∈ qualSet d ↔ QualifiedR d i := by
  unfold qualSet QualifiedR
  rw [List.mem_toFinset, mem_pick hn]
  constructor
  · rintro ⟨v, h1, h2⟩
    obtain ⟨a, ha, hc⟩ := (certifiedV_iff v).1 h2
    exact ⟨v, a, h1, ha, hc⟩
  · rintro ⟨v, a, h1, ha, hc⟩
    exact ⟨v, h1, (certifiedV_iff v).2 ⟨a, ha, hc⟩⟩

theorem qual_perm (d : Dkg F G) (ord : MapOrder) :
    (d.qual ord).Perm (pick certifiedV d.verifiers) := pick_perm _ (ord.perm _)

theorem qual_length {d : Dkg F G} (hn : d.verifiers.keys.Nodup) (ord : MapOrder) :
    (d.qual ord).length = (qualSet d).card := by
  rw [(qual_perm d ord).length_eq]
  unfold qualSet
  rw [List.toFinset_card_of_nodup (pick_nodup _ hn)]

theorem isInQual_iff {d : Dkg F G} (hn : d.verifiers.keys.Nodup) (ord : MapOrder) (i : Nat) :
    d.isInQual ord i = true ↔ QualifiedR d i := by
  unfold Dkg.isInQual QualifiedR
  rw [List.any_eq_true]
  simp only [Bool.and_eq_true, decide_eq_true_eq]
  constructor
  · rintro ⟨⟨j, v⟩, hm, hc, rfl⟩
    obtain ⟨a, ha, hc⟩ := (certifiedV_iff v).1 hc
    exact ⟨v, a, AMap.get_of_mem hn ((ord.perm _).subset hm), ha, hc⟩
  · rintro ⟨v, a, h1, ha, hc⟩
    exact ⟨(i, v), (ord.perm _).symm.subset (AMap.mem_of_get h1), (certifiedV_iff v).2 ⟨a, ha, hc⟩, rfl⟩

/-! ### `finished` -/

theorem finishedLoop_spec (cm : AMap (PubPoly G)) (l : List (Nat × Verifier F G)) (nb : Nat) :
    ((Dkg.finishedLoop cm l nb).2 = true ↔ ∀ i ∈ pick certifiedV l, cm.contains i = true) ∧
    ((Dkg.finishedLoop cm l nb).2 = true →
      (Dkg.finishedLoop cm l nb).1 = nb + (pick certifiedV l).length) := by
  induction l generalizing nb with
  | nil => simp [Dkg.finishedLoop, pick]
  | cons e l ih =>
    obtain ⟨i, v⟩ := e
    unfold Dkg.finishedLoop
    cases hc : certifiedV v with
    | false =>
      have : pick certifiedV ((i, v) :: l) = pick certifiedV l := by unfold pick; simp [hc]
      rw [this, if_pos rfl]; exact ih nb
    | true =>
      have : pick certifiedV ((i, v) :: l) = i :: pick certifiedV l := by unfold pick; simp [hc]
      rw [this, if_neg (by simp)]
      cases hm : cm.contains i with
      | true =>
        rw [if_pos rfl]
        obtain ⟨h1, h2⟩ := ih (nb + 1)
        refine ⟨?_, ?_⟩
        · rw [h1]; simp [hm]
        · intro h; rw [h2 h, List.length_cons]; omega
      | false =>
        rw [if_neg (by simp)]
        simp [hm]

/-! ### `dist_key_share` -/

/-- coefficientwise sum of the polynomials of the dealers in a list -/
def sumPolys (P : Nat → PubPoly G) (len : Nat) (ids : List Nat) : List G :=
  (List.range len).map (fun k => (ids.map (fun i => (P i).commits.getD k 0)).sum)

theorem sumPolys_cons (P : Nat → PubPoly G) (len : Nat) (i : Nat) (ids : List Nat)
    (hi : (P i).commits.length = len) :
    sumPolys P len (i :: ids) = List.zipWith (· + ·) (P i).commits (sumPolys P len ids) := by
  unfold sumPolys
  apply List.ext_getElem
  · simp [hi]
  · intro k h1 h2
    simp only [List.length_map, List.length_range] at h1
    simp only [List.getElem_map, List.getElem_range, List.map_cons, List.sum_cons,
      List.getElem_zipWith]
    congr 1
    rw [List.getD_eq_getElem?_getD, List.getElem?_eq_getElem (by omega)]; rfl

theorem zipWith_sum_nil (a : List G) (len : Nat) (h : a.length = len) (P : Nat → PubPoly G) :
    List.zipWith (· + ·) a (sumPolys P len []) = a := by
  apply List.ext_getElem
  · simp [sumPolys, h]
  · intro k h1 h2
    simp [sumPolys]

theorem pick_true {i : Nat} {v : Verifier F G} {l : List (Nat × Verifier F G)}
    (h : certifiedV v = true) : pick certifiedV ((i, v) :: l) = i :: pick certifiedV l := by
  unfold pick; simp [h]

theorem pick_false {i : Nat} {v : Verifier F G} {l : List (Nat × Verifier F G)}
    (h : certifiedV v = false) : pick certifiedV ((i, v) :: l) = pick certifiedV l := by
  unfold pick; simp [h]

/-- The value of the loop when deals and commitments are there, all of `len` coefficients. -/
theorem keyLoop_some (cm : AMap (PubPoly G)) (D : Nat → VssR.Deal F G) (P : Nat → PubPoly G)
    (len : Nat) (l : List (Nat × Verifier F G))
    (hl : ∀ e ∈ l, certifiedV e.2 = true → e.2.deal = some (D e.1) ∧ cm.get e.1 = some (P e.1) ∧
      (P e.1).commits.length = len)
    (sh : F) (p : PubPoly G) (hp : p.commits.length = len) :
    Dkg.keyLoop cm l sh (some p) =
      .ok (sh + ((pick certifiedV l).map (fun i => (D i).secShare.v)).sum,
        some ⟨p.b, List.zipWith (· + ·) p.commits (sumPolys P len (pick certifiedV l))⟩) := by
  induction l generalizing sh p with
  | nil =>
    unfold Dkg.keyLoop
    rw [show pick certifiedV ([] : List (Nat × Verifier F G)) = [] from rfl, zipWith_sum_nil _ _ hp]
    simp
  | cons e l ih =>
    obtain ⟨i, v⟩ := e
    unfold Dkg.keyLoop
    cases hc : certifiedV v with
    | false =>
      rw [if_pos rfl, ih (fun e he => hl e (List.mem_cons_of_mem _ he)) sh p hp, pick_false hc]
    | true =>
      obtain ⟨h1, h2, h3⟩ := hl (i, v) (by simp) hc
      simp only at h1 h2 h3
      rw [if_neg (by simp)]
      simp only [h1, h2]
      rw [pubAdd_ok _ _ (by rw [hp, h3])]
      simp only
      rw [ih (fun e he => hl e (List.mem_cons_of_mem _ he)) _ _ (by simp [hp, h3]),
        pick_true hc, sumPolys_cons _ _ _ _ h3, zipWith_add_assoc, List.map_cons,
        List.sum_cons, add_assoc]

theorem keyLoop_none (cm : AMap (PubPoly G)) (D : Nat → VssR.Deal F G) (P : Nat → PubPoly G)
    (len : Nat) (l : List (Nat × Verifier F G))
    (hl : ∀ e ∈ l, certifiedV e.2 = true → e.2.deal = some (D e.1) ∧ cm.get e.1 = some (P e.1) ∧
      (P e.1).commits.length = len) (sh : F) :
    ∃ b, Dkg.keyLoop cm l sh none =
      .ok (sh + ((pick certifiedV l).map (fun i => (D i).secShare.v)).sum,
        if pick certifiedV l = [] then none else some ⟨b, sumPolys P len (pick certifiedV l)⟩) := by
  induction l generalizing sh with
  | nil => exact ⟨none, by simp [Dkg.keyLoop, pick]⟩
  | cons e l ih =>
    obtain ⟨i, v⟩ := e
    unfold Dkg.keyLoop
    cases hc : certifiedV v with
    | false =>
      obtain ⟨b, hb⟩ := ih (fun e he => hl e (List.mem_cons_of_mem _ he)) sh
      exact ⟨b, by rw [if_pos rfl, hb, pick_false hc]⟩
    | true =>
      obtain ⟨h1, h2, h3⟩ := hl (i, v) (by simp) hc
      simp only at h1 h2 h3
      refine ⟨(P i).b, ?_⟩
      rw [if_neg (by simp)]
      simp only [h1, h2]
      rw [keyLoop_some cm D P len l (fun e he => hl e (List.mem_cons_of_mem _ he)) _ _ h3,
        pick_true hc, if_neg (by simp), sumPolys_cons _ _ _ _ h3, List.map_cons,
        List.sum_cons, add_assoc]

/-- If the loop succeeds, every qualified deal and its commitments are there, and all have the same
number of commitments. -/
theorem keyLoop_inv (cm : AMap (PubPoly G)) (l : List (Nat × Verifier F G)) (sh : F)
    (p : Option (PubPoly G)) (r : F × Option (PubPoly G)) (h : Dkg.keyLoop cm l sh p = .ok r) :
    ∃ len, (∀ e ∈ l, certifiedV e.2 = true → (∃ dl, e.2.deal = some dl) ∧
        ∃ q, cm.get e.1 = some q ∧ q.commits.length = len) ∧
      ∀ q, p = some q → q.commits.length = len := by
  induction l generalizing sh p with
  | nil =>
    cases p with
    | none => exact ⟨0, by simp, by simp⟩
    | some q => exact ⟨q.commits.length, by simp, fun q' hq => by cases hq; rfl⟩
  | cons e l ih =>
    obtain ⟨i, v⟩ := e
    unfold Dkg.keyLoop at h
    cases hc : certifiedV v with
    | false =>
      rw [if_pos hc] at h
      obtain ⟨len, h1, h2⟩ := ih _ _ h
      refine ⟨len, ?_, h2⟩
      intro e he hce
      rcases List.mem_cons.1 he with rfl | he
      · rw [hc] at hce; cases hce
      · exact h1 e he hce
    | true =>
      rw [if_neg (by simp [hc])] at h
      cases hd : v.deal with
      | none => rw [hd] at h; cases h
      | some dl =>
        rw [hd] at h
        simp only at h
        cases hg : cm.get i with
        | none => rw [hg] at h; cases h
        | some poly =>
          rw [hg] at h
          simp only at h
          cases p with
          | none =>
            simp only at h
            obtain ⟨len, h1, h2⟩ := ih _ _ h
            refine ⟨len, ?_, by simp⟩
            intro e he hce
            rcases List.mem_cons.1 he with rfl | he
            · exact ⟨⟨dl, hd⟩, poly, hg, h2 _ rfl⟩
            · exact h1 e he hce
          | some q =>
            simp only at h
            cases ha : q.add poly with
            | err e => rw [ha] at h; cases h
            | panic => rw [ha] at h; cases h
            | ok q' =>
              rw [ha] at h
              simp only at h
              obtain ⟨g1, g2⟩ := pubAdd_inv ha
              obtain ⟨len, h1, h2⟩ := ih _ _ h
              have hq' := h2 _ rfl
              rw [g2] at hq'
              simp only [List.length_zipWith] at hq'
              refine ⟨len, ?_, ?_⟩
              · intro e he hce
                rcases List.mem_cons.1 he with rfl | he
                · exact ⟨⟨dl, hd⟩, poly, hg, by omega⟩
                · exact h1 e he hce
              · intro q0 hq0; cases hq0; omega

theorem deal_of_certified {v : Verifier F G} {a : Aggregator F G} (ha : v.aggregator = some a)
    (hc : a.dealCertified = true) : v.deal = a.deal := by
  unfold Verifier.deal
  rw [ha]
  simp only
  rw [if_neg (by simp [hc, dealCertified_enough hc])]

end Kyber.DkgR
