/-
The distributed key of the Pedersen DKG: `qual`, `certified`, `dkg_key`.
-/
import Verif.Lemmas.DkgPedersenInit

set_option linter.unusedSectionVars false

namespace Kyber.DkgP

open Kyber.Poly Kyber.Spec Kyber.VssP

variable {F G : Type} [Field F] [AddCommGroup G] [SMul F G] [DecidableEq G]

/-! ### The qualified dealers -/

/-- The indices of the entries of a map that satisfy a test. -/
def pick {α : Type} (p : α → Bool) (l : List (Nat × α)) : List Nat :=
  l.filterMap (fun e => if p e.2 then some e.1 else none)

theorem pick_eq {α : Type} (p : α → Bool) (l : List (Nat × α)) :
    pick p l = (l.filter (fun e => p e.2)).map Prod.fst := by
  induction l with
  | nil => rfl
  | cons e l ih =>
    unfold pick at *
    rw [List.filterMap_cons, List.filter_cons]
    cases h : p e.2 <;> simp [ih]

theorem mem_pick {α : Type} {p : α → Bool} {m : AMap α} (hn : m.keys.Nodup) {i : Nat} :
    i ∈ pick p m ↔ ∃ v, m.get i = some v ∧ p v = true := by
  rw [pick_eq, List.mem_map]
  constructor
  · rintro ⟨⟨j, v⟩, h, rfl⟩
    rw [List.mem_filter] at h
    exact ⟨v, AMap.get_of_mem hn h.1, h.2⟩
  · rintro ⟨v, h, hp⟩
    exact ⟨(i, v), List.mem_filter.2 ⟨AMap.mem_of_get h, hp⟩, rfl⟩

theorem pick_perm {α : Type} (p : α → Bool) {l l' : List (Nat × α)} (h : l.Perm l') :
    (pick p l).Perm (pick p l') := h.filterMap _

theorem pick_nodup {α : Type} (p : α → Bool) {m : AMap α} (hn : m.keys.Nodup) :
    (pick p m).Nodup := by
  rw [pick_eq]
  exact hn.sublist (List.filter_sublist.map _)

/-- The qualified dealers as a set. -/
def qualSet (d : Dkg F G) : Finset Nat :=
  (pick (fun v : Verifier F G => v.aggregator.dealCertified) d.verifiers).toFinset

theorem mem_qualSet {d : Dkg F G} (hn : d.verifiers.keys.Nodup) {i : Nat} :
    i ∈ qualSet d ↔ Qualified d i := by
  unfold qualSet Qualified
  rw [List.mem_toFinset, mem_pick hn]

/-- A participant that has verifiers: it is in the new list. -/
def HasVerifiers (d : Dkg F G) : Prop :=
  ¬ (d.isResharing = true ∧ d.canIssue = true ∧ d.newPresent = false)

theorem qual_eq {d : Dkg F G} (h : HasVerifiers d) (ord : MapOrder) :
    d.qual ord = pick (fun v : Verifier F G => v.aggregator.dealCertified) (ord.run d.verifiers) := by
  unfold Dkg.qual
  rw [if_neg h]; rfl

theorem qual_perm {d : Dkg F G} (h : HasVerifiers d) (ord : MapOrder) :
    (d.qual ord).Perm (pick (fun v : Verifier F G => v.aggregator.dealCertified) d.verifiers) := by
  rw [qual_eq h]
  exact pick_perm _ (ord.perm _)

theorem qual_length {d : Dkg F G} (h : HasVerifiers d) (hn : d.verifiers.keys.Nodup)
    (ord : MapOrder) : (d.qual ord).length = (qualSet d).card := by
  rw [(qual_perm h ord).length_eq]
  unfold qualSet
  rw [List.toFinset_card_of_nodup (pick_nodup _ hn)]

/-! ### `certified` -/

theorem goodCount_le (l : List (Bool × List Nat)) : Dkg.goodCount l ≤ l.length := by
  induction l with
  | nil => simp [Dkg.goodCount]
  | cons e l ih =>
    obtain ⟨b, m⟩ := e
    unfold Dkg.goodCount
    simp only [List.length_cons]
    split
    · split <;> omega
    · omega

/-- All entries are counted exactly if all are certified and nothing is missing. -/
theorem goodCount_full (l : List (Bool × List Nat)) :
    l.length ≤ Dkg.goodCount l ↔ ∀ e ∈ l, e.1 = true ∧ e.2 = [] := by
  induction l with
  | nil => simp [Dkg.goodCount]
  | cons e l ih =>
    obtain ⟨b, m⟩ := e
    have hl := goodCount_le l
    unfold Dkg.goodCount
    simp only [List.length_cons, List.forall_mem_cons]
    rw [← ih]
    cases b
    · simp; omega
    · by_cases hm : m = []
      · simp [hm]
      · simp [hm]

/-! ### `dkg_key` -/

/-- coefficientwise sum of the commitments of the dealers in a list -/
def sumCommits (D : Nat → VssP.Deal F G) (len : Nat) (ids : List Nat) : List G :=
  (List.range len).map (fun k => (ids.map (fun i => (D i).commitments.getD k 0)).sum)

theorem sumCommits_cons (D : Nat → VssP.Deal F G) (len : Nat) (i : Nat) (ids : List Nat)
    (hi : (D i).commitments.length = len) :
    sumCommits D len (i :: ids) =
      List.zipWith (· + ·) (D i).commitments (sumCommits D len ids) := by
  unfold sumCommits
  apply List.ext_getElem
  · simp [hi]
  · intro k h1 h2
    simp only [List.length_map, List.length_range] at h1
    simp only [List.getElem_map, List.getElem_range, List.map_cons, List.sum_cons,
      List.getElem_zipWith]
    congr 1
    rw [List.getD_eq_getElem?_getD, List.getElem?_eq_getElem (by omega)]; rfl

theorem zipWith_add_assoc (a b c : List G) :
    List.zipWith (· + ·) (List.zipWith (· + ·) a b) c =
      List.zipWith (· + ·) a (List.zipWith (· + ·) b c) := by
  apply List.ext_getElem
  · simp [min_assoc]
  · intro k h1 h2
    simp [add_assoc]

theorem zipWith_add_zero (a : List G) (len : Nat) (h : a.length = len) (D : Nat → VssP.Deal F G) :
    List.zipWith (· + ·) a (sumCommits D len []) = a := by
  apply List.ext_getElem
  · simp [sumCommits, h]
  · intro k h1 h2
    simp [sumCommits]

theorem pubAdd_ok (p q : PubPoly G) (h : p.commits.length = q.commits.length) :
    p.add q = .ok ⟨p.b, List.zipWith (· + ·) p.commits q.commits⟩ := by
  unfold PubPoly.add PubPoly.threshold
  rw [if_neg (by simp [h])]

theorem pubAdd_inv {p q r : PubPoly G} (h : p.add q = .ok r) :
    p.commits.length = q.commits.length ∧ r = ⟨p.b, List.zipWith (· + ·) p.commits q.commits⟩ := by
  unfold PubPoly.add PubPoly.threshold at h
  rw [Res.ite_err_eq_ok] at h
  simp only [ne_eq, not_not, Res.ok.injEq] at h
  exact ⟨h.1, h.2.symm⟩

/-- the certified entries -/
abbrev certIds (l : List (Nat × Verifier F G)) : List Nat :=
  pick (fun v : Verifier F G => v.aggregator.dealCertified) l

theorem certIds_cons_true {i : Nat} {v : Verifier F G} {l : List (Nat × Verifier F G)}
    (h : v.aggregator.dealCertified = true) : certIds ((i, v) :: l) = i :: certIds l := by
  unfold certIds pick; simp [h]

theorem certIds_cons_false {i : Nat} {v : Verifier F G} {l : List (Nat × Verifier F G)}
    (h : v.aggregator.dealCertified = false) : certIds ((i, v) :: l) = certIds l := by
  unfold certIds pick; simp [h]

/-- The value of the loop when every certified deal is there and all have `len` commitments. -/
theorem dkgLoop_some (S : Suite F G) (D : Nat → VssP.Deal F G) (len : Nat)
    (l : List (Nat × Verifier F G))
    (hl : ∀ e ∈ l, e.2.aggregator.dealCertified = true →
      e.2.aggregator.deal = some (D e.1) ∧ (D e.1).commitments.length = len)
    (sh : F) (p : PubPoly G) (hp : p.commits.length = len) :
    Dkg.dkgLoop S l sh (some p) = .ok (sh + ((certIds l).map (fun i => (D i).secShare.v)).sum,
      some ⟨p.b, List.zipWith (· + ·) p.commits (sumCommits D len (certIds l))⟩) := by
  induction l generalizing sh p with
  | nil =>
    unfold Dkg.dkgLoop
    rw [show certIds ([] : List (Nat × Verifier F G)) = [] from rfl,
      zipWith_add_zero _ _ hp]
    simp
  | cons e l ih =>
    obtain ⟨i, v⟩ := e
    unfold Dkg.dkgLoop
    cases hc : v.aggregator.dealCertified with
    | false =>
      rw [if_pos rfl, ih (fun e he => hl e (List.mem_cons_of_mem _ he)) sh p hp,
        certIds_cons_false hc]
    | true =>
      obtain ⟨h1, h2⟩ := hl (i, v) (by simp) hc
      simp only at h1 h2
      rw [if_neg (by simp)]
      have hdeal : v.deal = some (D i) := by
        unfold Verifier.deal; rw [if_neg (by simp [hc]), h1]
      simp only [hdeal]
      rw [pubAdd_ok _ _ (by rw [hp, h2])]
      simp only
      rw [ih (fun e he => hl e (List.mem_cons_of_mem _ he)) _ _ (by simp [hp, h2]),
        certIds_cons_true hc, sumCommits_cons _ _ _ _ h2, zipWith_add_assoc, List.map_cons,
        List.sum_cons, add_assoc]

theorem dkgLoop_none (S : Suite F G) (D : Nat → VssP.Deal F G) (len : Nat)
    (l : List (Nat × Verifier F G))
    (hl : ∀ e ∈ l, e.2.aggregator.dealCertified = true →
      e.2.aggregator.deal = some (D e.1) ∧ (D e.1).commitments.length = len) (sh : F) :
    Dkg.dkgLoop S l sh none = .ok (sh + ((certIds l).map (fun i => (D i).secShare.v)).sum,
      if certIds l = [] then none else some ⟨some S.base, sumCommits D len (certIds l)⟩) := by
  induction l generalizing sh with
  | nil => simp [Dkg.dkgLoop, certIds, pick]
  | cons e l ih =>
    obtain ⟨i, v⟩ := e
    unfold Dkg.dkgLoop
    cases hc : v.aggregator.dealCertified with
    | false =>
      rw [if_pos rfl, ih (fun e he => hl e (List.mem_cons_of_mem _ he)) sh,
        certIds_cons_false hc]
    | true =>
      obtain ⟨h1, h2⟩ := hl (i, v) (by simp) hc
      simp only at h1 h2
      rw [if_neg (by simp)]
      have hdeal : v.deal = some (D i) := by
        unfold Verifier.deal; rw [if_neg (by simp [hc]), h1]
      simp only [hdeal]
      rw [dkgLoop_some S D len l (fun e he => hl e (List.mem_cons_of_mem _ he)) _ _ h2,
        certIds_cons_true hc, if_neg (by simp), sumCommits_cons _ _ _ _ h2, List.map_cons,
        List.sum_cons, add_assoc]

/-- If the loop succeeds, every certified deal is there, and all have the same number of
commitments. -/
theorem dkgLoop_inv (S : Suite F G) (l : List (Nat × Verifier F G)) (sh : F)
    (p : Option (PubPoly G)) (r : F × Option (PubPoly G)) (h : Dkg.dkgLoop S l sh p = .ok r) :
    ∃ len, (∀ e ∈ l, e.2.aggregator.dealCertified = true →
        ∃ dl, e.2.aggregator.deal = some dl ∧ dl.commitments.length = len) ∧
      ∀ q, p = some q → q.commits.length = len := by
  induction l generalizing sh p with
  | nil =>
    cases p with
    | none => exact ⟨0, by simp, by simp⟩
    | some q => exact ⟨q.commits.length, by simp, fun q' hq => by cases hq; rfl⟩
  | cons e l ih =>
    obtain ⟨i, v⟩ := e
    unfold Dkg.dkgLoop at h
    cases hc : v.aggregator.dealCertified with
    | false =>
      rw [if_pos hc] at h
      obtain ⟨len, h1, h2⟩ := ih _ _ h
      refine ⟨len, ?_, h2⟩
      intro e he hce
      rcases List.mem_cons.1 he with rfl | he
      · rw [hc] at hce; cases hce
      · exact h1 e he hce
    | true =>
      rw [if_neg (by simp [hc])] at h
      cases hd : v.deal with
      | none => rw [hd] at h; cases h
      | some dl =>
        have hdl : v.aggregator.deal = some dl := by
          unfold Verifier.deal at hd; rw [if_neg (by simp [hc])] at hd; exact hd
        rw [hd] at h
        simp only at h
        cases p with
        | none =>
          simp only at h
          obtain ⟨len, h1, h2⟩ := ih _ _ h
          refine ⟨len, ?_, by simp⟩
          intro e he hce
          rcases List.mem_cons.1 he with rfl | he
          · exact ⟨dl, hdl, h2 _ rfl⟩
          · exact h1 e he hce
        | some q =>
          simp only at h
          cases ha : q.add ⟨some S.base, dl.commitments⟩ with
          | err e => rw [ha] at h; cases h
          | panic => rw [ha] at h; cases h
          | ok q' =>
            rw [ha] at h
            simp only at h
            obtain ⟨g1, g2⟩ := pubAdd_inv ha
            obtain ⟨len, h1, h2⟩ := ih _ _ h
            have hq' := h2 _ rfl
            rw [g2] at hq'
            simp only [List.length_zipWith] at hq'
            simp only at g1
            refine ⟨len, ?_, ?_⟩
            · intro e he hce
              rcases List.mem_cons.1 he with rfl | he
              · exact ⟨dl, hdl, by omega⟩
              · exact h1 e he hce
            · intro q0 hq0; cases hq0; omega

theorem map_sum_perm {M : Type} [AddCommMonoid M] {l : List Nat} (hn : l.Nodup) (f : Nat → M) :
    (l.map f).sum = ∑ i ∈ l.toFinset, f i := (List.sum_toFinset f hn).symm

/-- `dkg_key`, the value: sums over the qualified dealers, whatever the iteration order. -/
theorem dkgKey_eq (S : Suite F G) (ord : MapOrder) (d : Dkg F G) (hn : d.verifiers.keys.Nodup)
    (D : Nat → VssP.Deal F G) (len : Nat)
    (hD : ∀ i v, d.verifiers.get i = some v → v.aggregator.dealCertified = true →
      v.aggregator.deal = some (D i) ∧ (D i).commitments.length = len)
    (hne : (qualSet d).Nonempty) :
    d.dkgKey S ord = .ok
      { commits := (List.range len).map (fun k => ∑ i ∈ qualSet d, (D i).commitments.getD k 0),
        share := ⟨d.nidx, ∑ i ∈ qualSet d, (D i).secShare.v⟩,
        privatePoly := d.dealer.secretPoly.coeffs } := by
  have hmem : ∀ e ∈ ord.run d.verifiers, d.verifiers.get e.1 = some e.2 := fun e he =>
    AMap.get_of_mem hn ((ord.perm _).subset he)
  have hids : (certIds (ord.run d.verifiers)).Perm (certIds d.verifiers) := pick_perm _ (ord.perm _)
  have hnd : (certIds (ord.run d.verifiers)).Nodup := hids.nodup_iff.2 (pick_nodup _ hn)
  have hset : (certIds (ord.run d.verifiers)).toFinset = qualSet d :=
    List.toFinset_eq_of_perm _ _ hids
  unfold Dkg.dkgKey
  rw [dkgLoop_none S D len _ (fun e he hc => hD e.1 e.2 (hmem e he) hc), Res.bind_ok, if_neg]
  · simp only [Res.unwrap_some, Res.bind_ok, zero_add, sumCommits, map_sum_perm hnd, hset]
  · intro h0
    rw [h0] at hset
    rw [← hset] at hne
    simp at hne

theorem dkgKey_inv {S : Suite F G} {ord : MapOrder} {d : Dkg F G} {k : DistKeyShare F G}
    (hn : d.verifiers.keys.Nodup) (h : d.dkgKey S ord = .ok k) :
    (qualSet d).Nonempty ∧ ∃ len, ∀ i v, d.verifiers.get i = some v →
      v.aggregator.dealCertified = true → ∃ dl, v.aggregator.deal = some dl ∧
        dl.commitments.length = len := by
  have hids : (certIds (ord.run d.verifiers)).Perm (certIds d.verifiers) := pick_perm _ (ord.perm _)
  unfold Dkg.dkgKey at h
  rw [Res.bind_eq_ok] at h
  obtain ⟨r, hr, h⟩ := h
  rw [Res.bind_eq_ok] at h
  obtain ⟨p, hp, -⟩ := h
  obtain ⟨len, h1, -⟩ := dkgLoop_inv S _ _ _ _ hr
  have hall : ∀ i v, d.verifiers.get i = some v →
      v.aggregator.dealCertified = true → ∃ dl, v.aggregator.deal = some dl ∧
        dl.commitments.length = len := by
    intro i v hv hc
    exact h1 (i, v) ((ord.perm _).symm.subset (AMap.mem_of_get hv)) hc
  refine ⟨?_, len, hall⟩
  by_contra hne
  rw [Finset.not_nonempty_iff_eq_empty] at hne
  have h0 : certIds (ord.run d.verifiers) = [] := by
    have h' : (certIds d.verifiers) = [] := List.toFinset_eq_empty_iff _ |>.1 hne
    rw [h'] at hids
    exact hids.eq_nil
  have hloop : ∀ (l : List (Nat × Verifier F G)) (sh : F), certIds l = [] →
      Dkg.dkgLoop S l sh none = .ok (sh, none) := by
    intro l
    induction l with
    | nil => intro sh _; rfl
    | cons e l ih =>
      obtain ⟨i, v⟩ := e
      intro sh h0
      cases hc : v.aggregator.dealCertified with
      | true => rw [certIds_cons_true hc] at h0; cases h0
      | false =>
        unfold Dkg.dkgLoop
        rw [if_pos hc]
        rw [certIds_cons_false hc] at h0
        exact ih sh h0
  rw [hloop _ _ h0] at hr
  cases hr
  cases hp

end Kyber.DkgP
