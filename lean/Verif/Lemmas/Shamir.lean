/-
Lemmas connecting the model of `poly.rs` with the specification vocabulary.
-/
import Verif.Spec.Shamir
import Verif.Lemmas.Poly
import Verif.Lemmas.Lin
import Mathlib.Algebra.CharP.Defs

namespace Kyber.Poly

open Polynomial Kyber.Spec

variable {F G α : Type} [Field F]

theorem polyVal_eq (cs : List F) (x : F) : polyVal cs x = (toPoly cs).eval x := by
  cases cs with
  | nil => simp [polyVal]
  | cons c cs =>
    rw [eval_eq_sum_range' (n := (c :: cs).length)]
    · unfold polyVal
      refine Finset.sum_congr rfl (fun k _ => ?_)
      rw [coeff_toPoly]
    · by_cases h : toPoly (c :: cs) = 0
      · rw [h, natDegree_zero]; simp
      · rw [natDegree_lt_iff_degree_lt h]; exact degree_toPoly_lt _

theorem eval_v (p : PriPoly F) (i : Nat) : (p.eval i).v = polyVal p.coeffs ((i + 1 : Nat) : F) := by
  rw [polyVal_eq, eval_eq]; rfl

theorem mem_indices {shares : List (Option (Share α))} {k : Nat} :
    k ∈ indices shares ↔ ∃ s, some s ∈ shares ∧ s.i = k := mem_idxSet

theorem xc_injOn (q : Nat) [CharP F q] (S : Finset Nat) (h : ∀ i ∈ S, i < q) :
    Set.InjOn (xc F) S := by
  intro a ha b hb hab
  have ha' := h a ha
  have hb' := h b hb
  unfold xc at hab
  push_cast at hab
  have hab' : ((a : Nat) : F) = (b : F) := add_right_cancel hab
  rw [CharP.cast_eq_iff_mod_eq F q, Nat.mod_eq_of_lt ha', Nat.mod_eq_of_lt hb'] at hab'
  exact hab'

/-- What the collected values are, for shares whose value is a function of the index. -/
theorem yval_of_fun [Zero α] (shares : List (Option (Share α))) (t : Nat) (f : Nat → α)
    (hf : ∀ s, some s ∈ shares → s.v = f s.i) :
    ∀ k ∈ kset (xy F shares t).1, yval (xy F shares t).2 k = f k := by
  obtain ⟨hk, -, -, -, hy, -⟩ := xy_spec (F := F) shares t
  intro k hkm
  rw [mem_kset, ← hk] at hkm
  obtain ⟨v, hv⟩ := AMap.get_of_mem_keys hkm
  obtain ⟨s, hs, h1, h2⟩ := hy _ (AMap.mem_of_get hv)
  simp only at h1 h2
  rw [yval, hv, Option.getD_some, ← h2, hf s hs, h1]

theorem kset_subset (shares : List (Option (Share α))) (t : Nat) :
    kset (xy F shares t).1 ⊆ indices shares := by
  obtain ⟨-, -, -, h, -, -⟩ := xy_spec (F := F) shares t
  intro k hk; exact h k (mem_kset.1 hk)

theorem card_kset (shares : List (Option (Share α))) (t : Nat) :
    (kset (xy F shares t).1).card =
      if t = 0 then (indices shares).card else min t (indices shares).card := by
  obtain ⟨-, hn, -, -, -, -⟩ := xy_spec (F := F) shares t
  rw [kset, List.toFinset_card_of_nodup hn, AMap.length_keys, xy_length]
  rfl

theorem interpolate_xy (q : Nat) [CharP F q] (cs : List F)
    (shares : List (Option (Share F))) (t : Nat)
    (hgen : Genuine cs shares)
    (hidx : ∀ i ∈ indices shares, i < q)
    (hdeg : cs.length ≤ t)
    (hcount : t ≤ (indices shares).card) :
    Lagrange.interpolate (kset (xy F shares t).1) (xc F) (yval (xy F shares t).2) =
      toPoly cs := by
  apply interpolate_genuine ⟨cs⟩
  · exact xc_injOn q _ (fun i hi => hidx i (kset_subset shares t hi))
  · rw [card_kset]
    show cs.length ≤ _
    split <;> omega
  · refine yval_of_fun shares t _ (fun s hs => ?_)
    rw [hgen s hs, eval_v]

/-! ### Order independence -/

theorem xy_perm {shares shares' : List (Option (Share α))}
    (hp : (shares.filterMap id).Perm (shares'.filterMap id)) (hd : DistinctIndices shares)
    (t : Nat) : xy F shares t = xy F shares' t := by
  have : sortShares (shares.filterMap id) = sortShares (shares'.filterMap id) := by
    have hinj : ∀ a ∈ shares.filterMap id, ∀ b ∈ shares.filterMap id, a.i = b.i → a = b :=
      fun a ha b hb => List.inj_on_of_nodup_map hd ha hb
    have hp' : (sortShares (shares.filterMap id)).Perm (sortShares (shares'.filterMap id)) :=
      (sortShares_perm _).trans (hp.trans (sortShares_perm _).symm)
    refine List.Perm.eq_of_pairwise (le := fun a b : Share α => a.i ≤ b.i) ?_
      (sortShares_sorted _) (sortShares_sorted _) hp'
    intro a b ha hb h1 h2
    have ha' : a ∈ shares.filterMap id := (sortShares_perm _).mem_iff.1 ha
    have hb' : b ∈ shares.filterMap id := hp.mem_iff.2 ((sortShares_perm _).mem_iff.1 hb)
    exact hinj a ha' b hb' (le_antisymm h1 h2)
  unfold xy
  exact congrArg (fun l => xyLoop F t l [] []) this

/-! ### Public side -/

theorem pointVal_eq_foldr [AddCommGroup G] [SMul F G] (Cs : List G) (x : F) : pointVal Cs x = Cs.foldr (fun c v => x • v + c) 0 := by
  induction Cs with
  | nil => rfl
  | cons c Cs ih => rw [pointVal, ih, List.foldr_cons, add_comm]

section

variable [AddCommGroup G] [Module F G]

/-- In a vector space: `Cs[0] + x Cs[1] + x^2 Cs[2] + ...`. -/
theorem pointVal_eq_sum (Cs : List G) (x : F) :
    pointVal Cs x = ∑ k ∈ Finset.range Cs.length, x ^ k • Cs.getD k 0 := by
  induction Cs with
  | nil => simp [pointVal]
  | cons c Cs ih =>
    rw [pointVal, ih, List.length_cons, Finset.sum_range_succ', Finset.smul_sum, add_comm]
    simp only [List.getD_cons_succ, List.getD_cons_zero, pow_zero, one_smul, pow_succ, smul_smul]
    congr 1
    refine Finset.sum_congr rfl (fun k _ => ?_)
    rw [mul_comm]

end

section

variable [AddCommGroup G] [DistribSMul F G]

theorem pointVal_zipWith_add {Cs Ds : List G} (h : Cs.length = Ds.length) (x : F) :
    pointVal (List.zipWith (· + ·) Cs Ds) x = pointVal Cs x + pointVal Ds x := by
  rw [pointVal_eq_foldr, pointVal_eq_foldr, pointVal_eq_foldr]
  induction Cs generalizing Ds with
  | nil => cases Ds with
    | nil => simp
    | cons _ _ => simp at h
  | cons c Cs ih => cases Ds with
    | nil => simp at h
    | cons d Ds =>
      simp only [List.length_cons, Nat.add_right_cancel_iff] at h
      simp only [List.zipWith_cons_cons, List.foldr_cons, ih h, smul_add]
      abel

end

variable [AddCommGroup G] [SMul F G]

/-- Horner evaluation of honest commitments. -/
theorem horner_map_smul (cs : List F) {B : G} (hB : Lin F B) (x : F) :
    (cs.map (fun c => c • B)).foldr (fun c v => x • v + c) 0 = polyVal cs x • B := by
  rw [polyVal_eq, eval_toPoly]
  induction cs with
  | nil => rw [List.map_nil, List.foldr_nil, List.foldr_nil, hB.zero]
  | cons c cs ih =>
    rw [List.map_cons, List.foldr_cons, List.foldr_cons, ih, hB.add, mul_comm, hB.mul]

theorem pointVal_map_smul (cs : List F) {B : G} (hB : Lin F B) (x : F) :
    pointVal (cs.map (fun c => c • B)) x = polyVal cs x • B := by
  rw [pointVal_eq_foldr, horner_map_smul cs hB]

theorem pubEval_eq (p : PubPoly G) (hp : p.commits ≠ []) (i : Nat) :
    p.eval F i = .ok ⟨i, pointVal p.commits ((i + 1 : Nat) : F)⟩ := by
  unfold PubPoly.eval
  rw [if_neg (by simpa using hp), pointVal_eq_foldr]
  rfl

theorem pubEval_map_smul (b : Option G) {cs : List F} (hc : cs ≠ []) {B : G} (hB : Lin F B) (i : Nat) :
    (⟨b, cs.map (fun c => c • B)⟩ : PubPoly G).eval F i = .ok ⟨i, polyVal cs ((i + 1 : Nat) : F) • B⟩ := by
  unfold PubPoly.eval
  rw [if_neg (by simpa using hc), ← horner_map_smul cs hB]
  rfl

theorem _root_.Kyber.Lin.sum {B : G} (hB : Lin F B) (S : Finset Nat) (f : Nat → F) :
    (∑ k ∈ S, f k) • B = ∑ k ∈ S, f k • B := by
  induction S using Finset.induction_on with
  | empty => rw [Finset.sum_empty, Finset.sum_empty, hB.zero]
  | insert a S ha ih => rw [Finset.sum_insert ha, Finset.sum_insert ha, hB.add, ih]

/-! ### The collected indices are the smallest ones -/

omit [AddCommGroup G] [SMul F G] in
theorem xyLoop_smallest (t : Nat) (ss : List (Share α)) (x : AMap F) (y : AMap α)
    (hs : ss.Pairwise (fun a b => a.i ≤ b.i)) (hx : ∀ k ∈ x.keys, ∀ s ∈ ss, k ≤ s.i) :
    ∀ s ∈ ss, s.i ∉ (xyLoop F t ss x y).1.keys → ∀ k ∈ (xyLoop F t ss x y).1.keys, k ≤ s.i := by
  induction ss generalizing x y with
  | nil => simp
  | cons s ss ih =>
    rw [List.pairwise_cons] at hs
    simp only [xyLoop]
    by_cases hl : (x.insert s.i (xc F s.i)).length = t
    · rw [if_pos hl]
      intro s' hs' hn k hk
      rcases AMap.mem_keys_insert.1 hk with rfl | hk
      · rcases List.mem_cons.1 hs' with rfl | hs'
        · exact le_refl _
        · exact hs.1 _ hs'
      · exact hx k hk s' hs'
    · rw [if_neg hl]
      have hx' : ∀ k ∈ (x.insert s.i (xc F s.i)).keys, ∀ s' ∈ ss, k ≤ s'.i := by
        intro k hk s' hs'
        rcases AMap.mem_keys_insert.1 hk with rfl | hk
        · exact hs.1 _ hs'
        · exact hx k hk s' (by simp [hs'])
      have hsub : s.i ∈ (xyLoop F t ss (x.insert s.i (xc F s.i)) (y.insert s.i s.v)).1.keys := by
        have gen : ∀ (ss : List (Share α)) (x : AMap F) (y : AMap α), s.i ∈ x.keys →
            s.i ∈ (xyLoop F t ss x y).1.keys := by
          intro ss
          induction ss with
          | nil => intro x y h; exact h
          | cons s' ss ih' =>
            intro x y h
            simp only [xyLoop]
            split
            · exact AMap.mem_keys_insert.2 (Or.inr h)
            · exact ih' _ _ (AMap.mem_keys_insert.2 (Or.inr h))
        exact gen _ _ _ (AMap.mem_keys_insert.2 (Or.inl rfl))
      intro s' hs' hn k hk
      rcases List.mem_cons.1 hs' with rfl | hs'
      · exact absurd hsub hn
      · exact ih _ _ hs.2 hx' s' hs' hn k hk

omit [AddCommGroup G] [SMul F G] in
/-- An index that is present in the list but was not collected is at least as large as every
collected one. -/
theorem kset_smallest (shares : List (Option (Share α))) (t : Nat) :
    ∀ m ∈ indices shares, m ∉ kset (xy F shares t).1 → ∀ k ∈ kset (xy F shares t).1, k ≤ m := by
  intro m hm hn k hk
  obtain ⟨s, hs, rfl⟩ := mem_indices.1 hm
  refine xyLoop_smallest t _ ([] : AMap F) ([] : AMap α)
    (sortShares_sorted (shares.filterMap id)) (by simp) s ?_ ?_ k (mem_kset.1 hk)
  · rw [(sortShares_perm _).mem_iff]; simpa using hs
  · intro h; exact hn (mem_kset.2 h)

omit [AddCommGroup G] [SMul F G] in
theorem kset_eq_range (shares : List (Option (Share α))) (t : Nat) (ht : 0 < t)
    (h : ∀ j < t, j ∈ indices shares) : kset (xy F shares t).1 = Finset.range t := by
  have hsub : Finset.range t ⊆ indices shares := fun j hj => h j (Finset.mem_range.1 hj)
  have hcard : (kset (xy F shares t).1).card = t := by
    rw [card_kset, if_neg (by omega)]
    have := Finset.card_le_card hsub
    rw [Finset.card_range] at this; omega
  have hsub2 : Finset.range t ⊆ kset (xy F shares t).1 := by
    intro j hj
    by_contra hn
    have hle := kset_smallest (F := F) shares t j (hsub hj) hn
    have : kset (xy F shares t).1 ⊆ Finset.range j := by
      intro k hk
      rw [Finset.mem_range]
      rcases Nat.lt_or_ge k j with hlt | hge
      · exact hlt
      · exfalso
        have := hle k hk
        have : k = j := by omega
        exact hn (this ▸ hk)
    have := Finset.card_le_card this
    rw [Finset.card_range, hcard] at this
    have := Finset.mem_range.1 hj
    omega
  exact (Finset.eq_of_subset_of_card_le hsub2 (by rw [hcard, Finset.card_range])).symm

omit [AddCommGroup G] [SMul F G] in
theorem lagrangeBasis_panic (ord : MapOrder) {x : AMap F} (hx : x ≠ []) {i : Nat}
    (hi : i ∉ x.keys) : lagrangeBasis ord i x = .panic := by
  have hget : x.get i = none := AMap.get_eq_none.2 hi
  unfold lagrangeBasis
  cases hr : ord.run x with
  | nil =>
    have := (ord.perm x).length_eq
    rw [hr] at this
    exact absurd (List.length_eq_zero_iff.1 this.symm) hx
  | cons e l =>
    have he : e ∈ x := by rw [← (ord.perm x).mem_iff, hr]; simp
    have hne : ¬ i = e.1 := fun h => hi (h ▸ AMap.mem_keys.2 ⟨e.2, he⟩)
    obtain ⟨b, hb, -, -⟩ := mul_spec (⟨[1]⟩ : PriPoly F) (minusConst e.2) (by simp)
      (by simp [minusConst])
    rw [List.foldlM_cons, if_neg hne]
    simp [hb, hget]

/-- The successful case of `recover_pub_poly`. -/
theorem recoverPubPoly_ok (q : Nat) [CharP F q] (base : G) (ord : MapOrder) (cs : List F) (B : G)
    (hB : Lin F B) (shares : List (Option (Share G))) (t : Nat) (ht : 0 < t) (hdeg : cs.length = t)
    (hgen : GenuinePub cs B shares) (hidx : ∀ i ∈ indices shares, i < q)
    (h : ∀ j < t, j ∈ indices shares) :
    recoverPubPoly (F := F) base ord shares t =
      .ok ⟨some (polyVal cs ((0 + 1 : Nat) : F) • B), cs.map (fun c => c • B)⟩ := by
  obtain ⟨hk, hn, hx, -, -, -⟩ := xy_spec (F := F) shares t
  have hks := kset_eq_range (F := F) shares t ht h
  have hcard : t ≤ (indices shares).card := by
    have : Finset.range t ⊆ indices shares := fun j hj => h j (Finset.mem_range.1 hj)
    have := Finset.card_le_card this
    rwa [Finset.card_range] at this
  have hlen : (xy F shares t).1.length = t := by
    rw [xy_length]; change (if t = 0 then (indices shares).card else min t (indices shares).card) = t
    split <;> omega
  have hyv := yval_of_fun (F := F) shares t (fun k => polyVal cs ((k + 1 : Nat) : F) • B)
    (fun s hs => hgen s hs)
  set x := (xy F shares t).1 with hxdef
  set y := (xy F shares t).2 with hydef
  obtain ⟨r, h1, h2⟩ := Res.foldlM_inv (ε := PolyError)
    (f := fun (acc : PubPoly G) (ej : (Nat × F) × Nat) => do
      let basis ← lagrangeBasis ord ej.2 x
      let yj ← Res.unwrap (y.get ej.2)
      let tmp := basis.commit base (some yj)
      if acc.commits.isEmpty then .ok tmp else acc.add tmp)
    (fun done (acc : PubPoly G) =>
      (done = [] → acc.commits = []) ∧
      (done ≠ [] → acc.b = some (polyVal cs ((0 + 1 : Nat) : F) • B) ∧
        ∃ l : List F, l.length = t ∧ acc.commits = l.map (fun c => c • B) ∧
        toPoly l = ∑ j ∈ Finset.range done.length,
          C (polyVal cs ((j + 1 : Nat) : F)) * Lagrange.basis (kset x) (xc F) j))
    (l := (ord.run x).zipIdx) (b := ⟨none, []⟩) (by simp) (by
      intro done e rest acc hl hP
      have hpos : e.2 = done.length ∧ done.length < t := by
        have h1 : (ord.run x).zipIdx[done.length]? = some e := by rw [hl]; simp
        rw [List.getElem?_zipIdx, Option.map_eq_some_iff] at h1
        obtain ⟨c, hc, hca⟩ := h1
        have := (List.getElem?_eq_some_iff.1 hc).1
        rw [(ord.perm x).length_eq, hlen] at this
        exact ⟨by rw [← hca]; simp, this⟩
      have hek' : e.2 ∈ kset x := by rw [hks, Finset.mem_range]; omega
      have hek : e.2 ∈ x.keys := mem_kset.1 hek'
      obtain ⟨bas, hb1, hb2, hb3⟩ := lagrangeBasis_spec ord hn hx hek
      obtain ⟨v, hv⟩ := AMap.get_of_mem_keys (m := y) (by rw [hk]; exact hek)
      have hv' : v = polyVal cs ((e.2 + 1 : Nat) : F) • B := by
        have := hyv e.2 hek'
        simpa [yval, hv] using this
      have hcommit : (bas.commit base (some v)).commits =
          (bas.coeffs.map (· * polyVal cs ((e.2 + 1 : Nat) : F))).map (fun c => c • B) := by
        simp [PriPoly.commit, hv', hB.mul]
      by_cases hd : done = []
      · have hacc := hP.1 hd
        refine ⟨bas.commit base (some v), ?_, by simp, fun _ => ⟨?_, _, ?_, hcommit, ?_⟩⟩
        · simp [hb1, hv, hacc]
        · have : e.2 = 0 := by rw [hpos.1, hd]; rfl
          simp [PriPoly.commit, hv', this]
        · simp [hb2, hlen]
        · rw [toPoly_map_mul, hb3, mul_comm, hpos.1, hd]; simp
      · obtain ⟨hb, l, hll, hlc, hlp⟩ := hP.2 hd
        have hne : acc.commits.isEmpty = false := by
          rw [hlc]
          cases l with
          | nil => simp at hll; omega
          | cons _ _ => rfl
        have hth : acc.threshold = (bas.commit base (some v)).threshold := by
          simp [PubPoly.threshold, hlc, hll, hcommit, hb2, hlen]
        have hl2 : l.length = (bas.coeffs.map (· * polyVal cs ((e.2 + 1 : Nat) : F))).length := by
          simp [hll, hb2, hlen]
        refine ⟨⟨acc.b, List.zipWith (· + ·) acc.commits (bas.commit base (some v)).commits⟩,
          ?_, by simp, fun _ => ⟨hb, List.zipWith (· + ·) l
            (bas.coeffs.map (· * polyVal cs ((e.2 + 1 : Nat) : F))), ?_, ?_, ?_⟩⟩
        · simp only [hb1, hv, Res.bind_ok, Res.unwrap_some, hne]
          unfold PubPoly.add
          rw [if_neg (by simp), if_neg (by simpa using hth)]
        · simp [hll, hb2, hlen]
        · simp only [hcommit, hlc]
          rw [List.zipWith_map, List.map_zipWith]
          simp only [hB.add]
        · rw [toPoly_add hl2, hlp, toPoly_map_mul, hb3, List.length_append, List.length_singleton,
            Finset.sum_range_succ, hpos.1, mul_comm (Lagrange.basis _ _ _)])
  have hne : (ord.run x).zipIdx ≠ [] := by
    intro h0
    have := congrArg List.length h0
    rw [List.length_zipIdx, (ord.perm x).length_eq, hlen] at this
    simp at this; omega
  obtain ⟨hb, l, hll, hlc, hlp⟩ := h2.2 hne
  have hlcs : l = cs := by
    apply toPoly_injective (hll.trans hdeg.symm)
    rw [hlp, List.length_zipIdx, (ord.perm x).length_eq, hlen]
    have hint := interpolate_genuine (⟨cs⟩ : PriPoly F) (kset x)
      (xc_injOn q _ (fun i hi => hidx i (kset_subset shares t hi)))
      (by rw [hks, Finset.card_range]; exact le_of_eq hdeg)
      (fun k => polyVal cs ((k + 1 : Nat) : F)) (fun k _ => by rw [eval_v])
    rw [← hint, Lagrange.interpolate_apply, hks]
  have hlen' : ¬ ((xy F shares t).1.length < t) := by rw [← hxdef]; omega
  unfold recoverPubPoly
  simp only [hlen', if_false]
  rw [← hxdef, ← hydef, h1]
  congr 1
  rw [show r = ⟨r.b, r.commits⟩ from rfl, hb, hlc, hlcs]

/-- The panicking case of `recover_pub_poly`. -/
theorem recoverPubPoly_panic (base : G) (ord : MapOrder)
    (shares : List (Option (Share G))) (t : Nat) (hcount : t ≤ (indices shares).card)
    (h : ∃ j < t, j ∉ indices shares) :
    recoverPubPoly (F := F) base ord shares t = .panic := by
  obtain ⟨hk, hn, hx, -, -, -⟩ := xy_spec (F := F) shares t
  obtain ⟨j, hj, hjn⟩ := h
  have hlen : (xy F shares t).1.length = t := by
    rw [xy_length]; change (if t = 0 then (indices shares).card else min t (indices shares).card) = t
    split <;> omega
  have hjk : j ∉ (xy F shares t).1.keys := fun hc => hjn (kset_subset shares t (mem_kset.2 hc))
  unfold recoverPubPoly
  have hlen' : ¬ ((xy F shares t).1.length < t) := by omega
  simp only [hlen', if_false]
  set x := (xy F shares t).1 with hxdef
  set y := (xy F shares t).2 with hydef
  have hxne : x ≠ [] := by
    intro h0; rw [h0] at hlen; simp at hlen; omega
  -- every step before position `j` keeps the number of commitments
  have key : ∀ (l : List ((Nat × F) × Nat)) (acc : PubPoly G),
      (∃ e ∈ l, e.2 = j) → (acc.commits = [] ∨ acc.commits.length = t) →
      l.foldlM (fun (acc : PubPoly G) (ej : (Nat × F) × Nat) => do
        let basis ← lagrangeBasis ord ej.2 x
        let yj ← Res.unwrap (y.get ej.2)
        let tmp := basis.commit base (some yj)
        if acc.commits.isEmpty then .ok tmp else acc.add tmp) acc = .panic := by
    intro l
    induction l with
    | nil => rintro acc ⟨e, he, -⟩; simp at he
    | cons e l ih =>
      intro acc he hacc
      rw [List.foldlM_cons]
      by_cases hek : e.2 ∈ x.keys
      · obtain ⟨bas, hb1, hb2, hb3⟩ := lagrangeBasis_spec ord hn hx hek
        obtain ⟨v, hv⟩ := AMap.get_of_mem_keys (m := y) (by rw [hk]; exact hek)
        have he' : ∃ e' ∈ l, e'.2 = j := by
          obtain ⟨e', he', hj'⟩ := he
          rcases List.mem_cons.1 he' with rfl | h'
          · exact absurd (hj' ▸ hek) hjk
          · exact ⟨e', h', hj'⟩
        have hcl : (bas.commit base (some v)).commits.length = t := by
          simp [PriPoly.commit, hb2, hlen]
        simp only [hb1, hv, Res.bind_ok, Res.unwrap_some]
        rcases hacc with h0 | h0
        · rw [h0]; simp only [List.isEmpty_nil, if_true, Res.bind_ok]
          exact ih _ he' (Or.inr hcl)
        · have hne : acc.commits.isEmpty = false := by
            cases hc : acc.commits with
            | nil => rw [hc] at h0; simp at h0; omega
            | cons _ _ => rfl
          rw [hne]
          unfold PubPoly.add
          rw [if_neg (by simp), if_neg (by simp [PubPoly.threshold, h0, hcl])]
          rw [Res.bind_ok]
          exact ih _ he' (Or.inr (by simp [h0, hcl]))
      · rw [lagrangeBasis_panic ord hxne hek]; rfl
  apply key
  · have hlt : j < (ord.run x).zipIdx.length := by
      rw [List.length_zipIdx, (ord.perm x).length_eq, hlen]; exact hj
    refine ⟨(ord.run x).zipIdx[j], List.getElem_mem hlt, by simp⟩
  · exact Or.inl rfl

omit [AddCommGroup G] [SMul F G] in
/-- The coefficient list of length `t` of a polynomial of degree below `t`. -/
theorem exists_coeffs (p : F[X]) (t : Nat) (h : p.degree < t) :
    ∃ cs : List F, cs.length = t ∧ toPoly cs = p := by
  refine ⟨(List.range t).map p.coeff, by simp, ?_⟩
  ext k
  rw [coeff_toPoly]
  by_cases hk : k < t
  · simp [hk]
  · have := (degree_lt_iff_coeff_zero p t).1 h k (by omega)
    simp [hk, this]

omit [AddCommGroup G] [SMul F G] in
theorem xc_ne_zero (q : Nat) [CharP F q] {i : Nat} (h : i + 1 < q) : xc F i ≠ 0 := by
  unfold xc
  rw [Ne, CharP.cast_eq_zero_iff F q]
  intro hd
  have := Nat.le_of_dvd (by omega) hd
  omega

omit [AddCommGroup G] [SMul F G] in
/-- There is exactly one polynomial with `S.card + 1` coefficients with given secret and
given values at the indices of `S`. -/
theorem exists_unique_poly (q : Nat) [CharP F q] (S : Finset Nat) (hS : ∀ i ∈ S, i + 1 < q)
    (obs : Nat → F) (secret : F) (t : Nat) (ht : S.card < t) :
    ∃ cs : List F, (secret :: cs).length = t ∧
      ∀ i ∈ S, polyVal (secret :: cs) ((i + 1 : Nat) : F) = obs i := by
  classical
  -- nodes: `none` for the secret at 0, `some i` for share `i`
  let nodes : Finset (Option Nat) := insert none (S.map ⟨some, Option.some_injective _⟩)
  let v : Option Nat → F := fun o => o.elim 0 (xc F)
  let r : Option Nat → F := fun o => o.elim secret obs
  have hinj : Set.InjOn v nodes := by
    intro a ha b hb hab
    simp only [nodes, Finset.coe_insert, Finset.coe_map, Function.Embedding.coeFn_mk,
      Set.mem_insert_iff, Set.mem_image, Finset.mem_coe] at ha hb
    rcases ha with rfl | ⟨a, ha, rfl⟩ <;> rcases hb with rfl | ⟨b, hb, rfl⟩
    · rfl
    · exact absurd hab.symm (xc_ne_zero q (hS b hb))
    · exact absurd hab (xc_ne_zero q (hS a ha))
    · congr 1
      exact xc_injOn q S (fun i hi => by have := hS i hi; omega) ha hb hab
  have hcard : nodes.card = S.card + 1 := by
    simp [nodes]
  have hdeg : (Lagrange.interpolate nodes v r).degree < (t : Nat) := by
    refine lt_of_lt_of_le (Lagrange.degree_interpolate_lt r hinj) ?_
    rw [hcard]; exact_mod_cast ht
  obtain ⟨cs, hl, hcs⟩ := exists_coeffs _ t hdeg
  cases cs with
  | nil => simp at hl; omega
  | cons c cs =>
    have h0 : c = secret := by
      have h1 := Lagrange.eval_interpolate_at_node r hinj (i := none) (by simp [nodes])
      rw [← hcs] at h1
      simpa [v, r] using h1
    subst h0
    refine ⟨cs, hl, fun i hi => ?_⟩
    have h1 := Lagrange.eval_interpolate_at_node r hinj (i := some i) (by simp [nodes, hi])
    rw [← hcs] at h1
    rw [polyVal_eq]
    exact h1

omit [AddCommGroup G] [SMul F G] in
theorem polyVal_zipWith_add {cs ds : List F} (h : cs.length = ds.length) (x : F) :
    polyVal (List.zipWith (· + ·) cs ds) x = polyVal cs x + polyVal ds x := by
  rw [polyVal_eq, polyVal_eq, polyVal_eq, toPoly_add h, eval_add]

omit [AddCommGroup G] [SMul F G] in
theorem polyVal_inj (q : Nat) [CharP F q] (S : Finset Nat) (hS : ∀ i ∈ S, i < q)
    {cs ds : List F} (hl : cs.length = ds.length) (hc : cs.length ≤ S.card)
    (h : ∀ i ∈ S, polyVal cs ((i + 1 : Nat) : F) = polyVal ds ((i + 1 : Nat) : F)) : cs = ds := by
  apply toPoly_injective hl
  have h1 := interpolate_genuine (⟨cs⟩ : PriPoly F) S (xc_injOn q S hS) hc
    (fun k => polyVal cs ((k + 1 : Nat) : F)) (fun k _ => by rw [eval_v])
  have h2 := interpolate_genuine (⟨ds⟩ : PriPoly F) S (xc_injOn q S hS) (by rw [← hl]; exact hc)
    (fun k => polyVal cs ((k + 1 : Nat) : F)) (fun k hk => by rw [eval_v]; exact h k hk)
  exact h1.symm.trans h2

omit [AddCommGroup G] [SMul F G] in
theorem eq_of_secret_and_values (q : Nat) [CharP F q] (S : Finset Nat) (hS : ∀ i ∈ S, i + 1 < q)
    {c : F} {cs ds : List F} (hl : (c :: cs).length = (c :: ds).length)
    (hc : (c :: cs).length ≤ S.card + 1)
    (h : ∀ i ∈ S, polyVal (c :: cs) ((i + 1 : Nat) : F) = polyVal (c :: ds) ((i + 1 : Nat) : F)) :
    c :: cs = c :: ds := by
  have hl' : cs.length = ds.length := by simpa using hl
  congr 1
  apply polyVal_inj q S (fun i hi => by have := hS i hi; omega) hl' (by simpa using hc)
  intro i hi
  have := h i hi
  rw [polyVal_eq, polyVal_eq, toPoly_cons, toPoly_cons] at this
  simp only [eval_add, eval_C, eval_mul, eval_X, add_right_inj] at this
  rw [polyVal_eq, polyVal_eq]
  exact mul_left_cancel₀ (xc_ne_zero q (hS i hi)) this

omit [AddCommGroup G] [SMul F G] in
theorem zipWith_add_sub {l d : List F} (h : l.length = d.length) :
    List.zipWith (· - ·) (List.zipWith (· + ·) l d) d = l := by
  induction l generalizing d with
  | nil => simp
  | cons a l ih => cases d with
    | nil => simp at h
    | cons b d =>
      simp only [List.length_cons, Nat.add_right_cancel_iff] at h
      simp [ih h]

omit [AddCommGroup G] [SMul F G] in
theorem zipWith_sub_add {l d : List F} (h : l.length = d.length) :
    List.zipWith (· + ·) (List.zipWith (· - ·) l d) d = l := by
  induction l generalizing d with
  | nil => simp
  | cons a l ih => cases d with
    | nil => simp at h
    | cons b d =>
      simp only [List.length_cons, Nat.add_right_cancel_iff] at h
      simp [ih h]

/-- Adding a fixed polynomial `d` that vanishes on `S` and has secret `s' - s`. -/
def secrecyEquiv (S : Finset Nat) (observed : Nat → F) (s s' : F) (t : Nat) (d : PriPoly F)
    (h1 : d.threshold = t) (h2 : d.secret = .ok (s' - s)) (h3 : ∀ i ∈ S, (d.eval i).v = 0) :
    {p : PriPoly F // p.threshold = t ∧ p.secret = .ok s ∧
        ∀ i ∈ S, (p.eval i).v = observed i} ≃
      {p : PriPoly F // p.threshold = t ∧ p.secret = .ok s' ∧
        ∀ i ∈ S, (p.eval i).v = observed i} where
  toFun p := ⟨⟨List.zipWith (· + ·) p.1.coeffs d.coeffs⟩, by
    obtain ⟨⟨l⟩, p1, p2, p3⟩ := p
    obtain ⟨d⟩ := d
    have hl : l.length = d.length := by
      simp only [PriPoly.threshold] at p1 h1; omega
    refine ⟨by simp only [PriPoly.threshold] at h1 ⊢; simp [hl, h1], ?_, fun i hi => ?_⟩
    · cases l with
      | nil => simp [PriPoly.secret] at p2
      | cons a l => cases d with
        | nil => simp at hl
        | cons b d =>
          simp only [PriPoly.secret, List.head?_cons, Res.unwrap_some, Res.ok.injEq] at p2 h2
          simp [PriPoly.secret, p2, h2]
    · have e1 := p3 i hi
      have e2 := h3 i hi
      rw [eval_v] at e1 e2 ⊢
      simp only at e1 e2 ⊢
      rw [polyVal_zipWith_add hl, e1, e2, add_zero]⟩
  invFun p := ⟨⟨List.zipWith (· - ·) p.1.coeffs d.coeffs⟩, by
    obtain ⟨⟨l⟩, p1, p2, p3⟩ := p
    obtain ⟨d⟩ := d
    have hl : l.length = d.length := by
      simp only [PriPoly.threshold] at p1 h1; omega
    refine ⟨by simp only [PriPoly.threshold] at h1 ⊢; simp [hl, h1], ?_, fun i hi => ?_⟩
    · cases l with
      | nil => simp [PriPoly.secret] at p2
      | cons a l => cases d with
        | nil => simp at hl
        | cons b d =>
          simp only [PriPoly.secret, List.head?_cons, Res.unwrap_some, Res.ok.injEq] at p2 h2
          simp [PriPoly.secret, p2, h2]
    · have e1 := p3 i hi
      have e2 := h3 i hi
      rw [eval_v] at e1 e2 ⊢
      simp only at e1 e2 ⊢
      have hlen : (List.zipWith (· - ·) l d).length = d.length := by simp [hl]
      have e3 := polyVal_zipWith_add hlen ((i + 1 : Nat) : F)
      rw [zipWith_sub_add hl, e1, e2, add_zero] at e3
      exact e3.symm⟩
  left_inv p := by
    obtain ⟨⟨l⟩, p1, p2, p3⟩ := p
    apply Subtype.ext
    have hl : l.length = d.coeffs.length := by
      simp only [PriPoly.threshold] at p1 h1; omega
    simp only
    rw [zipWith_add_sub hl]
  right_inv p := by
    obtain ⟨⟨l⟩, p1, p2, p3⟩ := p
    apply Subtype.ext
    have hl : l.length = d.coeffs.length := by
      simp only [PriPoly.threshold] at p1 h1; omega
    simp only
    rw [zipWith_sub_add hl]

omit [AddCommGroup G] [SMul F G] [Field F] in
theorem foldl_and_false (l : List Bool) : l.foldl (· && ·) false = false := by
  induction l with
  | nil => rfl
  | cons b l ih => simpa using ih

omit [AddCommGroup G] [SMul F G] [Field F] in
theorem foldl_zip_decide_eq [DecidableEq F] {l l' : List F} (h : l.length = l'.length) :
    (List.zipWith (fun a b => decide (a = b)) l l').foldl (· && ·) true = decide (l = l') := by
  induction l generalizing l' with
  | nil => cases l' with
    | nil => rfl
    | cons _ _ => simp at h
  | cons c l ih => cases l' with
    | nil => simp at h
    | cons d l' =>
      simp only [List.length_cons, Nat.add_right_cancel_iff] at h
      simp only [List.zipWith_cons_cons, List.foldl_cons, Bool.true_and]
      by_cases hcd : c = d
      · simp only [hcd, decide_true, List.cons.injEq, true_and]; exact ih h
      · simp only [hcd, decide_false, List.cons.injEq, false_and]
        exact foldl_and_false _

omit [AddCommGroup G] in
theorem pubEqual_prefix [DecidableEq G] (p q : PubPoly G) :
    p.equal q = if q.threshold < p.threshold then .panic
      else .ok (decide (p.commits <+: q.commits)) := by
  obtain ⟨pb, l⟩ := p
  obtain ⟨qb, m⟩ := q
  unfold PubPoly.equal PubPoly.threshold
  simp only
  suffices H : ∀ (l : List G) (n : Nat) (b : Bool),
      (l.zipIdx n).foldlM (fun b ci => do
        let qi ← (Res.unwrap (m[ci.2]?) : Res PolyError G)
        .ok (b && decide (ci.1 = qi))) b =
      if m.length < n + l.length ∧ l ≠ [] then .panic
        else .ok (b && decide (l <+: m.drop n)) by
    rw [H l 0 true]
    simp only [Nat.zero_add, List.drop_zero, Bool.true_and]
    by_cases h : m.length < l.length
    · rw [if_pos h, if_pos ⟨h, by rintro rfl; simp at h⟩]
    · rw [if_neg h, if_neg (fun h' => h h'.1)]
  intro l
  induction l with
  | nil => intro n b; simp
  | cons c l ih =>
    intro n b
    rw [List.zipIdx_cons, List.foldlM_cons]
    by_cases hn : n < m.length
    · simp only [List.getElem?_eq_getElem hn, Res.unwrap_some, Res.bind_ok]
      rw [ih]
      by_cases hl : m.length < n + 1 + l.length
      · by_cases hnil : l = []
        · subst hnil; simp at hl; omega
        · rw [if_pos ⟨hl, hnil⟩, if_pos ⟨by simp; omega, by simp⟩]
      · rw [if_neg (fun h => hl h.1), if_neg (fun h => hl (by have := h.1; simp at this; omega))]
        congr 1
        rw [Bool.and_assoc]
        congr 1
        have hd : m.drop n = m[n] :: m.drop (n + 1) := List.drop_eq_getElem_cons hn
        rw [hd, Bool.eq_iff_iff, Bool.and_eq_true, decide_eq_true_iff, decide_eq_true_iff,
          decide_eq_true_iff, List.cons_prefix_cons]
    · rw [List.getElem?_eq_none (by omega)]
      rw [if_pos ⟨by simp; omega, by simp⟩]
      rfl

omit [AddCommGroup G] in
theorem pubEqual_same_length [DecidableEq G] (p q : PubPoly G) (h : p.threshold = q.threshold) :
    p.equal q = .ok (decide (p.commits = q.commits)) := by
  rw [pubEqual_prefix, if_neg (by omega)]
  congr 1
  rw [decide_eq_decide]
  constructor
  · intro hp; exact hp.eq_of_length h
  · intro hp; rw [hp]

end Kyber.Poly
