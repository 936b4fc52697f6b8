/-
`resharing_key` of the Pedersen DKG.
-/
import Verif.Lemmas.DkgPedersenKey
import Verif.Spec.DkgReshare

set_option linter.unusedSectionVars false

namespace Kyber.DkgP

open Kyber.Poly Kyber.Spec Kyber.VssP

variable {F G : Type} [Field F] [AddCommGroup G] [DecidableEq G]

section

variable [SMul F G]

theorem firstT_subset (Q : Finset Nat) (t : Nat) : firstT Q t ⊆ Q := Finset.filter_subset _ _

/-- The indices collected by `xy_scalar` are the `t` smallest ones. -/
theorem kset_eq_firstT {α : Type} (shares : List (Option (Share α))) (t : Nat) (ht : 0 < t) :
    kset (xy F shares t).1 = firstT (indices shares) t := by
  have hc := card_kset (F := F) shares t
  rw [if_neg (by omega)] at hc
  ext i
  unfold firstT
  rw [Finset.mem_filter]
  constructor
  · intro hi
    refine ⟨kset_subset shares t hi, ?_⟩
    have hsub : (indices shares).filter (· < i) ⊆ (kset (xy F shares t).1).erase i := by
      intro m hm
      rw [Finset.mem_filter] at hm
      rw [Finset.mem_erase]
      refine ⟨by omega, ?_⟩
      by_contra hn
      have := kset_smallest (F := F) shares t m hm.1 hn i hi
      omega
    have h1 := Finset.card_le_card hsub
    rw [Finset.card_erase_of_mem hi] at h1
    have : 0 < (kset (xy F shares t).1).card := Finset.card_pos.2 ⟨i, hi⟩
    have := Nat.min_le_left t (indices shares).card
    omega
  · rintro ⟨hi, hlt⟩
    by_contra hn
    have hle := kset_smallest (F := F) shares t i hi hn
    have hsub : kset (xy F shares t).1 ⊆ (indices shares).filter (· < i) := by
      intro k hk
      rw [Finset.mem_filter]
      refine ⟨kset_subset shares t hk, ?_⟩
      have := hle k hk
      have : k ≠ i := fun h => hn (h ▸ hk)
      omega
    have h1 := Finset.card_le_card hsub
    have h2 : (kset (xy F shares t).1).card = (indices shares).card := by omega
    have := Finset.eq_of_subset_of_card_le (kset_subset (F := F) shares t) (by omega)
    exact hn (this ▸ hi)

theorem card_firstT (Q : Finset Nat) (t : Nat) (ht : 0 < t) (h : t ≤ Q.card) :
    (firstT Q t).card = t := by
  have hi : indices (Q.toList.map (fun i => some (⟨i, (0 : ℚ)⟩ : Share ℚ))) = Q := by
    ext k
    rw [mem_indices]
    simp
  rw [← hi, ← kset_eq_firstT (F := ℚ) _ t ht, card_kset, if_neg (by omega), hi]
  omega

theorem lag0_eq_weight (S : Finset Nat) (i : Nat) : lag0 F S i = weight F S i := by
  unfold lag0 weight xc
  rw [Finset.prod_div_distrib]

/-! ### The loop -/

/-- The deals that the loop of `resharing_key` uses. -/
def collect : List (Nat × Verifier F G) → AMap (VssP.Deal F G)
  | [] => []
  | (i, v) :: l =>
    if v.aggregator.dealCertified = false then collect l
    else match v.deal with
      | none => []
      | some deal => (i, deal) :: collect l

theorem collect_keys_sub (l : List (Nat × Verifier F G)) :
    (collect l).keys.Sublist (l.map Prod.fst) := by
  induction l with
  | nil => exact List.Sublist.refl _
  | cons e l ih =>
    obtain ⟨i, v⟩ := e
    unfold collect
    split
    · exact ih.cons _
    · split
      · exact List.nil_sublist _
      · exact ih.cons₂ _

theorem mem_collect {l : List (Nat × Verifier F G)} {i : Nat} {dl : VssP.Deal F G}
    (h : (i, dl) ∈ collect l) : ∃ v, (i, v) ∈ l ∧ v.aggregator.dealCertified = true ∧
      v.aggregator.deal = some dl := by
  induction l with
  | nil => cases h
  | cons e l ih =>
    obtain ⟨j, v⟩ := e
    unfold collect at h
    split at h
    · obtain ⟨w, h1, h2⟩ := ih h
      exact ⟨w, List.mem_cons_of_mem _ h1, h2⟩
    · rename_i hc
      rw [Bool.not_eq_false] at hc
      split at h
      · cases h
      · rename_i deal hd
        rcases List.mem_cons.1 h with h | h
        · cases h
          refine ⟨v, List.mem_cons_self, hc, ?_⟩
          unfold Verifier.deal at hd
          rwa [if_neg (by simp [hc])] at hd
        · obtain ⟨w, h1, h2⟩ := ih h
          exact ⟨w, List.mem_cons_of_mem _ h1, h2⟩

/-- If every certified verifier has a deal, the loop uses them all. -/
theorem collect_all {l : List (Nat × Verifier F G)}
    (hall : ∀ e ∈ l, e.2.aggregator.dealCertified = true → e.2.aggregator.deal.isSome)
    {i : Nat} {v : Verifier F G} (h : (i, v) ∈ l) (hc : v.aggregator.dealCertified = true) :
    i ∈ (collect l).keys := by
  induction l with
  | nil => cases h
  | cons e l ih =>
    obtain ⟨j, w⟩ := e
    have ih' := ih (fun e he => hall e (List.mem_cons_of_mem _ he))
    unfold collect
    split
    · rename_i hw
      rcases List.mem_cons.1 h with h | h
      · cases h; rw [hc] at hw; cases hw
      · exact ih' h
    · rename_i hw
      rw [Bool.not_eq_false] at hw
      have hsome := hall (j, w) List.mem_cons_self hw
      split
      · rename_i hd
        unfold Verifier.deal at hd
        rw [if_neg (by simp [hw])] at hd
        rw [hd] at hsome; cases hsome
      · rw [AMap.keys_cons]
        rcases List.mem_cons.1 h with h | h
        · cases h; exact List.mem_cons_self
        · exact List.mem_cons_of_mem _ (ih' h)

theorem reshareLoop_eq (l : List (Nat × Verifier F G)) (sh : List (Option (Share F)))
    (co : List (Option (List G))) (hb : ∀ i ∈ l.map Prod.fst, i < co.length) :
    Dkg.reshareLoop l sh co = .ok
      ((collect l).foldl (fun s e => s.set e.1 (some ⟨e.1, e.2.secShare.v⟩)) sh,
       (collect l).foldl (fun s e => s.set e.1 (some e.2.commitments)) co) := by
  induction l generalizing sh co with
  | nil => rfl
  | cons e l ih =>
    obtain ⟨i, v⟩ := e
    unfold Dkg.reshareLoop collect
    have hi : i < co.length := hb i (by simp)
    have hb' : ∀ i ∈ l.map Prod.fst, i < co.length := fun i hi => hb i (by simp [List.mem_map] at hi ⊢; exact Or.inr hi)
    by_cases hc : v.aggregator.dealCertified = false
    · rw [if_pos hc, if_pos hc]
      exact ih _ _ hb'
    · rw [if_neg hc, if_neg hc]
      cases hd : v.deal with
      | none => rfl
      | some deal =>
        simp only
        rw [if_neg (by omega), ih _ _ (by simpa using hb')]
        rfl

theorem foldl_set_get {α : Type} (f : Nat → VssP.Deal F G → α) (m : AMap (VssP.Deal F G))
    (hn : m.keys.Nodup) (s : List (Option α)) (hb : ∀ i ∈ m.keys, i < s.length) (j : Nat) :
    (m.foldl (fun s e => s.set e.1 (some (f e.1 e.2))) s)[j]? =
      match m.get j with
      | some dl => some (some (f j dl))
      | none => s[j]? := by
  induction m generalizing s with
  | nil => rfl
  | cons e m ih =>
    obtain ⟨i, dl⟩ := e
    rw [AMap.keys_cons, List.nodup_cons] at hn
    rw [List.foldl_cons, ih hn.2 _ (fun k hk => by
      rw [List.length_set]; exact hb k (by rw [AMap.keys_cons]; exact List.mem_cons_of_mem _ hk)),
      AMap.get_cons]
    have hi : i < s.length := hb i (by rw [AMap.keys_cons]; exact List.mem_cons_self)
    by_cases hj : j = i
    · subst hj
      have : AMap.get m j = none := AMap.get_eq_none.2 hn.1
      rw [this, if_pos rfl]
      simp [hi]
    · rw [if_neg hj]
      cases AMap.get m j with
      | some x => rfl
      | none =>
        simp only
        rw [List.getElem?_set_ne (by omega)]

/-- The lists that the loop of `resharing_key` fills. -/
theorem foldl_set_replicate {α : Type} (f : Nat → VssP.Deal F G → α) (m : AMap (VssP.Deal F G))
    (hn : m.keys.Nodup) (cap : Nat) (hb : ∀ i ∈ m.keys, i < cap) :
    m.foldl (fun s e => s.set e.1 (some (f e.1 e.2))) (List.replicate cap none) =
      (List.range cap).map (fun j => (m.get j).map (f j)) := by
  apply List.ext_getElem?
  intro j
  rw [foldl_set_get f m hn _ (by simpa using hb)]
  by_cases hj : j < cap
  · rw [List.getElem?_map, List.getElem?_range hj]
    cases hg : m.get j <;> simp [hj, hg]
  · have : m.get j = none := AMap.get_eq_none.2 (fun h => hj (hb j h))
    rw [this]
    simp [hj]

theorem indices_range_map {α : Type} (m : AMap (VssP.Deal F G)) (cap : Nat)
    (hb : ∀ i ∈ m.keys, i < cap) (f : Nat → VssP.Deal F G → α) :
    indices ((List.range cap).map (fun j => (m.get j).map (fun dl => (⟨j, f j dl⟩ : Share α)))) =
      m.keys.toFinset := by
  ext k
  rw [mem_indices, List.mem_toFinset]
  constructor
  · rintro ⟨s, hs, rfl⟩
    rw [List.mem_map] at hs
    obtain ⟨j, -, hj⟩ := hs
    rw [Option.map_eq_some_iff] at hj
    obtain ⟨dl, hdl, rfl⟩ := hj
    exact AMap.mem_keys.2 ⟨dl, AMap.mem_of_get hdl⟩
  · intro hk
    obtain ⟨dl, hdl⟩ := AMap.get_of_mem_keys hk
    refine ⟨⟨k, f k dl⟩, ?_, rfl⟩
    rw [List.mem_map]
    exact ⟨k, List.mem_range.2 (hb k hk), by rw [hdl]; rfl⟩

/-- The value of the deal with index `i` under `f`. -/
def dealVal {α : Type} [Zero α] (m : AMap (VssP.Deal F G)) (f : VssP.Deal F G → α) (i : Nat) : α :=
  ((m.get i).map f).getD 0

theorem yval_range_map {α : Type} [Zero α] (m : AMap (VssP.Deal F G)) (cap t : Nat)
    (f : VssP.Deal F G → α) :
    let shares := (List.range cap).map (fun j => (m.get j).map (fun dl => (⟨j, f dl⟩ : Share α)))
    ∀ k ∈ kset (xy F shares t).1, yval (xy F shares t).2 k = dealVal m f k := by
  intro shares
  refine yval_of_fun shares t _ (fun s hs => ?_)
  rw [List.mem_map] at hs
  obtain ⟨j, -, hj⟩ := hs
  rw [Option.map_eq_some_iff] at hj
  obtain ⟨dl, hdl, rfl⟩ := hj
  simp [dealVal, hdl]

/-- `column`: succeeds exactly if every commitment list is long enough. -/
theorem column_eq (m : AMap (VssP.Deal F G)) (cap k : Nat)
    (hb : ∀ i ∈ m.keys, i < cap) (h : ∀ e ∈ m, k < e.2.commitments.length) :
    Dkg.column ((List.range cap).map (fun j => (m.get j).map (fun dl => dl.commitments))) k =
      .ok ((List.range cap).map (fun j => (m.get j).map
        (fun dl => (⟨j, dl.commitments.getD k 0⟩ : Share G)))) := by
  have key : ∀ (n s : Nat), (((List.range' s n).map (fun j => (m.get j).map (fun dl => dl.commitments))).zipIdx s).mapM
      (fun cj : Option (List G) × Nat => match cj.1 with
        | none => (.ok none : Res DkgError (Option (Share G)))
        | some cs => match cs[k]? with
          | none => .panic
          | some c => .ok (some ⟨cj.2, c⟩)) =
      .ok ((List.range' s n).map (fun j => (m.get j).map
        (fun dl => (⟨j, dl.commitments.getD k 0⟩ : Share G)))) := by
    intro n
    induction n with
    | zero => intro s; rfl
    | succ n ih =>
      intro s
      rw [List.range'_succ, List.map_cons, List.zipIdx_cons, List.mapM_cons, ih, List.map_cons]
      cases hg : m.get s with
      | none => rfl
      | some dl =>
        have hl := h (s, dl) (AMap.mem_of_get hg)
        simp only [Option.map_some]
        rw [List.getElem?_eq_getElem hl, List.getD_eq_getElem?_getD, List.getElem?_eq_getElem hl]
        rfl
  unfold Dkg.column
  rw [List.range_eq_range']
  exact key cap 0

theorem column_panic (m : AMap (VssP.Deal F G)) (cap k : Nat)
    (hb : ∀ i ∈ m.keys, i < cap) (hn : m.keys.Nodup) {l : List (Option (Share G))}
    (h : Dkg.column ((List.range cap).map (fun j => (m.get j).map (fun dl => dl.commitments))) k =
      .ok l) : ∀ e ∈ m, k < e.2.commitments.length := by
  have key : ∀ (n s : Nat) (l : List (Option (Share G))),
      (((List.range' s n).map (fun j => (m.get j).map (fun dl => dl.commitments))).zipIdx s).mapM
      (fun cj : Option (List G) × Nat => match cj.1 with
        | none => (.ok none : Res DkgError (Option (Share G)))
        | some cs => match cs[k]? with
          | none => .panic
          | some c => .ok (some ⟨cj.2, c⟩)) = .ok l →
      ∀ j, s ≤ j → j < s + n → ∀ dl, m.get j = some dl → k < dl.commitments.length := by
    intro n
    induction n with
    | zero => intro s l _ j h1 h2; omega
    | succ n ih =>
      intro s l hl j h1 h2 dl hdl
      rw [List.range'_succ, List.map_cons, List.zipIdx_cons, List.mapM_cons, Res.bind_eq_ok] at hl
      obtain ⟨x, hx, hl⟩ := hl
      rw [Res.bind_eq_ok] at hl
      obtain ⟨y, hy, -⟩ := hl
      rcases Nat.lt_or_ge s j with hlt | hge
      · exact ih (s + 1) y hy j (by omega) (by omega) dl hdl
      · have : s = j := by omega
        subst this
        by_contra hcon
        rw [hdl] at hx
        simp only [Option.map_some] at hx
        rw [List.getElem?_eq_none (by omega)] at hx
        cases hx
  unfold Dkg.column at h
  rw [List.range_eq_range'] at h
  intro e he
  have hk : e.1 ∈ m.keys := AMap.mem_keys.2 ⟨e.2, he⟩
  exact key cap 0 l h e.1 (by omega) (by have := hb e.1 hk; omega) e.2 (AMap.get_of_mem hn he)

/-! ### The key -/

/-- The share for zero from the deals of `K`. -/
def shareOf (m : AMap (VssP.Deal F G)) (K : Finset Nat) : F :=
  ∑ i ∈ K, weight F K i * dealVal m (fun dl => dl.secShare.v) i

/-- The commitments of the deal with index `i`. -/
def cmts (m : AMap (VssP.Deal F G)) (i : Nat) : List G :=
  ((m.get i).map (fun dl => dl.commitments)).getD []

end

section

variable [SMul F G]

/-- The commitments from the deals of `K`. -/
def commitsOf (m : AMap (VssP.Deal F G)) (K : Finset Nat) (len : Nat) : List G :=
  combine (F := F) K (cmts m) len

end

section

variable [SMul F G]

theorem dealVal_getD (m : AMap (VssP.Deal F G)) (i k : Nat) :
    dealVal m (fun dl => dl.commitments.getD k 0) i = (cmts m i).getD k 0 := by
  unfold dealVal cmts
  cases m.get i <;> simp

theorem mapM_ok {ε α β : Type} (f : α → Res ε β) (g : α → β) (l : List α)
    (h : ∀ a ∈ l, f a = .ok (g a)) : l.mapM f = .ok (l.map g) := by
  induction l with
  | nil => rfl
  | cons a l ih =>
    rw [List.mapM_cons, h a List.mem_cons_self, ih (fun b hb => h b (List.mem_cons_of_mem _ hb))]
    rfl

theorem mapM_mem {ε α β : Type} (f : α → Res ε β) (l : List α) (r : List β)
    (h : l.mapM f = .ok r) : ∀ a ∈ l, ∃ b, f a = .ok b := by
  induction l generalizing r with
  | nil => simp
  | cons a l ih =>
    rw [List.mapM_cons, Res.bind_eq_ok] at h
    obtain ⟨b, hb, h⟩ := h
    rw [Res.bind_eq_ok] at h
    obtain ⟨c, hc, -⟩ := h
    intro x hx
    rcases List.mem_cons.1 hx with rfl | hx
    · exact ⟨b, hb⟩
    · exact ih c hc x hx

theorem xy_lt_priPoly {ord : MapOrder} {shares : List (Option (Share F))} {t : Nat} {r : PriPoly F}
    (ht : 0 < t) (h : recoverPriPoly ord shares t = .ok r) : t ≤ (indices shares).card := by
  unfold recoverPriPoly at h
  simp only at h
  rw [Res.ite_err_eq_ok] at h
  have h1 := h.1
  rw [xy_length, if_neg (by omega)] at h1
  show t ≤ (idxSet shares).card
  omega

end

section

variable [SMul F G]

/-- What `resharing_key` does, with the deals `m` that the loop collects. -/
theorem resharingKey_spec (S : Suite F G) (ord : MapOrder) (d : Dkg F G)
    (hn : d.verifiers.keys.Nodup) (hb : ∀ i ∈ d.verifiers.keys, i < d.verifiers.length)
    (ht : 0 < d.oldT) (k : DistKeyShare F G) (m : AMap (VssP.Deal F G))
    (hm : m = collect (ord.run d.verifiers)) (K : Finset Nat)
    (hKd : K = firstT m.keys.toFinset d.oldT) :
    d.resharingKey S ord = .ok k ↔
      d.oldT ≤ m.keys.toFinset.card ∧ 0 < d.newT ∧
      (∀ e ∈ m, d.newT ≤ e.2.commitments.length) ∧
      shareOf m K • S.base = pointVal (commitsOf m K d.newT) ((d.nidx + 1 : Nat) : F) ∧
      k.commits = commitsOf m K d.newT ∧ k.share = ⟨d.nidx, shareOf m K⟩ ∧
      k.privatePoly.length = d.oldT ∧
      toPoly k.privatePoly = Lagrange.interpolate K (xc F) (dealVal m (fun dl => dl.secShare.v)) := by
  have hperm : ((ord.run d.verifiers).map Prod.fst).Perm d.verifiers.keys := (ord.perm _).map _
  have hsub := collect_keys_sub (ord.run d.verifiers)
  rw [← hm] at hsub
  have hmn : m.keys.Nodup := (hperm.nodup_iff.2 hn).sublist hsub
  have hmb : ∀ i ∈ m.keys, i < d.verifiers.length := fun i hi => hb i (hperm.subset (hsub.subset hi))
  have hlb : ∀ i ∈ (ord.run d.verifiers).map Prod.fst,
      i < (List.replicate d.verifiers.length (none : Option (List G))).length := by
    intro i hi
    rw [List.length_replicate]; exact hb i (hperm.subset hi)
  have hlp := reshareLoop_eq (ord.run d.verifiers) (List.replicate d.verifiers.length none)
    (List.replicate d.verifiers.length none) hlb
  rw [← hm] at hlp
  have e1 := foldl_set_replicate (fun i dl => (⟨i, dl.secShare.v⟩ : Share F)) m hmn _ hmb
  have e2 := foldl_set_replicate (fun _ dl => dl.commitments) m hmn _ hmb
  rw [e1, e2] at hlp
  set cap := d.verifiers.length with hcap
  set sh := (List.range cap).map (fun j => (m.get j).map (fun dl => (⟨j, dl.secShare.v⟩ : Share F)))
    with hsh
  set co := (List.range cap).map (fun j => (m.get j).map (fun dl => dl.commitments)) with hco
  have hidx : indices sh = m.keys.toFinset := indices_range_map m cap hmb (fun _ dl => dl.secShare.v)
  have hK : kset (xy F sh d.oldT).1 = K := by rw [kset_eq_firstT sh _ ht, hidx, hKd]
  have hy : ∀ j ∈ K, yval (xy F sh d.oldT).2 j = dealVal m (fun dl => dl.secShare.v) j := by
    rw [← hK]; exact yval_range_map m cap d.oldT (fun dl => dl.secShare.v)
  have hinter : Lagrange.interpolate (kset (xy F sh d.oldT).1) (xc F) (yval (xy F sh d.oldT).2) =
      Lagrange.interpolate K (xc F) (dealVal m (fun dl => dl.secShare.v)) := by
    rw [hK]; exact Lagrange.interpolate_eq_of_values_eq_on _ _ hy
  have hzero : (Lagrange.interpolate K (xc F) (dealVal m (fun dl => dl.secShare.v))).eval 0 =
      shareOf m K := by
    rw [Lagrange.interpolate_apply, Polynomial.eval_finsetSum]
    refine Finset.sum_congr rfl (fun i _ => ?_)
    rw [Polynomial.eval_mul, Polynomial.eval_C, ← lag0_eq_eval_basis, lag0_eq_weight, mul_comm]
  -- the columns
  have hcol : (∀ e ∈ m, d.newT ≤ e.2.commitments.length) → d.oldT ≤ m.keys.toFinset.card →
      (List.range d.newT).mapM (fun i => do
        let tmp ← Dkg.column co i
        (recoverCommit (F := F) ord tmp d.oldT).mapErr DkgError.poly) =
      .ok (commitsOf m K d.newT) := by
    intro hlen hcard
    refine mapM_ok _ _ _ (fun j hj => ?_)
    rw [List.mem_range] at hj
    rw [column_eq m cap j hmb (fun e he => lt_of_lt_of_le hj (hlen e he)), Res.bind_ok]
    have hidx' := indices_range_map m cap hmb (fun _ dl => dl.commitments.getD j 0)
    rw [recoverCommit_eq ord _ _ (by
      show d.oldT ≤ (indices _).card
      rw [hidx']; exact hcard), Res.mapErr_ok, kset_eq_firstT _ _ ht, hidx', ← hKd]
    congr 1
    refine Finset.sum_congr rfl (fun i hi => ?_)
    have := yval_range_map (F := F) m cap d.oldT (fun dl => dl.commitments.getD j 0) i (by
      rw [kset_eq_firstT _ _ ht, hidx', ← hKd]; exact hi)
    rw [this, dealVal_getD, lag0_eq_weight]
  have hcheck : ∀ cs : List G, cs ≠ [] → ∀ v : F,
      (⟨none, cs⟩ : PubPoly G).check S.base ⟨d.nidx, v⟩ =
        .ok (decide (pointVal cs ((d.nidx + 1 : Nat) : F) = v • S.base)) := by
    intro cs hcs v
    unfold PubPoly.check
    rw [pubEval_eq _ hcs]
    rfl
  have hcheck0 : ∀ v : F, ∀ b, (⟨none, []⟩ : PubPoly G).check S.base ⟨d.nidx, v⟩ ≠ .ok b := by
    intro v b h
    cases h
  have hne : 0 < d.newT → commitsOf m K d.newT ≠ [] := by
    intro h h'
    have := congrArg List.length h'
    simp [commitsOf, combine] at this
    omega
  unfold Dkg.resharingKey
  simp only
  rw [hlp, Res.bind_ok]
  simp only
  constructor
  · intro h
    simp only [Res.bind_eq_ok, Res.mapErr_eq_ok] at h
    obtain ⟨pp, hpp, sec, hsec, cs, hcs, ok, hok, h⟩ := h
    have hcard : d.oldT ≤ m.keys.toFinset.card := hidx ▸ xy_lt_priPoly ht hpp
    obtain ⟨r, hr, hrl, hrp⟩ := recoverPriPoly_spec ord sh d.oldT (by
      show d.oldT ≤ (indices sh).card
      rw [hidx]; exact hcard) ht
    rw [hpp] at hr; cases hr
    have hlen : ∀ e ∈ m, d.newT ≤ e.2.commitments.length := by
      intro e he
      by_contra hlt
      have hj := mapM_mem _ _ _ hcs (d.newT - 1) (List.mem_range.2 (by omega))
      obtain ⟨b, hj⟩ := hj
      rw [Res.bind_eq_ok] at hj
      obtain ⟨tmp, htmp, -⟩ := hj
      have := column_panic m cap _ hmb hmn htmp e he
      omega
    have hcs' := hcol hlen hcard
    rw [hcs] at hcs'
    cases hcs'
    have hpos : 0 < d.newT := by
      by_contra h0
      have : commitsOf m K d.newT = [] := by
        have : d.newT = 0 := by omega
        rw [this]; rfl
      rw [this] at hok
      exact hcheck0 _ _ hok
    have hsecv : sec = shareOf m K := by
      rw [← hzero, ← hinter, ← hrp, eval_zero_toPoly]
      unfold PriPoly.secret at hsec
      rw [Res.unwrap_eq_ok] at hsec
      cases hc : pp.coeffs with
      | nil => rw [hc] at hsec; cases hsec
      | cons a l => rw [hc] at hsec; cases hsec; rfl
    rw [hcheck _ (hne hpos)] at hok
    cases hok
    rw [Res.ite_err_eq_ok] at h
    obtain ⟨h1, h2⟩ := h
    cases h2
    simp only [Bool.not_eq_false, decide_eq_true_eq] at h1
    subst hsecv
    exact ⟨hcard, hpos, hlen, h1.symm, rfl, rfl, hrl, hrp.trans hinter⟩
  · rintro ⟨hcard, hpos, hlen, hchk, h1, h2, h3, h4⟩
    obtain ⟨r, hr, hrl, hrp⟩ := recoverPriPoly_spec ord sh d.oldT (by
      show d.oldT ≤ (indices sh).card
      rw [hidx]; exact hcard) ht
    have hrk : r.coeffs = k.privatePoly :=
      toPoly_injective (hrl.trans h3.symm) (by rw [hrp, hinter, h4])
    have hsec : r.secret = .ok (shareOf m K) := by
      unfold PriPoly.secret
      have : r.coeffs.headD 0 = shareOf m K := by
        rw [← hzero, ← hinter, ← hrp, eval_zero_toPoly]
      rw [Res.unwrap_eq_ok]
      cases hc : r.coeffs with
      | nil => rw [hc] at hrl; simp at hrl; omega
      | cons a l => rw [hc] at this; simpa using this
    rw [hr, Res.mapErr_ok, Res.bind_ok, hsec, Res.mapErr_ok, Res.bind_ok, hcol hlen hcard, Res.bind_ok,
      hcheck _ (hne hpos), Res.mapErr_ok, Res.bind_ok, hchk]
    simp only [decide_true, Bool.true_eq_false, if_false]
    rw [hrk]
    obtain ⟨kc, ks, kp⟩ := k
    simp only at h1 h2
    rw [h1, h2]

end

end Kyber.DkgP
