/-
Helper lemmas about the model of `poly.rs`.
-/
import Verif.Model.Poly
import Verif.Lemmas.Basic
import Mathlib.LinearAlgebra.Lagrange

namespace Kyber.Poly

open Polynomial

variable {F G : Type} [Field F]

/-! ### The collection loop -/

section xy

variable {α : Type}

theorem xyLoop_spec (t : Nat) (ss : List (Share α)) (x : AMap F) (y : AMap α)
    (hk : y.keys = x.keys) (hn : x.keys.Nodup) (hx : ∀ e ∈ x, e.2 = xc F e.1)
    (ht : x.length < t ∨ t = 0) :
    let r := xyLoop F t ss x y
    r.2.keys = r.1.keys ∧ r.1.keys.Nodup ∧ (∀ e ∈ r.1, e.2 = xc F e.1) ∧
    (∀ k ∈ r.1.keys, k ∈ x.keys ∨ ∃ s ∈ ss, s.i = k) ∧
    (∀ e ∈ r.2, e ∈ y ∨ ∃ s ∈ ss, s.i = e.1 ∧ s.v = e.2) ∧
    (∀ k ∈ x.keys, k ∈ r.1.keys) ∧
    ((r.1.length = t ∧ 0 < t) ∨ ((r.1.length < t ∨ t = 0) ∧ ∀ s ∈ ss, s.i ∈ r.1.keys)) := by
  induction ss generalizing x y with
  | nil => simp [xyLoop, hk, hn, ht]; exact fun a b h => hx _ h
  | cons s ss ih =>
    have hk' : (y.insert s.i s.v).keys = (x.insert s.i (xc F s.i)).keys := by
      rw [AMap.keys_insert, AMap.keys_insert, hk]
    have hn' := AMap.nodup_insert hn s.i (xc F s.i)
    have hx' : ∀ e ∈ x.insert s.i (xc F s.i), e.2 = xc F e.1 := by
      rintro ⟨a, b⟩ he
      rcases AMap.mem_insert he with ⟨rfl, rfl⟩ | he
      · rfl
      · exact hx _ he
    simp only [xyLoop]
    by_cases hl : (x.insert s.i (xc F s.i)).length = t
    · rw [if_pos hl]
      refine ⟨hk', hn', hx', ?_, ?_, ?_, ?_⟩
      · intro k hkm
        rcases AMap.mem_keys_insert.1 hkm with rfl | h
        · exact Or.inr ⟨s, by simp, rfl⟩
        · exact Or.inl h
      · rintro ⟨a, b⟩ he
        rcases AMap.mem_insert he with ⟨rfl, rfl⟩ | he
        · exact Or.inr ⟨s, by simp, rfl, rfl⟩
        · exact Or.inl he
      · intro k hkm; exact AMap.mem_keys_insert.2 (Or.inr hkm)
      · left
        refine ⟨hl, ?_⟩
        rw [← hl, ← AMap.length_keys]
        exact List.length_pos_of_mem (AMap.mem_keys_insert.2 (Or.inl rfl))
    · rw [if_neg hl]
      have ht' : (x.insert s.i (xc F s.i)).length < t ∨ t = 0 := by
        rcases ht with ht | ht
        · left
          have := AMap.length_insert x s.i (xc F s.i)
          split at this <;> omega
        · exact Or.inr ht
      obtain ⟨h1, h2, h3, h4, h5, h6, h7⟩ := ih _ _ hk' hn' hx' ht'
      refine ⟨h1, h2, h3, ?_, ?_, ?_, ?_⟩
      · intro k hkm
        rcases h4 k hkm with h | ⟨s', hs', h⟩
        · rcases AMap.mem_keys_insert.1 h with rfl | h
          · exact Or.inr ⟨s, by simp, rfl⟩
          · exact Or.inl h
        · exact Or.inr ⟨s', by simp [hs'], h⟩
      · rintro ⟨a, b⟩ he
        rcases h5 _ he with h | ⟨s', hs', h⟩
        · rcases AMap.mem_insert h with ⟨rfl, rfl⟩ | he
          · exact Or.inr ⟨s, by simp, rfl, rfl⟩
          · exact Or.inl he
        · exact Or.inr ⟨s', by simp [hs'], h⟩
      · intro k hkm; exact h6 _ (AMap.mem_keys_insert.2 (Or.inr hkm))
      · rcases h7 with h7 | ⟨h7, h8⟩
        · exact Or.inl h7
        · refine Or.inr ⟨h7, ?_⟩
          intro s' hs'
          rcases List.mem_cons.1 hs' with rfl | hs'
          · exact h6 _ (AMap.mem_keys_insert.2 (Or.inl rfl))
          · exact h8 _ hs'

/-- The set of indices occurring in a list of share options. -/
def idxSet (shares : List (Option (Share α))) : Finset Nat :=
  ((shares.filterMap id).map Share.i).toFinset

theorem mem_idxSet {shares : List (Option (Share α))} {k : Nat} :
    k ∈ idxSet shares ↔ ∃ s, some s ∈ shares ∧ s.i = k := by
  simp [idxSet]

theorem insertShare_perm {α : Type} (s : Share α) (l : List (Share α)) :
    (insertShare s l).Perm (s :: l) := by
  induction l with
  | nil => exact List.Perm.refl _
  | cons b l ih =>
    unfold insertShare
    split
    · exact List.Perm.refl _
    · exact (ih.cons b).trans (List.Perm.swap s b l)

theorem sortShares_perm {α : Type} (l : List (Share α)) : (sortShares l).Perm l := by
  induction l with
  | nil => exact List.Perm.refl _
  | cons s l ih => exact (insertShare_perm s _).trans (ih.cons s)

theorem insertShare_sorted {α : Type} (s : Share α) (l : List (Share α))
    (h : l.Pairwise (fun a b => a.i ≤ b.i)) :
    (insertShare s l).Pairwise (fun a b => a.i ≤ b.i) := by
  induction l with
  | nil => simp [insertShare]
  | cons b l ih =>
    rw [List.pairwise_cons] at h
    unfold insertShare
    split
    · rename_i hsb
      refine List.pairwise_cons.2 ⟨fun c hc => ?_, List.pairwise_cons.2 h⟩
      rcases List.mem_cons.1 hc with rfl | hc
      · exact hsb
      · exact le_trans hsb (h.1 c hc)
    · rename_i hsb
      refine List.pairwise_cons.2 ⟨fun c hc => ?_, ih h.2⟩
      rcases List.mem_cons.1 ((insertShare_perm s l).mem_iff.1 hc) with rfl | hc
      · omega
      · exact h.1 c hc

theorem sortShares_sorted {α : Type} (l : List (Share α)) :
    (sortShares l).Pairwise (fun a b => a.i ≤ b.i) := by
  induction l with
  | nil => exact List.Pairwise.nil
  | cons s l ih => exact insertShare_sorted s _ ih


/-- What `xy` returns. -/
theorem xy_spec (shares : List (Option (Share α))) (t : Nat) :
    let r := xy F shares t
    r.2.keys = r.1.keys ∧ r.1.keys.Nodup ∧ (∀ e ∈ r.1, e.2 = xc F e.1) ∧
    (∀ k ∈ r.1.keys, k ∈ idxSet shares) ∧
    (∀ e ∈ r.2, ∃ s, some s ∈ shares ∧ s.i = e.1 ∧ s.v = e.2) ∧
    ((r.1.length = t ∧ 0 < t) ∨ ((r.1.length < t ∨ t = 0) ∧ ∀ k ∈ idxSet shares, k ∈ r.1.keys)) := by
  have hmem : ∀ s, s ∈ sortShares (shares.filterMap id) ↔
      some s ∈ shares := by
    intro s; rw [(sortShares_perm _).mem_iff]; simp
  have ht : ([] : AMap F).length < t ∨ t = 0 := by simp; omega
  obtain ⟨h1, h2, h3, h4, h5, -, h7⟩ := xyLoop_spec t
    (sortShares (shares.filterMap id))
    ([] : AMap F) ([] : AMap α) rfl (by simp) (by simp) ht
  refine ⟨h1, h2, h3, ?_, ?_, ?_⟩
  · intro k hk
    rcases h4 k hk with h | ⟨s, hs, h⟩
    · simp at h
    · exact mem_idxSet.2 ⟨s, (hmem s).1 hs, h⟩
  · intro e he
    rcases h5 e he with h | ⟨s, hs, h⟩
    · simp at h
    · exact ⟨s, (hmem s).1 hs, h⟩
  · rcases h7 with h7 | ⟨h7, h8⟩
    · exact Or.inl h7
    · refine Or.inr ⟨h7, ?_⟩
      intro k hk
      obtain ⟨s, hs, rfl⟩ := mem_idxSet.1 hk
      exact h8 s ((hmem s).2 hs)

/-- The number of collected points. -/
theorem xy_length (shares : List (Option (Share α))) (t : Nat) :
    (xy F shares t).1.length = if t = 0 then (idxSet shares).card else min t (idxSet shares).card := by
  obtain ⟨-, h2, -, h4, -, h6⟩ := xy_spec (F := F) shares t
  have hcard : (xy F shares t).1.length = (xy F shares t).1.keys.toFinset.card := by
    rw [List.toFinset_card_of_nodup h2, AMap.length_keys]
  have hsub : (xy F shares t).1.keys.toFinset ⊆ idxSet shares := by
    intro k hk; exact h4 k (by simpa using hk)
  have hle := Finset.card_le_card hsub
  rcases h6 with ⟨h, h0⟩ | ⟨h, hall⟩
  · rw [if_neg (by omega)]; omega
  · have heq : (xy F shares t).1.keys.toFinset = idxSet shares := by
      apply Finset.Subset.antisymm hsub
      intro k hk; simpa using hall k hk
    rw [heq] at hcard
    split <;> omega

end xy

/-! ### Folds over the map in an arbitrary order -/

/-- The keys of a map as a set. -/
def kset {α : Type} (m : AMap α) : Finset Nat := m.keys.toFinset

@[simp] theorem mem_kset {α : Type} {m : AMap α} {k : Nat} : k ∈ kset m ↔ k ∈ m.keys := by
  simp [kset]

theorem run_keys_perm (ord : MapOrder) {α : Type} (m : AMap α) :
    ((ord.run m).map Prod.fst).Perm m.keys := (ord.perm m).map _

theorem run_keys_nodup (ord : MapOrder) {α : Type} {m : AMap α} (h : m.keys.Nodup) :
    ((ord.run m).map Prod.fst).Nodup := (run_keys_perm ord m).nodup_iff.2 h

theorem run_toFinset (ord : MapOrder) {α : Type} (m : AMap α) :
    ((ord.run m).map Prod.fst).toFinset = kset m := by
  ext k; simp only [List.mem_toFinset, (run_keys_perm ord m).mem_iff, mem_kset]

theorem foldl_add_eq_sum {α M : Type} [AddCommMonoid M] (ord : MapOrder) {m : AMap α}
    (hn : m.keys.Nodup) (f : Nat → M) (g : Nat × α → M) (hg : ∀ e ∈ m, g e = f e.1) (a : M) :
    (ord.run m).foldl (fun acc e => acc + g e) a = a + ∑ k ∈ kset m, f k := by
  have h1 : ∀ (l : List (Nat × α)) (a : M), (∀ e ∈ l, g e = f e.1) →
      l.foldl (fun acc e => acc + g e) a = a + ((l.map Prod.fst).map f).sum := by
    intro l
    induction l with
    | nil => intro a _; simp
    | cons e l ih =>
      intro a h
      rw [List.foldl_cons, ih _ (fun e' he' => h e' (by simp [he'])), h e (by simp)]
      simp [add_assoc]
  rw [h1 _ _ (fun e he => hg e ((ord.perm m).mem_iff.1 he)), ← run_toFinset ord m,
    List.sum_toFinset _ (run_keys_nodup ord hn)]

theorem lagNumDen_eq (ord : MapOrder) {x : AMap F} (hn : x.keys.Nodup)
    (hx : ∀ e ∈ x, e.2 = xc F e.1) (n : F) (i : Nat) (xi : F) :
    lagNumDen n (ord.run x) i xi =
      (n * ∏ j ∈ (kset x).erase i, xc F j, ∏ j ∈ (kset x).erase i, (xc F j - xi)) := by
  have h1 : ∀ (l : List (Nat × F)) (a b : F), (∀ e ∈ l, e.2 = xc F e.1) →
      l.foldl (fun nd e => if i = e.1 then nd else (nd.1 * e.2, nd.2 * (e.2 - xi))) (a, b) =
      (a * (((l.map Prod.fst).filter (fun k => decide (k ≠ i))).map (xc F)).prod,
       b * (((l.map Prod.fst).filter (fun k => decide (k ≠ i))).map (fun j => xc F j - xi)).prod) := by
    intro l
    induction l with
    | nil => intro a b _; simp
    | cons e l ih =>
      intro a b h
      rw [List.foldl_cons]
      by_cases hi : i = e.1
      · rw [if_pos hi, ih _ _ (fun e' he' => h e' (by simp [he']))]
        simp [hi]
      · have hi' : e.1 ≠ i := fun h => hi h.symm
        rw [if_neg hi, ih _ _ (fun e' he' => h e' (by simp [he'])), h e (by simp)]
        simp [hi', mul_assoc]
  unfold lagNumDen
  rw [h1 _ _ _ (fun e he => hx e ((ord.perm x).mem_iff.1 he))]
  have hnd := (run_keys_nodup ord hn).filter (fun k => decide (k ≠ i))
  have hset : (((ord.run x).map Prod.fst).filter (fun k => decide (k ≠ i))).toFinset =
      (kset x).erase i := by
    ext k
    rw [← run_toFinset ord x]
    simp [and_comm]
  rw [← List.prod_toFinset _ hnd, ← List.prod_toFinset _ hnd, hset, one_mul]

/-- The Lagrange coefficient at zero. -/
def lag0 (F : Type) [Field F] (S : Finset Nat) (i : Nat) : F :=
  (∏ j ∈ S.erase i, xc F j) / ∏ j ∈ S.erase i, (xc F j - xc F i)

theorem lag0_eq_eval_basis (S : Finset Nat) (i : Nat) :
    lag0 F S i = (Lagrange.basis S (xc F) i).eval 0 := by
  unfold lag0 Lagrange.basis Lagrange.basisDivisor
  rw [eval_prod, ← Finset.prod_div_distrib]
  refine Finset.prod_congr rfl (fun j _ => ?_)
  simp only [eval_mul, eval_C, eval_sub, eval_X]
  rw [div_eq_mul_inv, ← neg_sub, inv_neg]; ring

/-- Value stored for index `k`. -/
def yval {α : Type} [Zero α] (y : AMap α) (k : Nat) : α := (y.get k).getD 0

theorem recoverSecret_eq (ord : MapOrder) (shares : List (Option (Share F))) (t : Nat)
    (h : t ≤ (idxSet shares).card) :
    recoverSecret ord shares t = .ok ((Lagrange.interpolate (kset (xy F shares t).1) (xc F)
      (yval (xy F shares t).2)).eval 0) := by
  obtain ⟨hk, hn, hx, -, -, -⟩ := xy_spec (F := F) shares t
  have hlen : ¬ (xy F shares t).1.length < t := by
    rw [xy_length]; split <;> omega
  unfold recoverSecret
  simp only [hlen, if_false]
  rw [Res.foldlM_ok (g := fun acc e => acc + yval (xy F shares t).2 e.1 *
    lag0 F (kset (xy F shares t).1) e.1)]
  · rw [foldl_add_eq_sum ord hn (fun k => yval (xy F shares t).2 k * lag0 F (kset (xy F shares t).1) k)
      _ (fun _ _ => rfl), zero_add, Lagrange.interpolate_apply, eval_finsetSum]
    congr 1
    refine Finset.sum_congr rfl (fun k _ => ?_)
    rw [lag0_eq_eval_basis, eval_mul, eval_C]
  · intro b e he
    have he' := (ord.perm _).mem_iff.1 he
    have hmem : e.1 ∈ (xy F shares t).2.keys := by
      rw [hk]; exact AMap.mem_keys.2 ⟨e.2, he'⟩
    obtain ⟨v, hv⟩ := AMap.get_of_mem_keys hmem
    have hyv : yval (xy F shares t).2 e.1 = v := by simp [yval, hv]
    rw [hv, Res.unwrap_some, Res.bind_ok, lagNumDen_eq ord hn hx, hx e he', hyv]
    simp [lag0, mul_div_assoc]

theorem recoverCommit_eq [AddCommGroup G] [SMul F G] (ord : MapOrder)
    (shares : List (Option (Share G))) (t : Nat) (h : t ≤ (idxSet shares).card) :
    recoverCommit (F := F) ord shares t = .ok (∑ k ∈ kset (xy F shares t).1,
      lag0 F (kset (xy F shares t).1) k • yval (xy F shares t).2 k) := by
  obtain ⟨hk, hn, hx, -, -, -⟩ := xy_spec (F := F) shares t
  have hlen : ¬ (xy F shares t).1.length < t := by
    rw [xy_length]; split <;> omega
  unfold recoverCommit
  simp only [hlen, if_false]
  rw [Res.foldlM_ok (g := fun acc e => acc + lag0 F (kset (xy F shares t).1) e.1 •
    yval (xy F shares t).2 e.1)]
  · rw [foldl_add_eq_sum ord hn (fun k => lag0 F (kset (xy F shares t).1) k •
      yval (xy F shares t).2 k) _ (fun _ _ => rfl), zero_add]
  · intro b e he
    have he' := (ord.perm _).mem_iff.1 he
    have hmem : e.1 ∈ (xy F shares t).2.keys := by
      rw [hk]; exact AMap.mem_keys.2 ⟨e.2, he'⟩
    obtain ⟨v, hv⟩ := AMap.get_of_mem_keys hmem
    have hyv : yval (xy F shares t).2 e.1 = v := by simp [yval, hv]
    rw [hv, Res.unwrap_some, Res.bind_ok, lagNumDen_eq ord hn hx, hx e he', hyv]
    simp [lag0]

/-! ### Coefficient lists and polynomials -/

/-- The polynomial with the given coefficients, constant term first. -/
noncomputable def toPoly (l : List F) : F[X] := l.foldr (fun c p => C c + X * p) 0

@[simp] theorem toPoly_nil : toPoly ([] : List F) = 0 := rfl
@[simp] theorem toPoly_cons (c : F) (l : List F) : toPoly (c :: l) = C c + X * toPoly l := rfl

theorem eval_toPoly (l : List F) (x : F) :
    (toPoly l).eval x = l.foldr (fun c v => v * x + c) 0 := by
  induction l with
  | nil => simp
  | cons c l ih => simp [ih]; ring

theorem eval_eq (p : PriPoly F) (i : Nat) : (p.eval i).v = (toPoly p.coeffs).eval (xc F i) := by
  rw [eval_toPoly]; rfl

theorem coeff_toPoly (l : List F) (k : Nat) : (toPoly l).coeff k = l.getD k 0 := by
  induction l generalizing k with
  | nil => simp
  | cons c l ih =>
    cases k with
    | zero => simp
    | succ k => simp [ih]

theorem degree_toPoly_lt (l : List F) : (toPoly l).degree < l.length := by
  rw [degree_lt_iff_coeff_zero]
  intro m hm
  rw [coeff_toPoly]; simp [hm]

theorem toPoly_injective {l l' : List F} (hl : l.length = l'.length) (h : toPoly l = toPoly l') :
    l = l' := by
  apply List.ext_getElem hl
  intro k h1 h2
  have := congrArg (fun p => p.coeff k) h
  simpa [coeff_toPoly, h1, h2] using this

theorem toPoly_add {l l' : List F} (hl : l.length = l'.length) :
    toPoly (List.zipWith (· + ·) l l') = toPoly l + toPoly l' := by
  induction l generalizing l' with
  | nil => cases l' with
    | nil => simp
    | cons _ _ => simp at hl
  | cons c l ih => cases l' with
    | nil => simp at hl
    | cons c' l' =>
      simp only [List.length_cons, Nat.add_right_cancel_iff] at hl
      simp [ih hl]; ring

theorem toPoly_map_mul (l : List F) (a : F) : toPoly (l.map (· * a)) = toPoly l * C a := by
  induction l with
  | nil => simp
  | cons c l ih => simp [ih]; ring

theorem toPoly_set {l : List F} {k : Nat} (hk : k < l.length) (v : F) :
    toPoly (l.set k v) = toPoly l + C (v - l[k]) * X ^ k := by
  induction l generalizing k with
  | nil => simp at hk
  | cons c l ih =>
    cases k with
    | zero => simp; ring
    | succ k =>
      simp only [List.length_cons, Nat.add_lt_add_iff_right] at hk
      simp only [List.set_cons_succ, toPoly_cons, ih hk, List.getElem_cons_succ]
      ring

theorem toPoly_replicate_zero (n : Nat) : toPoly (List.replicate n (0 : F)) = 0 := by
  induction n with
  | zero => simp
  | succ n ih => simp [List.replicate_succ, ih]

theorem toPoly_append (l l' : List F) : toPoly (l ++ l') = toPoly l + X ^ l.length * toPoly l' := by
  induction l with
  | nil => simp
  | cons c l ih => simp [ih]; ring

/-- `PriPoly::mul` computes the product. -/
theorem mul_spec (p q : PriPoly F) (hp : p.coeffs ≠ []) (hq : q.coeffs ≠ []) :
    ∃ r, p.mul q = .ok r ∧ r.coeffs.length = p.coeffs.length + q.coeffs.length - 1 ∧
      toPoly r.coeffs = toPoly p.coeffs * toPoly q.coeffs := by
  have hp' : 0 < p.coeffs.length := List.length_pos_iff.2 hp
  have hq' : 0 < q.coeffs.length := List.length_pos_iff.2 hq
  -- inner loop
  have inner : ∀ (cp : F) (i : Nat) (acc : List F), i < p.coeffs.length →
      acc.length = p.coeffs.length + q.coeffs.length - 1 →
      ∃ r, q.coeffs.zipIdx.foldlM (fun acc cj => addAt acc (i + cj.2) (cp * cj.1)) acc = .ok r ∧
        (r.length = p.coeffs.length + q.coeffs.length - 1 ∧
          toPoly r = toPoly acc + C cp * X ^ i * toPoly q.coeffs) := by
    intro cp i acc hi hacc
    have := Res.foldlM_inv (f := fun acc cj => addAt acc (i + cj.2) (cp * cj.1))
      (fun done (r : List F) => r.length = p.coeffs.length + q.coeffs.length - 1 ∧
        toPoly r = toPoly acc + C cp * X ^ i * toPoly (done.map Prod.fst))
      (l := q.coeffs.zipIdx) (b := acc) ⟨hacc, by simp⟩ ?_
    · simpa using this
    · intro done a rest b hl hP
      have hpos : a.2 = done.length ∧ done.length < q.coeffs.length := by
        have h1 : q.coeffs.zipIdx[done.length]? = some a := by rw [hl]; simp
        rw [List.getElem?_zipIdx] at h1
        rw [Option.map_eq_some_iff] at h1
        obtain ⟨c, hc, hca⟩ := h1
        have := (List.getElem?_eq_some_iff.1 hc).1
        exact ⟨by rw [← hca]; simp, this⟩
      have hlt : i + a.2 < b.length := by rw [hP.1]; omega
      refine ⟨b.set (i + a.2) (b[i + a.2] + cp * a.1), ?_, ?_, ?_⟩
      · simp [addAt, List.getElem?_eq_getElem hlt]
      · simp [hP.1]
      · rw [toPoly_set hlt, hP.2, List.map_append, toPoly_append, List.length_map,
          add_sub_cancel_left, hpos.1]
        simp
        ring
  have outer := Res.foldlM_inv (ε := PolyError)
    (f := fun acc ci => q.coeffs.zipIdx.foldlM
      (fun acc cj => addAt acc (ci.2 + cj.2) (ci.1 * cj.1)) acc)
    (fun done (r : List F) => r.length = p.coeffs.length + q.coeffs.length - 1 ∧
      toPoly r = toPoly (done.map Prod.fst) * toPoly q.coeffs)
    (l := p.coeffs.zipIdx)
    (b := List.replicate (p.coeffs.length + q.coeffs.length - 1) (0 : F))
    ⟨by simp, by simp [toPoly_replicate_zero]⟩ (by
      intro done a rest b hl hP
      have hpos : a.2 = done.length ∧ done.length < p.coeffs.length := by
        have h1 : p.coeffs.zipIdx[done.length]? = some a := by rw [hl]; simp
        rw [List.getElem?_zipIdx] at h1
        rw [Option.map_eq_some_iff] at h1
        obtain ⟨c, hc, hca⟩ := h1
        have := (List.getElem?_eq_some_iff.1 hc).1
        exact ⟨by rw [← hca]; simp, this⟩
      obtain ⟨r, h1, h2, h3⟩ := inner a.1 a.2 b (by omega) hP.1
      refine ⟨r, h1, h2, ?_⟩
      rw [h3, hP.2, List.map_append, toPoly_append, List.length_map, hpos.1]
      simp
      ring)
  obtain ⟨r, h1, h2, h3⟩ := outer
  refine ⟨⟨r⟩, ?_, h2, ?_⟩
  · unfold PriPoly.mul
    rw [if_neg (by omega)]
    simp only [h1, Res.bind_ok]
  · simpa using h3

/-- `lagrange_basis` computes the Lagrange basis polynomial. -/
theorem lagrangeBasis_spec (ord : MapOrder) {x : AMap F} (hn : x.keys.Nodup)
    (hx : ∀ e ∈ x, e.2 = xc F e.1) {i : Nat} (hi : i ∈ x.keys) :
    ∃ r, lagrangeBasis ord i x = .ok r ∧ r.coeffs.length = x.length ∧
      toPoly r.coeffs = Lagrange.basis (kset x) (xc F) i := by
  obtain ⟨xi, hxi⟩ := AMap.get_of_mem_keys hi
  have hxi' : xi = xc F i := hx _ (AMap.mem_of_get hxi)
  obtain ⟨r, h1, h2, h3, h4⟩ := Res.foldlM_inv (ε := PolyError)
    (f := fun (s : PriPoly F × F) (e : Nat × F) =>
      if i = e.1 then .ok s
      else do
        let b ← s.1.mul (minusConst e.2)
        let xi ← Res.unwrap (x.get i)
        .ok (b, s.2 * (xi - e.2)⁻¹))
    (fun done (s : PriPoly F × F) =>
      s.1.coeffs.length = ((done.map Prod.fst).filter (fun k => decide (k ≠ i))).length + 1 ∧
      toPoly s.1.coeffs =
        (((done.map Prod.fst).filter (fun k => decide (k ≠ i))).map (fun j => X - C (xc F j))).prod ∧
      s.2 = (((done.map Prod.fst).filter (fun k => decide (k ≠ i))).map
        (fun j => (xc F i - xc F j)⁻¹)).prod)
    (l := ord.run x) (b := ((⟨[1]⟩ : PriPoly F), (1 : F))) (by simp) (by
      intro done e rest s hl hP
      have hex : e.2 = xc F e.1 := by
        apply hx e
        rw [← (ord.perm x).mem_iff, hl]; simp
      by_cases hie : i = e.1
      · refine ⟨s, by simp [hie], ?_⟩
        simpa [hie] using hP
      · have hie' : e.1 ≠ i := fun h => hie h.symm
        obtain ⟨b, hb1, hb2, hb3⟩ := mul_spec s.1 (minusConst e.2)
          (by intro h; rw [h] at hP; simp at hP) (by simp [minusConst])
        refine ⟨(b, s.2 * (xc F i - e.2)⁻¹), ?_, ?_, ?_, ?_⟩
        · simp [hie, hb1, hxi, hxi']
        · rw [hb2, hP.1]; simp [minusConst, hie']
        · rw [hb3, hP.2.1]
          have : toPoly (minusConst e.2).coeffs = X - C (xc F e.1) := by
            simp [minusConst, hex]; ring
          rw [this]; simp [hie']
        · rw [hP.2.2]; simp [hie', hex])
  refine ⟨⟨r.1.coeffs.map (· * r.2)⟩, ?_, ?_, ?_⟩
  · unfold lagrangeBasis
    rw [h1]; rfl
  · have hcount : ((ord.run x).map Prod.fst).filter (fun k => decide (k ≠ i)) =
        ((ord.run x).map Prod.fst).erase i := by
      rw [(run_keys_nodup ord hn).erase_eq_filter]
      apply List.filter_congr; intro k _; by_cases h : k = i <;> simp [h]
    have hmem : i ∈ (ord.run x).map Prod.fst := (run_keys_perm ord x).mem_iff.2 hi
    have hpos : 0 < x.length := by
      rw [← AMap.length_keys]; exact List.length_pos_of_mem hi
    simp only [List.length_map, h2, hcount, List.length_erase_of_mem hmem, (ord.perm x).length_eq]
    omega
  · have hnd := (run_keys_nodup ord hn).filter (fun k => decide (k ≠ i))
    have hset : (((ord.run x).map Prod.fst).filter (fun k => decide (k ≠ i))).toFinset =
        (kset x).erase i := by
      ext k
      rw [← run_toFinset ord x]
      simp [and_comm]
    rw [toPoly_map_mul, h3, h4, ← List.prod_toFinset _ hnd, ← List.prod_toFinset _ hnd, hset]
    unfold Lagrange.basis Lagrange.basisDivisor
    rw [map_prod, ← Finset.prod_mul_distrib]
    exact Finset.prod_congr rfl (fun j _ => mul_comm _ _)

theorem add_ok {p q : PriPoly F} (h : p.coeffs.length = q.coeffs.length) :
    p.add q = .ok ⟨List.zipWith (· + ·) p.coeffs q.coeffs⟩ := by
  unfold PriPoly.add PriPoly.threshold
  rw [if_neg (by simp [h])]

/-- `recover_pri_poly` returns the coefficients of the interpolation polynomial. -/
theorem recoverPriPoly_spec (ord : MapOrder) (shares : List (Option (Share F))) (t : Nat)
    (h : t ≤ (idxSet shares).card) (ht : 0 < t) :
    ∃ r, recoverPriPoly ord shares t = .ok r ∧ r.coeffs.length = t ∧
      toPoly r.coeffs = Lagrange.interpolate (kset (xy F shares t).1) (xc F)
        (yval (xy F shares t).2) := by
  obtain ⟨hk, hn, hx, -, -, -⟩ := xy_spec (F := F) shares t
  have hlen : (xy F shares t).1.length = t := by
    rw [xy_length]; split <;> omega
  set x := (xy F shares t).1 with hxdef
  set y := (xy F shares t).2 with hydef
  obtain ⟨r, h1, h2⟩ := Res.foldlM_inv (ε := PolyError)
    (f := fun (acc : PriPoly F) (e : Nat × F) => do
      let basis ← lagrangeBasis ord e.1 x
      let yj ← Res.unwrap (y.get e.1)
      let basis : PriPoly F := ⟨basis.coeffs.map (· * yj)⟩
      if acc.coeffs.isEmpty then .ok basis else acc.add basis)
    (fun done (acc : PriPoly F) =>
      (done = [] → acc.coeffs = []) ∧ (done ≠ [] → acc.coeffs.length = t) ∧
      toPoly acc.coeffs = ((done.map Prod.fst).map
        (fun k => C (yval y k) * Lagrange.basis (kset x) (xc F) k)).sum)
    (l := ord.run x) (b := ⟨[]⟩) (by simp) (by
      intro done e rest acc hl hP
      have he : e ∈ x := by rw [← (ord.perm x).mem_iff, hl]; simp
      have hek : e.1 ∈ x.keys := AMap.mem_keys.2 ⟨e.2, he⟩
      obtain ⟨bas, hb1, hb2, hb3⟩ := lagrangeBasis_spec ord hn hx hek
      obtain ⟨v, hv⟩ := AMap.get_of_mem_keys (m := y) (by rw [hk]; exact hek)
      have hyv : yval y e.1 = v := by simp [yval, hv]
      by_cases hd : done = []
      · have hacc := hP.1 hd
        refine ⟨⟨bas.coeffs.map (· * v)⟩, ?_, ?_, ?_, ?_⟩
        · simp [hb1, hv, hacc]
        · simp
        · intro _; simp [hb2, hlen]
        · rw [toPoly_map_mul, hb3]; simp [hd, hyv, mul_comm]
      · have hacc := hP.2.1 hd
        have hne : acc.coeffs.isEmpty = false := by
          cases hc : acc.coeffs with
          | nil => rw [hc] at hacc; simp at hacc; omega
          | cons _ _ => rfl
        have hll : acc.coeffs.length = (bas.coeffs.map (· * v)).length := by
          simp [hacc, hb2, hlen]
        refine ⟨⟨List.zipWith (· + ·) acc.coeffs (bas.coeffs.map (· * v))⟩, ?_, ?_, ?_, ?_⟩
        · simp only [hb1, hv, Res.bind_ok, Res.unwrap_some, hne]
          exact add_ok hll
        · simp
        · intro _; simp [hacc, hb2, hlen]
        · rw [toPoly_add hll, hP.2.2, toPoly_map_mul, hb3]
          simp [hyv, mul_comm])
  have hne : ord.run x ≠ [] := by
    intro h0
    have := (ord.perm x).length_eq
    rw [h0] at this; simp at this; omega
  refine ⟨r, ?_, h2.2.1 hne, ?_⟩
  · have hlen' : ¬ ((xy F shares t).1.length ≠ t) := by simpa using hlen
    unfold recoverPriPoly
    simp only [hlen', if_false]
    exact h1
  · rw [h2.2.2, Lagrange.interpolate_apply, ← run_toFinset ord x,
      List.sum_toFinset _ (run_keys_nodup ord hn)]

/-! ### Genuine shares -/

/-- The interpolation of `t` genuine shares of a polynomial with `t` coefficients is the
polynomial itself. -/
theorem interpolate_genuine (p : PriPoly F) (S : Finset Nat) (hS : Set.InjOn (xc F) S)
    (hc : p.coeffs.length ≤ S.card) (y : Nat → F) (hy : ∀ k ∈ S, y k = (p.eval k).v) :
    Lagrange.interpolate S (xc F) y = toPoly p.coeffs := by
  symm
  apply Lagrange.eq_interpolate_of_eval_eq y hS
  · refine lt_of_lt_of_le (degree_toPoly_lt p.coeffs) ?_
    exact_mod_cast hc
  · intro k hk; rw [hy k hk, eval_eq]

theorem eval_zero_toPoly (l : List F) : (toPoly l).eval 0 = l.headD 0 := by
  cases l <;> simp

end Kyber.Poly
