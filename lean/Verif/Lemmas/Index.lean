/-
Lemmas about the machine arithmetic of share indices (`Model/Index.lean`).
-/
import Verif.Model.Index
import Verif.Lemmas.Shamir
import Mathlib.Algebra.CharP.Basic

namespace Kyber.Poly

open Polynomial Kyber.Spec

variable {F G α : Type} [Field F]

theorem recoverCoord_eq_evalCoord (i : Nat) : recoverCoord i = evalCoord i := by
  unfold recoverCoord evalCoord asI64 USIZE
  push_cast
  omega

/-- The coordinate, spelled out. -/
theorem evalCoord_eq {i : Nat} (h : i < USIZE) :
    evalCoord i = if i + 1 < 2 ^ 63 then ((i : Int) + 1) else (i : Int) + 1 - 2 ^ 64 := by
  unfold evalCoord asI64
  unfold USIZE at h
  split <;> omega

theorem evalCoord_inj {i j : Nat} (hi : i < USIZE) (hj : j < USIZE) (q : Nat) [CharP F q]
    (hq : USIZE ≤ q) (h : (evalCoord i : F) = (evalCoord j : F)) : i = j := by
  rw [CharP.intCast_eq_intCast F q, Int.modEq_iff_dvd] at h
  have h1 := evalCoord_eq hi
  have h2 := evalCoord_eq hj
  have h3 : evalCoord j - evalCoord i = 0 := by
    apply Int.eq_zero_of_abs_lt_dvd h
    unfold USIZE at *
    rw [abs_lt]
    split at h1 <;> split at h2 <;> constructor <;> omega
  unfold USIZE at *
  split at h1 <;> split at h2 <;> omega

theorem evalCoord_zero {i : Nat} (hi : i < USIZE) (q : Nat) [CharP F q] (hq : USIZE ≤ q) :
    (evalCoord i : F) = 0 ↔ i = USIZE - 1 := by
  constructor
  · intro h
    rw [CharP.intCast_eq_zero_iff F q] at h
    have h1 := evalCoord_eq hi
    have h3 : evalCoord i = 0 := by
      apply Int.eq_zero_of_abs_lt_dvd h
      unfold USIZE at *
      rw [abs_lt]
      split at h1 <;> constructor <;> omega
    unfold USIZE at *
    split at h1 <;> omega
  · rintro rfl
    have : evalCoord (USIZE - 1) = 0 := by decide
    rw [this]; simp

/-- The coordinate as a scalar. -/
def xc64 (F : Type) [Field F] (i : Nat) : F := (evalCoord i : F)

theorem insert_map_coord (c : Nat → F) (x : AMap F) (k : Nat) (v : F) :
    AMap.insert (x.map (fun e => (e.1, c e.1))) k (c k) =
      (x.insert k v).map (fun e => (e.1, c e.1)) := by
  induction x with
  | nil => rfl
  | cons e x ih =>
    obtain ⟨a, b⟩ := e
    simp only [List.map_cons, AMap.insert]
    split
    · simp
    · simp only [List.map_cons, ih]

theorem xyLoop64_eq (t : Nat) (ss : List (Share α)) (x : AMap F) (y : AMap α) :
    xyLoop64 F t ss (x.map (fun e => (e.1, xc64 F e.1))) y =
      ((xyLoop F t ss x y).1.map (fun e => (e.1, xc64 F e.1)), (xyLoop F t ss x y).2) := by
  induction ss generalizing x y with
  | nil => rfl
  | cons s ss ih =>
    simp only [xyLoop64, xyLoop, recoverCoord_eq_evalCoord]
    have h := insert_map_coord (xc64 F) x s.i (xc F s.i)
    have h' : AMap.insert (x.map (fun e => (e.1, xc64 F e.1))) s.i (evalCoord s.i : F) =
      (x.insert s.i (xc F s.i)).map (fun e => (e.1, xc64 F e.1)) := h
    rw [h', List.length_map]
    split
    · rfl
    · exact ih _ _

/-- Only the coordinates differ from the idealised collection. -/
theorem xy64_eq (shares : List (Option (Share α))) (t : Nat) :
    xy64 F shares t = ((xy F shares t).1.map (fun e => (e.1, xc64 F e.1)), (xy F shares t).2) :=
  xyLoop64_eq t _ [] []

theorem keys_map_coord (c : Nat → F) (x : AMap F) :
    AMap.keys (x.map (fun e => (e.1, c e.1))) = x.keys := by
  simp [AMap.keys, Function.comp_def]

theorem kset_map_coord (c : Nat → F) (x : AMap F) :
    kset (x.map (fun e => (e.1, c e.1))) = kset x := by
  unfold kset; rw [keys_map_coord]

theorem lagNumDen_at (c : Nat → F) (ord : MapOrder) {x : AMap F} (hn : x.keys.Nodup)
    (hx : ∀ e ∈ x, e.2 = c e.1) (n : F) (i : Nat) (xi : F) :
    lagNumDen n (ord.run x) i xi =
      (n * ∏ j ∈ (kset x).erase i, c j, ∏ j ∈ (kset x).erase i, (c j - xi)) := by
  have h1 : ∀ (l : List (Nat × F)) (a b : F), (∀ e ∈ l, e.2 = c e.1) →
      l.foldl (fun nd e => if i = e.1 then nd else (nd.1 * e.2, nd.2 * (e.2 - xi))) (a, b) =
      (a * (((l.map Prod.fst).filter (fun k => decide (k ≠ i))).map c).prod,
       b * (((l.map Prod.fst).filter (fun k => decide (k ≠ i))).map (fun j => c j - xi)).prod) := by
    intro l
    induction l with
    | nil => intro a b _; simp
    | cons e l ih =>
      intro a b h
      rw [List.foldl_cons]
      by_cases hi : i = e.1
      · rw [if_pos hi, ih _ _ (fun e' he' => h e' (by simp [he']))]
        simp [hi]
      · have hi' : e.1 ≠ i := fun h => hi h.symm
        rw [if_neg hi, ih _ _ (fun e' he' => h e' (by simp [he'])), h e (by simp)]
        simp [hi', mul_assoc]
  unfold lagNumDen
  rw [h1 _ _ _ (fun e he => hx e ((ord.perm x).mem_iff.1 he))]
  have hnd := (run_keys_nodup ord hn).filter (fun k => decide (k ≠ i))
  have hset : (((ord.run x).map Prod.fst).filter (fun k => decide (k ≠ i))).toFinset =
      (kset x).erase i := by
    ext k
    rw [← run_toFinset ord x]
    simp [and_comm]
  rw [← List.prod_toFinset _ hnd, ← List.prod_toFinset _ hnd, hset, one_mul]

/-- The Lagrange coefficient at zero for given coordinates. -/
def lagAt (c : Nat → F) (S : Finset Nat) (i : Nat) : F :=
  (∏ j ∈ S.erase i, c j) / ∏ j ∈ S.erase i, (c j - c i)

theorem lagAt_eq_eval_basis (c : Nat → F) (S : Finset Nat) (i : Nat) :
    lagAt c S i = (Lagrange.basis S c i).eval 0 := by
  unfold lagAt Lagrange.basis Lagrange.basisDivisor
  rw [eval_prod, ← Finset.prod_div_distrib]
  refine Finset.prod_congr rfl (fun j _ => ?_)
  simp only [eval_mul, eval_C, eval_sub, eval_X]
  rw [div_eq_mul_inv, ← neg_sub, inv_neg]; ring

/-- A point at zero gets the whole weight. -/
theorem lagAt_zero (c : Nat → F) {S : Finset Nat} {m : Nat} (hm : m ∈ S) (h0 : c m = 0)
    (hne : ∀ i ∈ S, i ≠ m → c i ≠ 0) (i : Nat) (hi : i ∈ S) :
    lagAt c S i = if i = m then 1 else 0 := by
  unfold lagAt
  split
  · rename_i h
    subst h
    rw [h0]
    simp only [sub_zero]
    exact div_self (Finset.prod_ne_zero_iff.2 (fun j hj =>
      hne j (Finset.mem_of_mem_erase hj) (Finset.ne_of_mem_erase hj)))
  · rename_i h
    rw [Finset.prod_eq_zero (Finset.mem_erase.2 ⟨fun h' => h h'.symm, hm⟩) h0, zero_div]

theorem xy64_facts (shares : List (Option (Share α))) (t : Nat) :
    (xy64 F shares t).2.keys = (xy64 F shares t).1.keys ∧ (xy64 F shares t).1.keys.Nodup ∧
    (∀ e ∈ (xy64 F shares t).1, e.2 = xc64 F e.1) ∧
    kset (xy64 F shares t).1 = kset (xy F shares t).1 ∧
    (xy64 F shares t).2 = (xy F shares t).2 ∧
    (xy64 F shares t).1.length = (xy F shares t).1.length := by
  obtain ⟨hk, hn, -, -, -, -⟩ := xy_spec (F := F) shares t
  rw [xy64_eq]
  simp only [keys_map_coord, kset_map_coord]
  refine ⟨hk, hn, ?_, trivial, trivial, by simp⟩
  intro e he
  obtain ⟨e', -, rfl⟩ := List.mem_map.1 he
  rfl

theorem recoverSecret64_eq (ord : MapOrder) (shares : List (Option (Share F))) (t : Nat)
    (h : t ≤ (idxSet shares).card) :
    recoverSecret64 ord shares t = .ok (∑ k ∈ kset (xy F shares t).1,
      yval (xy F shares t).2 k * lagAt (xc64 F) (kset (xy F shares t).1) k) := by
  obtain ⟨hk, hn, hx, h4, h5, h6⟩ := xy64_facts (F := F) shares t
  have hlen : ¬ (xy64 F shares t).1.length < t := by
    rw [h6, xy_length]; split <;> omega
  unfold recoverSecret64
  simp only [hlen, if_false]
  rw [← h4, ← h5]
  rw [Res.foldlM_ok (g := fun acc e => acc + yval (xy64 F shares t).2 e.1 *
    lagAt (xc64 F) (kset (xy64 F shares t).1) e.1)]
  · rw [foldl_add_eq_sum ord hn (fun k => yval (xy64 F shares t).2 k *
      lagAt (xc64 F) (kset (xy64 F shares t).1) k) _ (fun _ _ => rfl), zero_add]
  · intro b e he
    have he' := (ord.perm _).mem_iff.1 he
    have hmem : e.1 ∈ (xy64 F shares t).2.keys := by
      rw [hk]; exact AMap.mem_keys.2 ⟨e.2, he'⟩
    obtain ⟨v, hv⟩ := AMap.get_of_mem_keys hmem
    have hyv : yval (xy64 F shares t).2 e.1 = v := by simp [yval, hv]
    rw [hv, Res.unwrap_some, Res.bind_ok, lagNumDen_at (xc64 F) ord hn hx, hx e he', hyv]
    simp [lagAt, mul_div_assoc]

theorem recoverCommit64_eq [AddCommGroup G] [SMul F G] (ord : MapOrder)
    (shares : List (Option (Share G))) (t : Nat) (h : t ≤ (idxSet shares).card) :
    recoverCommit64 (F := F) ord shares t = .ok (∑ k ∈ kset (xy F shares t).1,
      lagAt (xc64 F) (kset (xy F shares t).1) k • yval (xy F shares t).2 k) := by
  obtain ⟨hk, hn, hx, h4, h5, h6⟩ := xy64_facts (F := F) shares t
  have hlen : ¬ (xy64 F shares t).1.length < t := by
    rw [h6, xy_length]; split <;> omega
  unfold recoverCommit64
  simp only [hlen, if_false]
  rw [← h4, ← h5]
  rw [Res.foldlM_ok (g := fun acc e => acc + lagAt (xc64 F) (kset (xy64 F shares t).1) e.1 •
    yval (xy64 F shares t).2 e.1)]
  · rw [foldl_add_eq_sum ord hn (fun k => lagAt (xc64 F) (kset (xy64 F shares t).1) k •
      yval (xy64 F shares t).2 k) _ (fun _ _ => rfl), zero_add]
  · intro b e he
    have he' := (ord.perm _).mem_iff.1 he
    have hmem : e.1 ∈ (xy64 F shares t).2.keys := by
      rw [hk]; exact AMap.mem_keys.2 ⟨e.2, he'⟩
    obtain ⟨v, hv⟩ := AMap.get_of_mem_keys hmem
    have hyv : yval (xy64 F shares t).2 e.1 = v := by simp [yval, hv]
    rw [hv, Res.unwrap_some, Res.bind_ok, lagNumDen_at (xc64 F) ord hn hx, hx e he', hyv]
    simp [lagAt]

theorem eval64_v (p : PriPoly F) (i : Nat) : (p.eval64 i).v = polyVal p.coeffs (evalCoord i : F) := by
  rw [polyVal_eq, eval_toPoly]; rfl

/-- A polynomial of degree below the number of points is determined at zero by its values. -/
theorem sum_lagAt (c : Nat → F) (S : Finset Nat) (hc : Set.InjOn c S) (secret : F) (cs : List F)
    (hl : (secret :: cs).length ≤ S.card) :
    ∑ k ∈ S, polyVal (secret :: cs) (c k) * lagAt c S k = secret := by
  have hint : Lagrange.interpolate S c (fun k => polyVal (secret :: cs) (c k)) = toPoly (secret :: cs) := by
    symm
    apply Lagrange.eq_interpolate_of_eval_eq _ hc
    · refine lt_of_lt_of_le (degree_toPoly_lt _) ?_
      exact_mod_cast hl
    · intro k _; rw [polyVal_eq]
  have h0 := congrArg (Polynomial.eval 0) hint
  rw [eval_zero_toPoly, Lagrange.interpolate_apply, Polynomial.eval_finsetSum] at h0
  simpa only [Polynomial.eval_mul, Polynomial.eval_C, List.headD_cons, ← lagAt_eq_eval_basis] using h0

/-- Any values at distinct nonzero coordinates are compatible with any secret. -/
theorem exists_poly_at (c : Nat → F) (S : Finset Nat) (hc : Set.InjOn c S) (h0 : ∀ i ∈ S, c i ≠ 0)
    (obs : Nat → F) (secret : F) (t : Nat) (ht : S.card < t) :
    ∃ cs : List F, (secret :: cs).length = t ∧ ∀ i ∈ S, polyVal (secret :: cs) (c i) = obs i := by
  classical
  let nodes : Finset (Option Nat) := insert none (S.map ⟨some, Option.some_injective _⟩)
  let v : Option Nat → F := fun o => o.elim 0 c
  let r : Option Nat → F := fun o => o.elim secret obs
  have hinj : Set.InjOn v nodes := by
    intro a ha b hb hab
    simp only [nodes, Finset.coe_insert, Finset.coe_map, Function.Embedding.coeFn_mk,
      Set.mem_insert_iff, Set.mem_image, Finset.mem_coe] at ha hb
    rcases ha with rfl | ⟨a, ha, rfl⟩ <;> rcases hb with rfl | ⟨b, hb, rfl⟩
    · rfl
    · exact absurd hab.symm (h0 b hb)
    · exact absurd hab (h0 a ha)
    · congr 1
      exact hc ha hb hab
  have hcard : nodes.card = S.card + 1 := by
    simp [nodes]
  have hdeg : (Lagrange.interpolate nodes v r).degree < (t : Nat) := by
    refine lt_of_lt_of_le (Lagrange.degree_interpolate_lt r hinj) ?_
    rw [hcard]; exact_mod_cast ht
  obtain ⟨cs, hl, hcs⟩ := exists_coeffs _ t hdeg
  cases cs with
  | nil => simp at hl; omega
  | cons s cs =>
    have hs : s = secret := by
      have h1 := Lagrange.eval_interpolate_at_node r hinj (i := none) (by simp [nodes])
      rw [← hcs] at h1
      simpa [v, r] using h1
    subst hs
    refine ⟨cs, hl, fun i hi => ?_⟩
    have h1 := Lagrange.eval_interpolate_at_node r hinj (i := some i) (by simp [nodes, hi])
    rw [← hcs] at h1
    rw [polyVal_eq]
    exact h1

end Kyber.Poly
