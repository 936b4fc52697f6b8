/-
Property C145: what a changing coalition sees over any number of resharings (`src/share/dkg/pedersen/dkg.rs`,
`src/share/poly.rs`). The scalars drawn by `pick` are taken to be uniform and independent, so that likelihood is the
number of draws. The commitments, which are public and determine the secret, are left out, and so are the encrypted
deals between parties outside the coalition.
-/
import Verif.Props.Secrecy
import Verif.Props.DkgEpochs
import Verif.Lemmas.Dss

set_option linter.unusedSectionVars false

namespace Kyber.Spec

open Kyber.Poly

/-- A resharing: the holders that deal, the new threshold, and the new holders that the adversary controls until the
next one. -/
structure Period where
  dealers : Finset Nat
  t : Nat
  coalition : Finset Nat

/-- What is drawn in the resharings: for each dealer the coefficients above the constant one. -/
def Redraws (F : Type) : List Period → Type
  | [] => Unit
  | p :: ps => (p.dealers → Drawn F (p.t - 1)) × Redraws F ps

/-- What the adversary gets: the shares of the holders it controls; in a resharing also what these draw and the shares
dealt to the new holders it controls. -/
def View (F : Type) : List Period → Finset Nat → Type
  | [], C => C → F
  | p :: ps, C => (C → F) × ({ j : p.dealers // j.1 ∈ C } → Drawn F (p.t - 1)) ×
      (p.dealers → p.coalition → F) × View F ps p.coalition

/-- Fewer holders than the threshold are controlled at any time, each resharing has enough dealers, and the indices are
smaller than the group order `q`. -/
def Limited (q : Nat) : List Period → Nat → Finset Nat → Prop
  | [], t, C => C.card < t ∧ ∀ i ∈ C, i + 1 < q
  | p :: ps, t, C => (C.card < t ∧ ∀ i ∈ C, i + 1 < q) ∧ t ≤ p.dealers.card ∧ (∀ j ∈ p.dealers, j < q) ∧
      Limited q ps p.t p.coalition

/-- In some period as many holders as the threshold are controlled; the resharings until then have enough dealers. -/
def Reached (q : Nat) : List Period → Nat → Finset Nat → Prop
  | [], t, C => t ≤ C.card ∧ ∀ i ∈ C, i < q
  | p :: ps, t, C => (t ≤ C.card ∧ ∀ i ∈ C, i < q) ∨
      (0 < t ∧ t ≤ p.dealers.card ∧ (∀ j ∈ p.dealers, j < q) ∧ 0 < p.t ∧ Reached q ps p.t p.coalition)

variable {F : Type} [Field F]

/-- The polynomial that holder `j` of `f` deals: its share is the constant coefficient. -/
def dealtPoly (f : List F) (j : Nat) {k : Nat} (g : Drawn F k) : List F := ((⟨f⟩ : PriPoly F).eval j).v :: g.1

/-- The polynomial of the new shares. -/
def resharedPoly (f : List F) (p : Period) (g : p.dealers → Drawn F (p.t - 1)) : List F :=
  combine (F := F) (firstT p.dealers f.length)
    (fun j => if h : j ∈ p.dealers then dealtPoly f j (g ⟨j, h⟩) else []) p.t

/-- The view of the adversary when the first polynomial is `f`. -/
def seen : (ps : List Period) → (C : Finset Nat) → List F → Redraws F ps → View F ps C
  | [], _, f, _ => fun i => ((⟨f⟩ : PriPoly F).eval i.1).v
  | p :: ps, _, f, r => (fun i => ((⟨f⟩ : PriPoly F).eval i.1).v, fun j => r.1 j.1,
      fun j i => ((⟨dealtPoly f j.1 (r.1 j)⟩ : PriPoly F).eval i.1).v,
      seen ps p.coalition (resharedPoly f p r.1) r.2)

end Kyber.Spec

namespace Kyber.Props

open Kyber Kyber.Poly Kyber.Spec Kyber.DkgP

variable {F G : Type} [Field F]

theorem zipWith_add_getD {a b : List F} (h : a.length = b.length) (k : Nat) :
    (List.zipWith (· + ·) a b).getD k 0 = a.getD k 0 + b.getD k 0 := by
  rw [List.getD_eq_getElem?_getD, List.getD_eq_getElem?_getD, List.getD_eq_getElem?_getD]
  by_cases hk : k < a.length
  · rw [List.getElem?_eq_getElem (by simp; omega), List.getElem?_eq_getElem hk, List.getElem?_eq_getElem (by omega)]
    simp
  · rw [List.getElem?_eq_none (by simp; omega), List.getElem?_eq_none (by omega), List.getElem?_eq_none (by omega)]
    simp

theorem map_mul_getD (c : F) (l : List F) (k : Nat) : (l.map (c * ·)).getD k 0 = c * l.getD k 0 := by
  rw [List.getD_eq_getElem?_getD, List.getD_eq_getElem?_getD, List.getElem?_map]
  cases l[k]? <;> simp

theorem length_resharedPoly (f : List F) (p : Period) (g : p.dealers → Drawn F (p.t - 1)) :
    (resharedPoly f p g).length = p.t := by
  simp [resharedPoly, combine]

theorem dealtPoly_shift (f v : List F) (hv : v.length = f.length) (j : Nat) {k : Nat} (w g : Drawn F k) :
    dealtPoly (List.zipWith (· + ·) f v) j (translate
      ⟨w.1.map (polyVal v ((j + 1 : Nat) : F) * ·), by rw [List.length_map, w.2]⟩ g) =
      List.zipWith (· + ·) (dealtPoly f j g) ((1 :: w.1).map (polyVal v ((j + 1 : Nat) : F) * ·)) := by
  unfold dealtPoly
  rw [eval_v, eval_v, polyVal_zipWith_add hv.symm]
  simp [translate]

/-- Moving the shared polynomial along `v` and the drawn ones along multiples of `w` moves the new polynomial along a
multiple of `w`. -/
theorem resharedPoly_shift (q : Nat) [CharP F q] (f v : List F) (hv : v.length = f.length) (hf : 0 < f.length)
    (p : Period) (hc : f.length ≤ p.dealers.card) (hd : ∀ j ∈ p.dealers, j < q) (ht : 1 ≤ p.t)
    (w : Drawn F (p.t - 1)) (g : p.dealers → Drawn F (p.t - 1)) :
    resharedPoly (List.zipWith (· + ·) f v) p (fun j => translate
      ⟨w.1.map (polyVal v ((j.1 + 1 : Nat) : F) * ·), by rw [List.length_map, w.2]⟩ (g j)) =
    List.zipWith (· + ·) (resharedPoly f p g) ((1 :: w.1).map (v.getD 0 0 * ·)) := by
  have hl : (List.zipWith (· + ·) f v).length = f.length := by simp [hv]
  have hlr : (resharedPoly f p g).length = ((1 :: w.1).map (v.getD 0 0 * ·)).length := by
    rw [length_resharedPoly, List.length_map, List.length_cons, w.2]; omega
  have hll : (resharedPoly (List.zipWith (· + ·) f v) p (fun j => translate
      ⟨w.1.map (polyVal v ((j.1 + 1 : Nat) : F) * ·), by rw [List.length_map, w.2]⟩ (g j))).length =
      (List.zipWith (· + ·) (resharedPoly f p g) ((1 :: w.1).map (v.getD 0 0 * ·))).length := by
    rw [List.length_zipWith, ← hlr, length_resharedPoly, length_resharedPoly, min_self]
  have hK : Set.InjOn (xc F) (firstT p.dealers f.length) :=
    xc_injOn q _ (fun i hi => hd i (firstT_subset _ _ hi))
  have hw := weights_polyVal _ hK v (by rw [card_firstT _ _ hf hc, hv])
  refine List.ext_getElem hll (fun k h1 h2 => ?_)
  have hk : k < p.t := by rwa [length_resharedPoly] at h1
  have e : ∀ (l : List F) (h : k < l.length), l[k] = l.getD k 0 := fun l h => by
    rw [List.getD_eq_getElem?_getD, List.getElem?_eq_getElem h]; rfl
  rw [e _ h1, e _ h2, zipWith_add_getD hlr]
  unfold resharedPoly
  rw [hl, combine_getD _ _ _ _ hk, combine_getD _ _ _ _ hk]
  rw [map_mul_getD, ← hw, Finset.sum_mul, ← Finset.sum_add_distrib]
  refine Finset.sum_congr rfl (fun j hj => ?_)
  have hj := firstT_subset _ _ hj
  rw [dif_pos hj, dif_pos hj]
  have e1 := dealtPoly_shift f v hv j w (g ⟨j, hj⟩)
  rw [e1, zipWith_add_getD (by simp [dealtPoly, (g ⟨j, hj⟩).2, w.2]), smul_eq_mul, smul_eq_mul, mul_add,
    map_mul_getD, mul_assoc]

theorem translate_zero {n : Nat} (w : Drawn F n) (h : (w.1.map ((0 : F) * ·)).length = n) (g : Drawn F n) :
    translate ⟨w.1.map ((0 : F) * ·), h⟩ g = g := by
  obtain ⟨w, hw⟩ := w
  obtain ⟨g, hg⟩ := g
  refine Subtype.ext ?_
  simp only [translate, Equiv.coe_fn_mk]
  refine List.ext_getElem (by simp [hg, hw]) (fun i h1 h2 => by simp)

/-- C145: when the shared polynomial is moved along one that vanishes on the coalition, the draws of all resharings
correspond one to one such that the adversary sees the same. -/
theorem C145_shift (q : Nat) [CharP F q] (ps : List Period) : ∀ (t : Nat) (C : Finset Nat), Limited q ps t C →
    ∀ v : List F, v.length = t → (∀ i ∈ C, polyVal v ((i + 1 : Nat) : F) = 0) →
    ∃ e : Redraws F ps ≃ Redraws F ps, ∀ (f : List F), f.length = t → ∀ r,
      seen ps C (List.zipWith (· + ·) f v) (e r) = seen ps C f r := by
  induction ps with
  | nil =>
    intro t C h v hv hC
    refine ⟨Equiv.refl _, fun f hf r => funext fun i => ?_⟩
    change ((⟨List.zipWith (· + ·) f v⟩ : PriPoly F).eval i.1).v = ((⟨f⟩ : PriPoly F).eval i.1).v
    rw [eval_v, eval_v, polyVal_zipWith_add (by omega), hC i.1 i.2, add_zero]
  | cons p ps ih =>
    intro t C ⟨⟨hc, hCq⟩, hd, hdq, hL⟩ v hv hC
    have hL' : p.coalition.card < p.t ∧ ∀ i ∈ p.coalition, i + 1 < q := by
      cases ps with
      | nil => exact hL
      | cons p' ps => exact hL.1
    obtain ⟨w, hw⟩ := exists_shift q p.t (by omega) p.coalition hL'.2 hL'.1 (1 : F)
    obtain ⟨e, he⟩ := ih p.t p.coalition hL ((1 :: w.1).map (v.getD 0 0 * ·))
      (by rw [List.length_map, List.length_cons, w.2]; omega)
      (fun i hi => by rw [Dss.polyVal_map_mul, hw i hi, mul_zero])
    refine ⟨(Equiv.piCongrRight fun j : p.dealers => translate
      ⟨w.1.map (polyVal v ((j.1 + 1 : Nat) : F) * ·), by rw [List.length_map, w.2]⟩).prodCongr e, fun f hf r => ?_⟩
    obtain ⟨r1, r2⟩ := r
    have h2 := resharedPoly_shift q f v (by omega) (by omega) p (by omega) hdq (by omega) w r1
    have h3 := he (resharedPoly f p r1) (length_resharedPoly f p r1) r2
    rw [← h2] at h3
    refine Prod.ext (funext fun i => ?_) (Prod.ext (funext fun j => ?_) (Prod.ext (funext fun j => funext fun i => ?_) h3))
    · change ((⟨List.zipWith (· + ·) f v⟩ : PriPoly F).eval i.1).v = ((⟨f⟩ : PriPoly F).eval i.1).v
      rw [eval_v, eval_v, polyVal_zipWith_add (by omega), hC i.1 i.2, add_zero]
    · change translate ⟨w.1.map (polyVal v ((j.1.1 + 1 : Nat) : F) * ·), _⟩ (r1 j.1) = r1 j.1
      have h0 := hC j.1.1 j.2
      simp only [h0]
      exact translate_zero w _ _
    · change ((⟨dealtPoly (List.zipWith (· + ·) f v) j.1 (translate
        ⟨w.1.map (polyVal v ((j.1 + 1 : Nat) : F) * ·), by rw [List.length_map, w.2]⟩ (r1 j))⟩ : PriPoly F).eval i.1).v =
        ((⟨dealtPoly f j.1 (r1 j)⟩ : PriPoly F).eval i.1).v
      have e1 : dealtPoly (List.zipWith (· + ·) f v) j.1 (translate
          ⟨w.1.map (polyVal v ((j.1 + 1 : Nat) : F) * ·), by rw [List.length_map, w.2]⟩ (r1 j)) =
          List.zipWith (· + ·) (dealtPoly f j.1 (r1 j)) ((1 :: w.1).map (polyVal v ((j.1 + 1 : Nat) : F) * ·)) :=
        dealtPoly_shift f v (by omega) j.1 w (r1 j)
      rw [eval_v, eval_v, e1, polyVal_zipWith_add (by simp [dealtPoly, (r1 j).2, w.2]), Dss.polyVal_map_mul, hw i.1 i.2,
        mul_zero, add_zero]

/-- C145: whatever an adversary sees that controls fewer holders than the threshold in each period, as many draws of
the first dealer and of all dealers of all resharings lead to it with one secret as with any other. -/
theorem C145_count (q : Nat) [CharP F q] (ps : List Period) (t : Nat) (C : Finset Nat) (h : Limited q ps t C)
    (secret secret' : F) (observed : View F ps C) :
    Nat.card { r : Drawn F (t - 1) × Redraws F ps // seen ps C (secret :: r.1.1) r.2 = observed } =
    Nat.card { r : Drawn F (t - 1) × Redraws F ps // seen ps C (secret' :: r.1.1) r.2 = observed } := by
  have hC : C.card < t ∧ ∀ i ∈ C, i + 1 < q := by
    cases ps with
    | nil => exact h
    | cons p ps => exact h.1
  obtain ⟨cs, hcs⟩ := exists_shift q t (by omega) C hC.2 hC.1 (secret' - secret)
  obtain ⟨e, he⟩ := C145_shift q ps t C h ((secret' - secret) :: cs.1)
    (by rw [List.length_cons, cs.2]; omega) hcs
  refine Nat.card_congr (((translate cs).prodCongr e).subtypeEquiv (fun r => ?_))
  have h1 := he (secret :: r.1.1) (by rw [List.length_cons, r.1.2]; omega) r.2
  have h2 : List.zipWith (· + ·) (secret :: r.1.1) ((secret' - secret) :: cs.1) =
      secret' :: (translate cs r.1).1 := by
    simp [translate]
  rw [h2] at h1
  change _ ↔ seen ps C (secret' :: (translate cs r.1).1) (e r.2) = observed
  rw [h1]

theorem resharedPoly_head (q : Nat) [CharP F q] (f : List F) (hf : 0 < f.length) (p : Period)
    (hc : f.length ≤ p.dealers.card) (hd : ∀ j ∈ p.dealers, j < q) (ht : 0 < p.t)
    (g : p.dealers → Drawn F (p.t - 1)) : (resharedPoly f p g).getD 0 0 = f.getD 0 0 := by
  have hK : Set.InjOn (xc F) (firstT p.dealers f.length) :=
    xc_injOn q _ (fun i hi => hd i (firstT_subset _ _ hi))
  unfold resharedPoly
  rw [combine_getD _ _ _ 0 ht, ← weights_polyVal _ hK f (by rw [card_firstT _ _ hf hc])]
  refine Finset.sum_congr rfl (fun j hj => ?_)
  rw [dif_pos (firstT_subset _ _ hj)]
  unfold dealtPoly
  rw [eval_v]
  rfl

/-- C145: the bound is sharp. Once as many holders as the threshold are controlled in one period, what is seen
determines the secret. -/
theorem C145_reached (q : Nat) [CharP F q] (ps : List Period) : ∀ (t : Nat) (C : Finset Nat), Reached q ps t C →
    ∀ (f f' : List F) (r r' : Redraws F ps), f.length = t → f'.length = t → seen ps C f r = seen ps C f' r' →
    f.getD 0 0 = f'.getD 0 0 := by
  induction ps with
  | nil =>
    intro t C ⟨h1, h2⟩ f f' r r' hf hf' he
    rw [polyVal_inj q C h2 (hf.trans hf'.symm) (hf.trans_le h1) (fun i hi => by
      have : ((⟨f⟩ : PriPoly F).eval i).v = ((⟨f'⟩ : PriPoly F).eval i).v := congrFun he ⟨i, hi⟩
      rwa [eval_v, eval_v] at this)]
  | cons p ps ih =>
    intro t C h f f' r r' hf hf' he
    rcases h with ⟨h1, h2⟩ | ⟨h1, h2, h3, h4, h5⟩
    · rw [polyVal_inj q C h2 (hf.trans hf'.symm) (hf.trans_le h1) (fun i hi => by
        have : ((⟨f⟩ : PriPoly F).eval i).v = ((⟨f'⟩ : PriPoly F).eval i).v := congrFun (congrArg Prod.fst he) ⟨i, hi⟩
        rwa [eval_v, eval_v] at this)]
    · have := ih p.t p.coalition h5 (resharedPoly f p r.1) (resharedPoly f' p r'.1) r.2 r'.2
        (length_resharedPoly _ _ _) (length_resharedPoly _ _ _)
        (congrArg (fun v : View F (p :: ps) C => v.2.2.2) he)
      rwa [resharedPoly_head q f (by omega) p (by omega) h3 h4,
        resharedPoly_head q f' (by omega) p (by omega) h3 h4] at this

theorem finite_drawn [Finite F] (n : Nat) : Finite (Drawn F n) :=
  inferInstanceAs (Finite (List.Vector F n))

/-- The numbers that `C145_count` compares are those of finite sets. -/
theorem finite_redraws [Finite F] : (ps : List Period) → Finite (Redraws F ps)
  | [] => inferInstanceAs (Finite Unit)
  | p :: ps => by
    have := finite_redraws ps
    have := finite_drawn (F := F) (p.t - 1)
    exact inferInstanceAs (Finite ((p.dealers → Drawn F (p.t - 1)) × Redraws F ps))

variable [AddCommGroup G] [DecidableEq G] [SMul F G]

/-- C145: the resharing of the code deals these shares, and the new shares (`C142_silent`, `C143_epochs`) are those
of this polynomial. -/
theorem C145_model (E : DkgEnv F G) (N : ReNet F G) (h : N.Honest E) (ht : N.t ≠ 0) (A D : Finset Nat)
    (hA : ∀ j ∈ A, j < N.n) :
    ∃ g : A → Drawn F (N.t - 1), (∀ j, (g j).1 = (N.draws j.1).take (N.t - 1)) ∧
      (∀ (j : A) (i : Nat), i < N.m → ∃ dl, (N.O j.1).dealer.deals[i]? = some dl ∧
        dl.secShare = (⟨dealtPoly N.f j.1 (g j)⟩ : PriPoly F).eval i) ∧
      newPolyOn N A N.t = resharedPoly N.f ⟨A, N.t, D⟩ g := by
  have hd : ∀ j ∈ A, N.t - 1 ≤ (N.draws j).length ∧ ∀ i < N.m, ∃ dl, (N.O j).dealer.deals[i]? = some dl ∧
      dl.secShare = (⟨polyVal N.f ((j + 1 : Nat) : F) :: (N.draws j).take (N.t - 1)⟩ : PriPoly F).eval i := by
    intro j hj
    obtain ⟨o1, -, -, -, -, -, -, -, o9⟩ := old_start h (hA j hj)
    rw [if_pos ht] at o9
    rw [o9] at o1
    obtain ⟨-, h2, -, -, -, -, -, h6, -, -, -, h12, -⟩ := VssP.newDealer_ok o1
    refine ⟨h2, fun i hi => ⟨_, by
      rw [h12, List.getElem?_map, List.getElem?_range (by rw [newPubs_length]; exact hi)]; rfl, ?_⟩⟩
    rw [h6]
  refine ⟨fun j => ⟨(N.draws j.1).take (N.t - 1), by rw [List.length_take]; have := (hd j.1 j.2).1; omega⟩,
    fun _ => rfl, fun j i hi => ?_, ?_⟩
  · obtain ⟨dl, h1, h2⟩ := (hd j.1 j.2).2 i hi
    refine ⟨dl, h1, ?_⟩
    rw [h2]
    unfold dealtPoly
    rw [eval_v]
  · unfold newPolyOn resharedPoly
    refine combine_congr _ _ (fun j hj => ?_)
    have hj : j ∈ A := firstT_subset _ _ hj
    simp only [dif_pos hj]
    unfold ReNet.poly dealtPoly
    rw [eval_v]

/-! ## Examples

Three holders with threshold 2 reshare to a group with threshold 2, of which two reshare with threshold 3; the
adversary controls holder 2, then 1, then 0 and 2. -/

namespace ReshareSecrecyExample

def periods : List Period := [⟨{0, 1, 2}, 2, {1}⟩, ⟨{0, 1}, 3, {0, 2}⟩]

theorem limited : Limited 11 periods 2 {2} := by
  refine ⟨⟨by decide, by decide⟩, by decide, by decide, ⟨by decide, by decide⟩, by decide, by decide, by decide,
    by decide⟩

/-- `C145_count`: what is seen in some run with secret `b` is seen as often with any other secret `a`, and the
numbers are not zero. -/
example (a b : ZMod 11) (r : Drawn (ZMod 11) 1 × Redraws (ZMod 11) periods) :
    Nat.card { r' : Drawn (ZMod 11) 1 × Redraws (ZMod 11) periods //
      seen periods {2} (a :: r'.1.1) r'.2 = seen periods {2} (b :: r.1.1) r.2 } =
    Nat.card { r' : Drawn (ZMod 11) 1 × Redraws (ZMod 11) periods //
      seen periods {2} (b :: r'.1.1) r'.2 = seen periods {2} (b :: r.1.1) r.2 } ∧
    Nat.card { r' : Drawn (ZMod 11) 1 × Redraws (ZMod 11) periods //
      seen periods {2} (b :: r'.1.1) r'.2 = seen periods {2} (b :: r.1.1) r.2 } ≠ 0 := by
  refine ⟨C145_count 11 periods 2 {2} limited a b _, ?_⟩
  have := finite_redraws (F := ZMod 11) periods
  have := finite_drawn (F := ZMod 11) 1
  have : Nonempty { r' : Drawn (ZMod 11) 1 × Redraws (ZMod 11) periods //
      seen periods {2} (b :: r'.1.1) r'.2 = seen periods {2} (b :: r.1.1) r.2 } := ⟨⟨r, rfl⟩⟩
  exact Nat.card_pos.ne'

/-- `C145_reached`: with holders 0, 1 and 2 of the last group. -/
example : Reached 11 [⟨{0, 1, 2}, 2, {1}⟩, ⟨{0, 1}, 3, {0, 1, 2}⟩] 2 {2} :=
  .inr ⟨by decide, by decide, by decide, by decide,
    .inr ⟨by decide, by decide, by decide, by decide, by decide, by decide⟩⟩

/-- `C145_model`: the resharing of `qnet`, in which old nodes 0 and 2 deal. -/
example : ∃ g : ({0, 2} : Finset Nat) → Drawn (ZMod 11) (DkgPExample.qnet.t - 1),
    newPolyOn DkgPExample.qnet {0, 2} DkgPExample.qnet.t =
      resharedPoly DkgPExample.qnet.f ⟨{0, 2}, DkgPExample.qnet.t, {1}⟩ g := by
  obtain ⟨g, -, -, h⟩ := C145_model Toy.envDI DkgPExample.qnet DkgPExample.qnet_honest (by decide) {0, 2} {1}
    (by decide)
  exact ⟨g, h⟩

end ReshareSecrecyExample

end Kyber.Props
