/-
Property C35: renewing a key share (`DistKeyShare::renew`, `src/share/dkg/pedersen/dkg.rs`).
-/
import Verif.Props.DkgPedersen
import Verif.Spec.ToyDkg

set_option linter.unusedSectionVars false

namespace Kyber.Props

open Kyber Kyber.Poly Kyber.Spec Kyber.VssP Kyber.DkgP

variable {F G : Type} [Field F] [AddCommGroup G] [DecidableEq G]

section

variable [SMul F G]

/-- A key share lies on its commitments. -/
def OnPoly (S : Suite F G) (k : DistKeyShare F G) : Prop :=
  k.share.v • S.base = pointVal k.commits ((k.share.i + 1 : Nat) : F)

end

section

variable [SMul F G]

/-- The loop of `renew`: adds the commitments, panics if `g` has too few. -/
theorem renew_loop (g l : List G) (k : Nat) :
    ((l.zipIdx k).mapM (fun ci => do
      let gi ← (Res.unwrap g[ci.2]? : Res DkgError G)
      .ok (ci.1 + gi)) : Res DkgError (List G)) =
    if l = [] ∨ k + l.length ≤ g.length then
      .ok (l.zipIdx k |>.map (fun ci => ci.1 + g.getD ci.2 0))
    else .panic := by
  induction l generalizing k with
  | nil => simp
  | cons a l ih =>
    rw [List.zipIdx_cons, List.mapM_cons]
    by_cases hk : k < g.length
    · rw [show (Res.unwrap g[k]? : Res DkgError G) = .ok g[k] by
        rw [List.getElem?_eq_getElem hk]; rfl]
      simp only [Res.bind_ok]
      rw [ih]
      have hget : g.getD k 0 = g[k] := by
        rw [List.getD_eq_getElem?_getD, List.getElem?_eq_getElem hk]; rfl
      by_cases hc : l = [] ∨ k + 1 + l.length ≤ g.length
      · rw [if_pos hc, if_pos]
        · rw [List.map_cons, hget]; rfl
        · rcases hc with rfl | hc
          · right; simpa using hk
          · right; rw [List.length_cons]; omega
      · rw [if_neg hc, if_neg]
        · rfl
        · rw [not_or] at hc
          simp only [List.cons_ne_nil, false_or, List.length_cons]
          omega
    · rw [show (Res.unwrap g[k]? : Res DkgError G) = .panic by
        rw [List.getElem?_eq_none (by omega)]; rfl, if_neg (by simp; omega)]
      rfl

end

section

variable [SMul F G]

/-- C35: exactly when `renew` succeeds, and what it returns: `g` must commit to the secret zero, have
the same index and at least as many commitments. -/
theorem C35_renew_iff (S : Suite F G) (hB : Lin F S.base) (d g k : DistKeyShare F G) :
    d.renew S g = .ok k ↔
      g.commits.head? = some 0 ∧ d.share.i = g.share.i ∧ d.commits.length ≤ g.commits.length ∧
      k = { commits := (List.range d.commits.length).map (fun j => d.commits.getD j 0 + g.commits.getD j 0)
            share := ⟨d.share.i, d.share.v + g.share.v⟩
            privatePoly := [] } := by
  unfold DistKeyShare.renew DistKeyShare.publicKey
  rw [Res.bind_eq_ok]
  simp only [Res.unwrap_eq_ok, hB.zero, Res.ite_err_eq_ok, ne_eq, not_not, renew_loop, zero_add]
  have hl : (d.commits.zipIdx.map (fun ci => ci.1 + g.commits.getD ci.2 0)) =
      (List.range d.commits.length).map (fun j => d.commits.getD j 0 + g.commits.getD j 0) := by
    apply List.ext_getElem
    · simp
    · intro j h1 h2
      simp only [List.getElem_map, List.getElem_zipIdx, List.getElem_range, zero_add]
      congr 1
      rw [List.getD_eq_getElem?_getD, List.getElem?_eq_getElem (by simpa using h1)]; rfl
  constructor
  · rintro ⟨p, hp, rfl, hi, h⟩
    rw [Res.bind_eq_ok] at h
    obtain ⟨c, hc, h⟩ := h
    split at hc
    · rename_i hcond
      cases hc
      refine ⟨hp, hi, ?_, ?_⟩
      · rcases hcond with h0 | h0
        · rw [h0]; simp
        · exact h0
      · rw [← hl]; exact (Res.ok.inj h).symm
    · cases hc
  · rintro ⟨hp, hi, hlen, rfl⟩
    refine ⟨0, hp, rfl, hi, ?_⟩
    rw [if_pos (Or.inr hlen), Res.bind_ok, hl]

/-- C35: the remaining outcomes. A wrong constant commitment or index is an error; a renewal without
commitments, or with fewer commitments than the key, panics. -/
theorem C35_renew_fails (S : Suite F G) (hB : Lin F S.base) (d g : DistKeyShare F G) :
    (d.renew S g = .err .wrongRenewal ↔ ∃ p, g.commits.head? = some p ∧ p ≠ 0) ∧
    (d.renew S g = .err .differentParty ↔ g.commits.head? = some 0 ∧ d.share.i ≠ g.share.i) ∧
    (d.renew S g = .panic ↔ g.commits = [] ∨
      g.commits.head? = some 0 ∧ d.share.i = g.share.i ∧ g.commits.length < d.commits.length) := by
  unfold DistKeyShare.renew DistKeyShare.publicKey
  cases hg : g.commits with
  | nil => simp [Res.unwrap]
  | cons p gs =>
    have hb : ∀ {α : Type} (f : G → Res DkgError α),
        ((Res.unwrap (p :: gs).head? : Res DkgError G) >>= f) = f p := fun f => rfl
    rw [hb]
    simp only [hB.zero, renew_loop, List.head?_cons, Option.some.injEq, zero_add]
    by_cases hp : p = 0
    · subst hp
      rw [if_neg (by simp)]
      by_cases hi : d.share.i = g.share.i
      · rw [if_neg (by simp [hi])]
        by_cases hl : d.commits = [] ∨ d.commits.length ≤ (0 :: gs).length
        · rw [if_pos hl, Res.bind_ok]
          have : ¬ (0 :: gs).length < d.commits.length := by
            rcases hl with h | h
            · rw [h]; simp
            · omega
          simp [hi]
          simpa using this
        · rw [if_neg hl]
          have : (0 :: gs).length < d.commits.length := by
            rw [not_or] at hl; omega
          refine ⟨?_, ?_, ?_⟩
          · simp
          · simp [hi]
          · simp only [hi, true_and, reduceCtorEq, false_or, this, iff_true]
            rfl
      · rw [if_pos hi]
        simp [hi]
    · rw [if_pos hp]
      simp [hp]

end

section

variable [DistribSMul F G]

theorem pointVal_append (Cs Ds : List G) (x : F) :
    pointVal (Cs ++ Ds) x = pointVal Cs x + (fun v => x • v)^[Cs.length] (pointVal Ds x) := by
  induction Cs with
  | nil => simp [pointVal]
  | cons c Cs ih =>
    rw [List.cons_append, pointVal, ih, pointVal, smul_add, List.length_cons, Function.iterate_succ_apply', add_assoc]

/-- C35: if both shares lie on their commitments, exactly when the renewed share lies on the renewed commitments: the
part of `g` beyond the commitments of `d`, which `renew` drops, must vanish at the participant. -/
theorem C35_renew_valid_iff (S : Suite F G) (hB : Lin F S.base) (d g k : DistKeyShare F G) (hd : OnPoly S d)
    (hg : OnPoly S g) (h : d.renew S g = .ok k) :
    OnPoly S k ↔ (fun v => ((d.share.i + 1 : Nat) : F) • v)^[d.commits.length]
      (pointVal (g.commits.drop d.commits.length) ((d.share.i + 1 : Nat) : F)) = 0 := by
  rw [C35_renew_iff S hB] at h
  obtain ⟨-, hi, hlen, rfl⟩ := h
  have hz : (List.range d.commits.length).map (fun j => d.commits.getD j 0 + g.commits.getD j 0) =
      List.zipWith (· + ·) d.commits (g.commits.take d.commits.length) := by
    apply List.ext_getElem
    · simp [hlen]
    · intro j h1 h2
      simp only [List.length_map, List.length_range] at h1
      simp only [List.getElem_map, List.getElem_range, List.getElem_zipWith, List.getElem_take]
      rw [List.getD_eq_getElem?_getD, List.getD_eq_getElem?_getD, List.getElem?_eq_getElem h1,
        List.getElem?_eq_getElem (by omega)]
      rfl
  unfold OnPoly at hd hg ⊢
  have hta : (g.commits.take d.commits.length).length = d.commits.length := by simp [hlen]
  rw [← hi, ← List.take_append_drop d.commits.length g.commits, pointVal_append, hta] at hg
  simp only
  rw [hB.add, hd, hg, hz, pointVal_zipWith_add hta.symm, add_right_inj, add_eq_left]

/-- C35: if `g` has as many commitments as `d` and both shares lie on their commitments, the renewed
share lies on the renewed commitments and the public key is unchanged; any two participants renewed
with shares of the same two polynomials agree on the commitments. Missing from the full property:
`g` may have more commitments than `d` (`C35_violated_longer`, `C35_renew_valid_iff`). -/
theorem C35_renew_valid_partial (S : Suite F G) (hB : Lin F S.base) (d g k : DistKeyShare F G)
    (hl : d.commits.length = g.commits.length) (hd : OnPoly S d) (hg : OnPoly S g)
    (h : d.renew S g = .ok k) :
    OnPoly S k ∧ k.commits.head? = d.commits.head? ∧ k.share.i = d.share.i ∧
    k.commits.length = d.commits.length ∧
    ∀ d' g' k' : DistKeyShare F G, d'.commits = d.commits → g'.commits = g.commits → d'.renew S g' = .ok k' →
      k'.commits = k.commits := by
  refine ⟨(C35_renew_valid_iff S hB d g k hd hg h).2 ?_, ?_⟩
  · rw [hl, List.drop_length]
    exact Function.iterate_fixed (smul_zero _) _
  rw [C35_renew_iff S hB] at h
  obtain ⟨h0, hi, -, rfl⟩ := h
  refine ⟨?_, rfl, by simp, ?_⟩
  · cases hdc : d.commits with
    | nil => rfl
    | cons a l =>
      simp only [List.length_cons, List.range_succ_eq_map, List.map_cons, List.head?_cons]
      cases hgc : g.commits with
      | nil => rw [hgc] at h0; cases h0
      | cons b l' =>
        rw [hgc] at h0
        cases h0
        simp
  · intro d' g' k' h1 h2 h3
    rw [C35_renew_iff S hB] at h3
    obtain ⟨-, -, -, rfl⟩ := h3
    simp only [h1, h2]

/-- `renew` with one share after the other. -/
def renewAll (S : Suite F G) (d : DistKeyShare F G) (gs : List (DistKeyShare F G)) : Res DkgError (DistKeyShare F G) :=
  gs.foldlM (fun d g => d.renew S g) d

/-- C35: any number of renewals with shares of as many commitments, each lying on them and committing to zero, succeeds,
keeps the public key and the index, and gives a share on the commitments: the sum of all the shares. -/
theorem C35_renewals (S : Suite F G) (hB : Lin F S.base) (gs : List (DistKeyShare F G)) (d : DistKeyShare F G)
    (hd : OnPoly S d) (hgs : ∀ g ∈ gs, OnPoly S g ∧ g.commits.length = d.commits.length ∧
      g.commits.head? = some 0 ∧ g.share.i = d.share.i) :
    ∃ k, renewAll S d gs = .ok k ∧ OnPoly S k ∧ k.commits.head? = d.commits.head? ∧ k.share.i = d.share.i ∧
      k.commits.length = d.commits.length ∧ k.share.v = d.share.v + (gs.map (fun g => g.share.v)).sum := by
  induction gs generalizing d with
  | nil => exact ⟨d, rfl, hd, rfl, rfl, rfl, by simp⟩
  | cons g gs ih =>
    obtain ⟨g1, g2, g3, g4⟩ := hgs g (by simp)
    obtain ⟨k, hk⟩ : ∃ k, d.renew S g = .ok k := ⟨_, (C35_renew_iff S hB d g _).2 ⟨g3, g4.symm, g2.ge, rfl⟩⟩
    obtain ⟨k1, k2, k3, k4, -⟩ := C35_renew_valid_partial S hB d g k g2.symm hd g1 hk
    have kv : k.share.v = d.share.v + g.share.v := by
      obtain ⟨-, -, -, rfl⟩ := (C35_renew_iff S hB d g k).1 hk; rfl
    obtain ⟨r, hr, r1, r2, r3, r4, r5⟩ := ih k k1 (fun g' hg' => by
      obtain ⟨a, b, c, e⟩ := hgs g' (by simp [hg'])
      exact ⟨a, b.trans k4.symm, c, e.trans k3.symm⟩)
    refine ⟨r, ?_, r1, r2.trans k2, r3.trans k3, r4.trans k4, ?_⟩
    · unfold renewAll at hr ⊢
      rw [List.foldlM_cons, hk]; exact hr
    · rw [r5, kv, List.map_cons, List.sum_cons, add_assoc]

end

section

variable [SMul F G]

/-- C35, the intended property: whatever valid share of a polynomial with zero constant commitment
is accepted for renewal gives a valid share for the same public key, and the call never panics on
shares of a key. -/
def C35_statement : Prop :=
  ∀ (F G : Type) (_ : Field F) (_ : AddCommGroup G) (_ : Module F G) (_ : DecidableEq G)
    (S : Suite F G) (_ : S.Lawful) (d g : DistKeyShare F G),
    d.commits ≠ [] → g.commits ≠ [] → OnPoly S d → OnPoly S g →
    d.renew S g ≠ .panic ∧
    ∀ k, d.renew S g = .ok k → OnPoly S k ∧ k.commits.head? = d.commits.head?

end

namespace RenewExample

open Kyber.Toy

section

variable [SMul F G]

/-- a share of 3 + 4X at participant 1, renewed with a share of 7X -/
def d : DistKeyShare (ZMod 11) (ZMod 11) := ⟨[6, 8], ⟨1, 0⟩, []⟩
@[inherit_doc d] def g : DistKeyShare (ZMod 11) (ZMod 11) := ⟨[0, 3], ⟨1, 3⟩, []⟩
/-- a share of X + X², with one commitment more -/
def long : DistKeyShare (ZMod 11) (ZMod 11) := ⟨[0, 2, 2], ⟨1, 6⟩, []⟩
/-- a share of 0, with one commitment less -/
def short : DistKeyShare (ZMod 11) (ZMod 11) := ⟨[0], ⟨1, 0⟩, []⟩

theorem valid : OnPoly suite d ∧ OnPoly suite g ∧ OnPoly suite long ∧ OnPoly suite short := by
  unfold OnPoly; decide +kernel

/-- `C35_renew_valid_partial` applies to `d`, `g`. -/
example : d.commits.length = g.commits.length ∧ OnPoly suite d ∧ OnPoly suite g ∧
    d.renew suite g = .ok ⟨[6, 0], ⟨1, 3⟩, []⟩ := by
  refine ⟨rfl, valid.1, valid.2.1, by decide +kernel⟩

/-- `C35_renewals` applies to `d` and two renewals. -/
example : OnPoly suite d ∧ (∀ g' ∈ [g, g], OnPoly suite g' ∧ g'.commits.length = d.commits.length ∧
    g'.commits.head? = some 0 ∧ g'.share.i = d.share.i) ∧ renewAll suite d [g, g] = .ok ⟨[6, 3], ⟨1, 6⟩, []⟩ := by
  refine ⟨valid.1, ?_, by decide +kernel⟩
  intro g' hg'
  have : g' = g := by simpa using hg'
  subst this
  exact ⟨valid.2.1, rfl, rfl, rfl⟩

theorem long_accepted : d.renew suite long = .ok ⟨[6, 10], ⟨1, 6⟩, []⟩ ∧
    ¬ OnPoly suite ⟨[6, 10], ⟨1, 6⟩, []⟩ := by
  unfold OnPoly; decide +kernel


/-- `C35_renew_iff` and `C35_renew_fails` on them: `short` has too few commitments, and a share of another
polynomial with a secret is refused. -/
example : (∃ k, d.renew suite g = .ok k) ∧ d.renew suite short = .panic ∧ d.renew suite d = .err .wrongRenewal :=
  ⟨⟨_, (C35_renew_iff suite lawful.base_lin d g _).2 ⟨rfl, rfl, by decide, rfl⟩⟩,
    (C35_renew_fails suite lawful.base_lin d short).2.2.2 (.inr ⟨rfl, rfl, by decide⟩),
    (C35_renew_fails suite lawful.base_lin d d).1.2 ⟨6, rfl, by decide⟩⟩

/-- `C35_renew_valid_iff` applies to `long`, whose share is refused, and to a longer one that vanishes at the
participant. -/
example : OnPoly suite d ∧ OnPoly suite ⟨[0, 2, 2, 10], ⟨1, 2⟩, []⟩ ∧
    d.renew suite ⟨[0, 2, 2, 10], ⟨1, 2⟩, []⟩ = .ok ⟨[6, 10], ⟨1, 2⟩, []⟩ ∧ OnPoly suite ⟨[6, 10], ⟨1, 2⟩, []⟩ := by
  unfold OnPoly; decide +kernel

theorem short_panics : d.renew suite short = .panic := by decide +kernel

end

end RenewExample

section

variable [SMul F G]

open RenewExample in
/-- C35 does not hold: a renewal polynomial of higher degree is accepted, and the new share does not
lie on the new commitments. -/
theorem C35_violated_longer : ¬ C35_statement := by
  intro h
  have := (h (ZMod 11) (ZMod 11) _ _ _ _ Toy.suite Toy.lawful d long (by decide) (by decide)
    valid.1 valid.2.2.1).2 _ long_accepted.1
  exact long_accepted.2 this.1

open RenewExample in
/-- C35 does not hold: a renewal polynomial of lower degree panics. -/
theorem C35_violated_shorter : ¬ C35_statement := by
  intro h
  exact (h (ZMod 11) (ZMod 11) _ _ _ _ Toy.suite Toy.lawful d short (by decide) (by decide)
    valid.1 valid.2.2.2).1 short_panics

end

end Kyber.Props
