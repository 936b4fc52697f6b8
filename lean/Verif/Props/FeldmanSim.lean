/-
Property C146: everything that fewer than `t` verifiers get from a Pedersen dealer, the public commitments included,
can be computed from the public key of the secret and uniform scalars (`src/share/vss/pedersen/vss.rs`,
`src/share/dkg/pedersen/dkg.rs`). The scalars drawn by `pick` are taken to be uniform and independent, so that
likelihood is the number of draws.
-/
import Verif.Props.ReshareSecrecy
import Verif.Props.DssLive
import Verif.Props.EdSecrecy

set_option linter.unusedSectionVars false

namespace Kyber.Spec

open Kyber.Poly Kyber.VssP

variable {F G : Type} [Field F] [AddCommGroup G] [SMul F G]

/-- Commitments computed from the public key `P` and the shares `y` of the members of `C`, with fixed coefficients: those
of the polynomial `e0` that is 1 at zero and 0 on `C`, and those of `e i` that is 1 at `i` and 0 on the rest of `C` and
at zero. -/
def simCommits (B : G) (t : Nat) (C : Finset Nat) (e0 : List F) (e : Nat → List F) (P : G) (y : Nat → F) : List G :=
  (List.range t).map (fun k => e0.getD k 0 • P + (∑ i ∈ C, y i * (e i).getD k 0) • B)

/-- What the members of `C` get from a dealer: session, commitments and their deals. -/
structure DealView (F G : Type) (C : Finset Nat) where
  session : Bytes
  commits : List G
  deals : C → Option (VssP.Deal F G)

/-- What the smaller coalition `D` gets of it. -/
def DealView.restrict {F G : Type} {C : Finset Nat} (v : DealView F G C) (D : Finset Nat) (hD : D ⊆ C) : DealView F G D :=
  ⟨v.session, v.commits, fun i => v.deals ⟨i.1, hD i.2⟩⟩

/-- What they get from the dealer `d` of the code. -/
def realView (C : Finset Nat) (d : VssP.Dealer F G) : DealView F G C :=
  ⟨d.sessionId, d.secretCommits, fun i => d.deals[i.1]?⟩

/-- What the simulator that knows only the public key `P` of the secret gives them when it has drawn the shares `y`. -/
def simView (S : Suite F G) (dealer : G) (pubs : List G) (t : Nat) (C : Finset Nat) (e0 : List F) (e : Nat → List F)
    (P : G) (y : Nat → F) : DealView F G C :=
  let commits := simCommits S.base t C e0 e P y
  let sid := VssP.sessionId S dealer pubs commits t
  ⟨sid, commits, fun i => if i.1 < pubs.length then some ⟨sid, ⟨i.1, y i.1⟩, t, commits⟩ else none⟩

/-- What is public in a sequence of resharings: the commitments to the shared polynomial, and in each resharing those of
every dealer. -/
def Public (G : Type) : List Period → Type
  | [] => List G
  | p :: ps => List G × (p.dealers → List G) × Public G ps

/-- What is published when the first polynomial is `f`. -/
def published (B : G) : (ps : List Period) → List F → Redraws F ps → Public G ps
  | [], f, _ => f.map (fun c => c • B)
  | p :: ps, f, r => (f.map (fun c => c • B), fun j => (dealtPoly f j.1 (r.1 j)).map (fun c => c • B),
      published B ps (resharedPoly f p r.1) r.2)

/-- As many holders as the threshold allows are controlled at any time (`Limited` with equality). -/
def Full (q : Nat) : List Period → Nat → Finset Nat → Prop
  | [], t, C => 2 ≤ t ∧ C.card + 1 = t ∧ ∀ i ∈ C, i + 1 < q
  | p :: ps, t, C => (2 ≤ t ∧ C.card + 1 = t ∧ ∀ i ∈ C, i + 1 < q) ∧ t ≤ p.dealers.card ∧ (∀ j ∈ p.dealers, j < q) ∧
      Full q ps p.t p.coalition

/-- A function on `C`, continued by zero. -/
def extend {C : Finset Nat} (y : C → F) (i : Nat) : F := if h : i ∈ C then y ⟨i, h⟩ else 0

/-- What the simulator publishes that knows the public key `P` and what the adversary sees. The commitments of a
controlled dealer are those of the polynomial that it drew, the constant commitment of another dealer is the value of
the commitments to the shared polynomial. -/
def simPublic (B : G) (e0 : Nat → Finset Nat → List F) (e : Nat → Finset Nat → Nat → List F) (P : G) :
    (ps : List Period) → (t : Nat) → (C : Finset Nat) → View F ps C → Public G ps
  | [], t, C, v => simCommits B t C (e0 t C) (e t C) P (extend v)
  | p :: ps, t, C, v =>
    let cs := simCommits B t C (e0 t C) (e t C) P (extend v.1)
    (cs, fun j => if h : j.1 ∈ C then (v.1 ⟨j.1, h⟩ :: (v.2.1 ⟨j, h⟩).1).map (fun c => c • B) else
        simCommits B p.t p.coalition (e0 p.t p.coalition) (e p.t p.coalition) (pointVal cs ((j.1 + 1 : Nat) : F))
          (extend (v.2.2.1 j)),
      simPublic B e0 e P ps p.t p.coalition v.2.2.2)

theorem Full.limited {q : Nat} : {ps : List Period} → {t : Nat} → {C : Finset Nat} → Full q ps t C → Limited q ps t C
  | [], _, _, h => ⟨by have := h.2.1; omega, h.2.2⟩
  | _ :: _, _, _, h => ⟨⟨by have := h.1.2.1; omega, h.1.2.2⟩, h.2.1, h.2.2.1, h.2.2.2.limited⟩

theorem Full.first {q : Nat} {ps : List Period} {t : Nat} {C : Finset Nat} (h : Full q ps t C) :
    2 ≤ t ∧ C.card + 1 = t ∧ ∀ i ∈ C, i + 1 < q := by
  cases ps with
  | nil => exact h
  | cons p ps => exact h.1

end Kyber.Spec

namespace Kyber.Props

open Kyber Kyber.Poly Kyber.Spec Kyber.VssP Kyber.DkgP

variable {F G : Type} [Field F]

theorem polyVal_zero (f : List F) : polyVal f 0 = f.getD 0 0 := by
  cases f with
  | nil => simp [polyVal]
  | cons a l =>
    unfold polyVal
    rw [List.length_cons, Finset.sum_range_succ']
    simp

/-- The fixed polynomials of the simulator. -/
structure SimBasis (t : Nat) (C : Finset Nat) (e0 : List F) (e : Nat → List F) : Prop where
  len0 : e0.length = t
  len : ∀ i, (e i).length = t
  spec : ∀ f : List F, f.length = t → ∀ k < t,
    f.getD k 0 = e0.getD k 0 * f.getD 0 0 + ∑ i ∈ C, polyVal f ((i + 1 : Nat) : F) * (e i).getD k 0

/-- They exist, and depend on nothing but the threshold and the coalition. -/
theorem exists_simBasis (q : Nat) [CharP F q] (t : Nat) (C : Finset Nat) (hq : ∀ i ∈ C, i + 1 < q)
    (ht : 2 ≤ t) (hcard : C.card + 1 = t) : ∃ (e0 : List F) (e : Nat → List F), SimBasis t C e0 e := by
  have hpoly : ∀ (o : Nat → F) (s : F), ∃ l : List F, l.length = t ∧ polyVal l 0 = s ∧
      ∀ i ∈ C, polyVal l ((i + 1 : Nat) : F) = o i := by
    intro o s
    obtain ⟨⟨l⟩, h1, h2, h3⟩ := C05_no_secret_excluded q t C hq (by omega) o s
    refine ⟨l, h1, ?_, fun i hi => by rw [← h3 i hi, eval_v]⟩
    rw [polyVal_zero]
    cases l with
    | nil => cases h2
    | cons a l => exact Res.ok.inj h2
  obtain ⟨e0, a1, a2, a3⟩ := hpoly (fun _ => 0) 1
  choose e b1 b2 b3 using fun i : Nat => hpoly (fun l => if l = i then 1 else 0) 0
  refine ⟨e0, e, a1, b1, fun f hf k hk => ?_⟩
  obtain ⟨i0, hi0⟩ : C.Nonempty := Finset.card_pos.1 (by omega)
  have hq0 : 1 < q := by have := hq i0 hi0; omega
  have hnot : q - 1 ∉ C := fun h => by have := hq _ h; omega
  let g : List F := (List.range t).map (fun k =>
    e0.getD k 0 * f.getD 0 0 + ∑ i ∈ C, polyVal f ((i + 1 : Nat) : F) * (e i).getD k 0)
  have hg : g.length = t := by simp [g]
  have hgk : ∀ k < t, g.getD k 0 =
      e0.getD k 0 * f.getD 0 0 + ∑ i ∈ C, polyVal f ((i + 1 : Nat) : F) * (e i).getD k 0 := by
    intro k hk
    simp only [g]
    rw [List.getD_eq_getElem?_getD, List.getElem?_map, List.getElem?_range hk]
    rfl
  have hval : ∀ x, polyVal g x =
      polyVal e0 x * f.getD 0 0 + ∑ i ∈ C, polyVal f ((i + 1 : Nat) : F) * polyVal (e i) x := by
    intro x
    have ex : ∀ l : List F, l.length = t → polyVal l x = ∑ k ∈ Finset.range t, l.getD k 0 * x ^ k := fun l hl => by
      unfold polyVal; rw [hl]
    rw [ex g hg, ex e0 a1, Finset.sum_congr rfl (fun k hk => by rw [hgk k (Finset.mem_range.1 hk)]),
      Finset.sum_congr (s₁ := C) rfl (fun i _ => by rw [ex (e i) (b1 i)])]
    generalize (fun i : Nat => polyVal f ((i + 1 : Nat) : F)) = c
    simp only [add_mul, Finset.sum_add_distrib, Finset.sum_mul, Finset.mul_sum]
    congr 1
    · exact Finset.sum_congr rfl (fun k _ => by ring)
    · rw [Finset.sum_comm]
      exact Finset.sum_congr rfl (fun i _ => Finset.sum_congr rfl (fun k _ => by ring))
  have : f = g := by
    refine polyVal_inj q (insert (q - 1) C) ?_ (hf.trans hg.symm) ?_ ?_
    · intro i hi
      rcases Finset.mem_insert.1 hi with rfl | hi
      · omega
      · have := hq i hi; omega
    · rw [Finset.card_insert_of_notMem hnot]; omega
    · intro i hi
      rw [hval]
      rcases Finset.mem_insert.1 hi with rfl | hi
      · rw [Nat.sub_add_cancel (by omega), CharP.cast_eq_zero, a2, one_mul, polyVal_zero,
          Finset.sum_congr rfl (fun i _ => by rw [b2, mul_zero]), Finset.sum_const_zero, add_zero]
      · rw [a3 i hi, zero_mul, zero_add, Finset.sum_congr rfl (fun l _ => by rw [b3 l i hi]),
          Finset.sum_eq_single i (fun l _ hl => by rw [if_neg (Ne.symm hl), mul_zero]) (fun h => absurd hi h),
          if_pos rfl, mul_one]
  rw [← hgk k hk, ← this]

variable [AddCommGroup G] [DecidableEq G]

section

variable [SMul F G]

theorem Lin.sum {B : G} (h : Lin F B) (C : Finset Nat) (c : Nat → F) :
    (∑ i ∈ C, c i) • B = ∑ i ∈ C, c i • B := by
  classical
  induction C using Finset.induction_on with
  | empty => rw [Finset.sum_empty, Finset.sum_empty, h.zero]
  | insert a s ha ih => rw [Finset.sum_insert ha, Finset.sum_insert ha, h.add, ih]

/-- C146: the commitments to a polynomial are a fixed linear function of the public key and of the shares of `t - 1`
holders. -/
theorem C146_commits {B : G} (hB : Lin F B) {t : Nat} {C : Finset Nat} {e0 : List F} {e : Nat → List F}
    (he : SimBasis t C e0 e) (f : List F) (hf : f.length = t) (y : Nat → F)
    (hy : ∀ i ∈ C, y i = ((⟨f⟩ : PriPoly F).eval i).v) :
    f.map (fun c => c • B) = simCommits B t C e0 e (f.getD 0 0 • B) y := by
  unfold simCommits
  refine List.ext_getElem (by simp [hf]) (fun k h1 h2 => ?_)
  have hk : k < t := by simpa using h2
  rw [List.getElem_map, List.getElem_map, List.getElem_range]
  have hfk : f[k]'(by omega) = f.getD k 0 := by
    rw [List.getD_eq_getElem?_getD, List.getElem?_eq_getElem (by omega)]; rfl
  rw [hfk, he.spec f hf k hk, hB.add, hB.mul]
  congr 2
  exact Finset.sum_congr rfl (fun i hi => by rw [hy i hi, eval_v])

/-- The shares of the coalition are uniform: each draw of the dealer gives other shares, and all shares occur. -/
theorem shares_equiv (q : Nat) [CharP F q] (t : Nat) (C : Finset Nat) (hq : ∀ i ∈ C, i + 1 < q)
    (ht : 2 ≤ t) (hcard : C.card + 1 = t) (secret : F) :
    ∃ φ : Drawn F (t - 1) ≃ (C → F), ∀ r i, φ r i = ((⟨secret :: r.1⟩ : PriPoly F).eval i.1).v := by
  let g : Drawn F (t - 1) → (C → F) := fun r i => ((⟨secret :: r.1⟩ : PriPoly F).eval i.1).v
  obtain ⟨e0, e, he⟩ := exists_simBasis (F := F) q t C hq ht hcard
  have hb : Function.Bijective g := by
    constructor
    · intro r r' h
      have hl : ∀ r : Drawn F (t - 1), (secret :: r.1).length = t := fun r => by
        rw [List.length_cons, r.2]; omega
      have : secret :: r.1 = secret :: r'.1 := by
        refine List.ext_getElem ((hl r).trans (hl r').symm) (fun k h1 h2 => ?_)
        have e1 : ∀ (l : List F) (h : k < l.length), l[k] = l.getD k 0 := fun l h => by
          rw [List.getD_eq_getElem?_getD, List.getElem?_eq_getElem h]; rfl
        rw [e1 _ h1, e1 _ h2, he.spec _ (hl r) k (by rwa [hl] at h1), he.spec _ (hl r') k (by rwa [hl] at h1)]
        congr 1
        refine Finset.sum_congr rfl (fun i hi => ?_)
        have : g r ⟨i, hi⟩ = g r' ⟨i, hi⟩ := congrFun h _
        simp only [g, eval_v] at this
        rw [this]
      exact Subtype.ext (List.cons.inj this).2
    · intro y
      obtain ⟨⟨l⟩, h1, h2, h3⟩ := C05_no_secret_excluded q t C hq (by omega) (extend y) secret
      cases l with
      | nil => cases h2
      | cons a l =>
        have : a = secret := Res.ok.inj h2
        subst this
        have h1 : l.length + 1 = t := h1
        refine ⟨⟨l, by omega⟩, funext fun i => ?_⟩
        have := h3 i.1 i.2
        rw [extend, dif_pos i.2] at this
        exact this
  exact ⟨Equiv.ofBijective g hb, fun r i => rfl⟩

/-- What the dealer sends is what the simulator computes from the public key and the shares of the coalition. -/
theorem realView_eq {S : Suite F G} (hB : Lin F S.base) {x secret : F} {pubs : List G} {t : Nat} {draws : List F}
    {d : VssP.Dealer F G} (hd : VssP.newDealer S x secret pubs t draws = .ok d)
    {C : Finset Nat} {e0 : List F} {e : Nat → List F} (he : SimBasis t C e0 e) (y : Nat → F)
    (hy : ∀ i ∈ C, y i = ((⟨secret :: draws.take (t - 1)⟩ : PriPoly F).eval i).v) :
    realView C d = simView S (x • S.base) pubs t C e0 e (secret • S.base) y := by
  obtain ⟨h1, h2, -, -, -, -, -, h8, h9, h10, -, h12, -⟩ := VssP.newDealer_ok hd
  have ht : 2 ≤ t := by
    simp only [VssP.validT, Bool.and_eq_true, decide_eq_true_eq] at h1; exact h1.1.1
  have hc : d.secretCommits = simCommits S.base t C e0 e (secret • S.base) y := by
    rw [h9]
    exact C146_commits hB he _ (by rw [List.length_cons, List.length_take]; omega) y hy
  unfold realView simView
  rw [h12, h10, h8, hc]
  congr 1
  funext i
  by_cases hi : i.1 < pubs.length
  · rw [if_pos hi, List.getElem?_map, List.getElem?_range hi, Option.map_some, hy i.1 i.2]
    rfl
  · rw [if_neg hi, List.getElem?_eq_none (by simpa using hi)]

/-- C146: for each secret, the draws of `new_dealer` correspond one to one to the shares that a simulator draws, which
knows only the public key, such that the coalition gets the same. -/
theorem C146_dealer (q : Nat) [CharP F q] (S : Suite F G) (hB : Lin F S.base) (pubs : List G) (t : Nat)
    (hv : VssP.validT t pubs = true) (C : Finset Nat) (hq : ∀ i ∈ C, i + 1 < q) (hcard : C.card + 1 = t) :
    ∃ (e0 : List F) (e : Nat → List F), ∀ x secret : F, ∃ φ : Drawn F (t - 1) ≃ (C → F), ∀ r, ∃ d,
      VssP.newDealer S x secret pubs t r.1 = .ok d ∧
      realView C d = simView S (x • S.base) pubs t C e0 e (secret • S.base) (extend (φ r)) := by
  have ht : 2 ≤ t := by
    simp only [VssP.validT, Bool.and_eq_true, decide_eq_true_eq] at hv; exact hv.1.1
  obtain ⟨e0, e, he⟩ := exists_simBasis (F := F) q t C hq ht hcard
  refine ⟨e0, e, fun x secret => ?_⟩
  obtain ⟨φ, hφ⟩ := shares_equiv q t C hq ht hcard secret
  refine ⟨φ, fun r => ?_⟩
  have hd : ∃ d, VssP.newDealer S x secret pubs t r.1 = .ok d := by
    have hp : newPriPoly t (some secret) r.1 = some ⟨secret :: r.1.take (t - 1)⟩ := by
      simp only [newPriPoly, r.2.ge, if_true]
    unfold VssP.newDealer
    rw [if_neg (by simp [hv]), hp]
    exact ⟨_, rfl⟩
  obtain ⟨d, hd⟩ := hd
  refine ⟨d, hd, realView_eq hB hd he _ (fun i hi => ?_)⟩
  rw [extend, dif_pos hi, hφ, List.take_of_length_le r.2.le]

/-- What the coalition gets from a start of the dealer. -/
def viewOf (C : Finset Nat) : Res VssP.VssError (VssP.Dealer F G) → Option (DealView F G C)
  | .ok d => some (realView C d)
  | _ => none

/-- C146, counted: whatever fewer than `t` verifiers get, as many draws of the dealer lead to it as draws of the
simulator, which knows only the public key of the secret. -/
theorem C146_count (q : Nat) [CharP F q] (S : Suite F G) (hB : Lin F S.base) (pubs : List G) (t : Nat)
    (hv : VssP.validT t pubs = true) (C : Finset Nat) (hq : ∀ i ∈ C, i + 1 < q) (hcard : C.card + 1 = t) :
    ∃ (e0 : List F) (e : Nat → List F), ∀ (x secret : F) (D : Finset Nat) (hD : D ⊆ C) (observed : DealView F G D),
      Nat.card { r : Drawn F (t - 1) // viewOf D (VssP.newDealer S x secret pubs t r.1) = some observed } =
      Nat.card { y : C → F // (simView S (x • S.base) pubs t C e0 e (secret • S.base) (extend y)).restrict D hD =
        observed } := by
  obtain ⟨e0, e, h⟩ := C146_dealer q S hB pubs t hv C hq hcard
  refine ⟨e0, e, fun x secret D hD observed => ?_⟩
  obtain ⟨φ, hφ⟩ := h x secret
  refine Nat.card_congr (φ.subtypeEquiv (fun r => ?_))
  obtain ⟨d, hd, hr⟩ := hφ r
  rw [hd, ← hr]
  exact Option.some_inj

/-- C146: what the coalition gets from a correct participant of a key generation or resharing, whoever the others are,
is what the simulator computes from the public key of what it deals and the shares dealt to the coalition. (Later a
correct dealer opens only shares of verifiers that complained, C110.) -/
theorem C146_correct_dealer (q : Nat) [CharP F q] (S : Suite F G) (hB : Lin F S.base) (T : Nat)
    (C : Finset Nat) (hT : 2 ≤ T) (hq : ∀ i ∈ C, i + 1 < q) (hcard : C.card + 1 = T) :
    ∃ (e0 : List F) (e : Nat → List F), ∀ (c : DkgP.Config F G) (secret : F) (draws : List F) (d : DkgP.Dkg F G),
      newDistKeyHandler S c secret draws = .ok d →
      T = (if c.threshold ≠ 0 then c.threshold else minimumT c.newNodes.length) →
      ∀ dealt, (c.share.map (fun sh => sh.share.v) = some dealt ∨ c.share = none ∧ c.publicCoeffs = none ∧
        c.longterm • S.base ∈ c.newNodes ∧ dealt = secret) →
      realView C d.dealer = simView S (c.longterm • S.base) c.newNodes T C e0 e (dealt • S.base)
        (fun i => ((⟨dealt :: draws.take (T - 1)⟩ : PriPoly F).eval i).v) := by
  obtain ⟨e0, e, he⟩ := exists_simBasis (F := F) q T C hq hT hcard
  refine ⟨e0, e, fun c secret draws d hd hc dealt h => ?_⟩
  have hst := newDistKeyHandler_ok hd
  have hnt : d.newT = T := hst.newT.trans hc.symm
  rcases h with h | ⟨h1, h2, h3, rfl⟩
  · obtain ⟨sh, hs, rfl⟩ := Option.map_eq_some_iff.1 h
    have := hst.issue sh hs
    rw [hnt] at this
    exact realView_eq hB this he _ (fun _ _ => rfl)
  · have hp : d.newPresent = true := by
      have := hst.nidx
      unfold DkgP.findPub at this
      split at this
      · exact (Prod.mk.inj this).2.symm
      · rename_i hn
        exact absurd (List.findIdx?_eq_none_iff.1 hn _ h3) (by simp)
    obtain ⟨-, -, hdl⟩ := hst.fresh (by rw [hst.resharing, h1, h2]; rfl) hp
    rw [hnt] at hdl
    exact realView_eq hB hdl he _ (fun _ _ => rfl)

/-- C146: over any number of resharings, all commitments are those that the simulator computes from the public key and
from what the adversary sees. -/
theorem C146_published (q : Nat) [CharP F q] :
    ∃ (e0 : Nat → Finset Nat → List F) (e : Nat → Finset Nat → Nat → List F), ∀ (B : G), Lin F B →
      ∀ (ps : List Period) (t : Nat) (C : Finset Nat), Full q ps t C → ∀ (f : List F) (r : Redraws F ps), f.length = t →
      published B ps f r = simPublic B e0 e (f.getD 0 0 • B) ps t C (seen ps C f r) := by
  have hb : ∀ (t : Nat) (C : Finset Nat), ∃ b : List F × (Nat → List F),
      (2 ≤ t ∧ C.card + 1 = t ∧ ∀ i ∈ C, i + 1 < q) → SimBasis t C b.1 b.2 := by
    intro t C
    by_cases h : 2 ≤ t ∧ C.card + 1 = t ∧ ∀ i ∈ C, i + 1 < q
    · obtain ⟨e0, e, he⟩ := exists_simBasis (F := F) q t C h.2.2 h.1 h.2.1
      exact ⟨⟨e0, e⟩, fun _ => he⟩
    · exact ⟨⟨[], fun _ => []⟩, fun h' => absurd h' h⟩
  choose b hb using hb
  refine ⟨fun t C => (b t C).1, fun t C => (b t C).2, fun B hB ps => ?_⟩
  have hc : ∀ (t : Nat) (C : Finset Nat), (2 ≤ t ∧ C.card + 1 = t ∧ ∀ i ∈ C, i + 1 < q) → ∀ f : List F, f.length = t →
      f.map (fun c => c • B) = simCommits B t C (b t C).1 (b t C).2 (f.getD 0 0 • B)
        (extend (fun i : C => ((⟨f⟩ : PriPoly F).eval i.1).v)) := fun t C h f hf =>
    C146_commits hB (hb t C h) f hf _ (fun i hi => by rw [extend, dif_pos hi])
  induction ps with
  | nil =>
    intro t C h f r hf
    exact hc t C h f hf
  | cons p ps ih =>
    intro t C h f r hf
    obtain ⟨h1, h2, h3, h4⟩ := h
    have h5 := h4.first
    have hi := ih p.t p.coalition h4 (resharedPoly f p r.1) r.2 (length_resharedPoly f p r.1)
    rw [resharedPoly_head q f (by omega) p (by omega) h3 (by omega)] at hi
    refine Prod.ext (hc t C h1 f hf) (Prod.ext (funext fun j => ?_) hi)
    by_cases hj : j.1 ∈ C
    · simp only [published, simPublic, seen, dif_pos hj]
      rfl
    · simp only [published, simPublic, seen, dif_neg hj]
      rw [← hc t C h1 f hf, hc p.t p.coalition h5 _ (by simp only [dealtPoly, List.length_cons, (r.1 j).2]; omega),
        pointVal_map_smul _ hB]
      congr 2
      unfold dealtPoly
      rw [eval_v]
      rfl

/-- C146, counted: whatever an adversary sees over any number of resharings, all commitments included, as many draws
lead to it as when the secret is any other one and the commitments come from the simulator, which knows only the
public key. -/
theorem C146_moving (q : Nat) [CharP F q] :
    ∃ (e0 : Nat → Finset Nat → List F) (e : Nat → Finset Nat → Nat → List F), ∀ (B : G), Lin F B →
      ∀ (ps : List Period) (t : Nat) (C : Finset Nat), Full q ps t C → ∀ (secret other : F)
        (v : View F ps C) (w : Public G ps),
      Nat.card { r : Drawn F (t - 1) × Redraws F ps //
        seen ps C (secret :: r.1.1) r.2 = v ∧ published B ps (secret :: r.1.1) r.2 = w } =
      Nat.card { r : Drawn F (t - 1) × Redraws F ps //
        seen ps C (other :: r.1.1) r.2 = v ∧ simPublic B e0 e (secret • B) ps t C v = w } := by
  obtain ⟨e0, e, h⟩ := C146_published (F := F) (G := G) q
  refine ⟨e0, e, fun B hB ps t C hF secret other v w => ?_⟩
  have hl := hF.first
  have hp : ∀ r : Drawn F (t - 1) × Redraws F ps, seen ps C (secret :: r.1.1) r.2 = v →
      published B ps (secret :: r.1.1) r.2 = simPublic B e0 e (secret • B) ps t C v := by
    intro r hr
    rw [h B hB ps t C hF _ _ (by rw [List.length_cons, r.1.2]; omega), hr]
    rfl
  by_cases hw : simPublic B e0 e (secret • B) ps t C v = w
  · have e1 : ∀ r : Drawn F (t - 1) × Redraws F ps, (seen ps C (secret :: r.1.1) r.2 = v ∧
        published B ps (secret :: r.1.1) r.2 = w) ↔ seen ps C (secret :: r.1.1) r.2 = v :=
      fun r => ⟨fun h => h.1, fun h => ⟨h, (hp r h).trans hw⟩⟩
    have e2 : ∀ r : Drawn F (t - 1) × Redraws F ps, (seen ps C (other :: r.1.1) r.2 = v ∧
        simPublic B e0 e (secret • B) ps t C v = w) ↔ seen ps C (other :: r.1.1) r.2 = v :=
      fun r => ⟨fun h => h.1, fun h => ⟨h, hw⟩⟩
    rw [Nat.card_congr (Equiv.subtypeEquivRight e1), Nat.card_congr (Equiv.subtypeEquivRight e2)]
    exact C145_count q ps t C hF.limited secret other v
  · have h1 : IsEmpty { r : Drawn F (t - 1) × Redraws F ps //
        seen ps C (secret :: r.1.1) r.2 = v ∧ published B ps (secret :: r.1.1) r.2 = w } :=
      ⟨fun r => hw ((hp r.1 r.2.1).symm.trans r.2.2)⟩
    have h2 : IsEmpty { r : Drawn F (t - 1) × Redraws F ps //
        seen ps C (other :: r.1.1) r.2 = v ∧ simPublic B e0 e (secret • B) ps t C v = w } :=
      ⟨fun r => hw r.2.2⟩
    rw [Nat.card_of_isEmpty, Nat.card_of_isEmpty]

end

section

variable [DistribSMul F G]

/-- C146: in an honest key generation, what the coalition gets from a participant outside it is what the simulator
computes from the distributed public key, the public keys of the other dealers and the shares dealt to the coalition;
and the commitments of the distributed key are a fixed linear function of the public key and the shares of the
coalition. The coefficients depend on nothing but the threshold and the coalition. -/
theorem C146_generation (q : Nat) [CharP F q] (E : DkgP.DkgEnv F G) (hS : E.suite.Lawful) (T : Nat) (C : Finset Nat)
    (hT : 2 ≤ T) (hq : ∀ i ∈ C, i + 1 < q) (hcard : C.card + 1 = T) :
    ∃ (e0 : List F) (e : Nat → List F), ∀ (N : Net F G), N.Honest E → T = (if N.t ≠ 0 then N.t else minimumT N.n) →
      ∀ Y, Y = (∑ l ∈ Finset.range N.n, N.sec l) • E.suite.base →
      (sumPoly N T).map (fun c => c • E.suite.base) =
        simCommits E.suite.base T C e0 e Y (fun i => ((⟨sumPoly N T⟩ : PriPoly F).eval i).v) ∧
      ∀ j < N.n, realView C (N.D j).dealer = simView E.suite (N.x j • E.suite.base) (N.pubs E) T C e0 e
        (Y - ∑ l ∈ (Finset.range N.n).erase j, N.sec l • E.suite.base)
        (fun i => ((⟨netPoly N T j⟩ : PriPoly F).eval i).v) := by
  obtain ⟨e0, e, he⟩ := exists_simBasis (F := F) q T C hq hT hcard
  refine ⟨e0, e, fun N hN hNT Y hY => ⟨?_, fun j hj => ?_⟩⟩
  · obtain ⟨h1, h2⟩ := sumPoly_cons N T (by omega)
    rw [C146_commits hS.base_lin he (sumPoly N T) h2 _ (fun _ _ => rfl), hY, h1]
    rfl
  · obtain ⟨-, hd, -, -, hth⟩ := honest_new hN.fair hj trivial
    have hnt : (N.D j).newT = T := by
      have := (newDistKeyHandler_ok (hN.fair.start j hj trivial)).newT
      rw [this, hNT]
      simp [Net.pubs]
    rw [hnt] at hd
    have hP : Y - ∑ l ∈ (Finset.range N.n).erase j, N.sec l • E.suite.base = N.sec j • E.suite.base := by
      rw [hY, Lin.sum hS.base_lin, ← Finset.add_sum_erase _ _ (Finset.mem_range.2 hj)]
      abel
    rw [hP]
    exact realView_eq hS.base_lin hd he _ (fun _ _ => rfl)

end

/-! ## Examples -/

namespace FeldmanSimExample

open Kyber.Toy ReshareSecrecyExample

theorem full : Full 11 periods 2 {2} := by
  refine ⟨⟨by decide, by decide, by decide⟩, by decide, by decide, ⟨by decide, by decide, by decide⟩, by decide,
    by decide, by decide, by decide, by decide⟩

/-- `SimBasis`: with threshold 2 and the share of holder 2, `f 3 = f₀ + 3 f₁`, so `f₁ = -4 f₀ + 4 f 3` modulo 11. -/
example : ∃ (e0 : List (ZMod 11)) (e : Nat → List (ZMod 11)), SimBasis 2 {2} e0 e ∧ e0.getD 1 0 = 7 ∧
    (e 2).getD 1 0 = 4 := by
  obtain ⟨e0, e, h⟩ := exists_simBasis (F := ZMod 11) 11 2 {2} (by decide) (by decide) (by decide)
  have h1 : (0 : ZMod 11) = e0.getD 1 0 * 1 + ∑ i ∈ {2}, polyVal ([1, 0] : List (ZMod 11)) ((i + 1 : Nat) : ZMod 11) *
    (e i).getD 1 0 := h.spec [1, 0] rfl 1 (by decide)
  have h2 : (1 : ZMod 11) = e0.getD 1 0 * 0 + ∑ i ∈ {2}, polyVal ([0, 1] : List (ZMod 11)) ((i + 1 : Nat) : ZMod 11) *
    (e i).getD 1 0 := h.spec [0, 1] rfl 1 (by decide)
  rw [Finset.sum_singleton] at h1 h2
  refine ⟨e0, e, h, ?_⟩
  generalize (e 2).getD 1 0 = u at *
  generalize e0.getD 1 0 = w at *
  clear h
  revert u w
  decide

/-- `C146_dealer`, `C146_count`: three verifiers, threshold 3, verifiers 0 and 2 controlled. -/
example : VssP.validT 3 ([6, 10, 4] : List (ZMod 11)) = true ∧ (∀ i ∈ ({0, 2} : Finset Nat), i + 1 < 11) ∧
    ({0, 2} : Finset Nat).card + 1 = 3 ∧ Lin (ZMod 11) envD.suite.base :=
  ⟨by decide, by decide, by decide, lawful.base_lin⟩

/-- What verifier 0 gets from a dealer with secret 7 is got from the simulator as often as from the dealer, and the
numbers are not zero. -/
example : ∃ (e0 : List (ZMod 11)) (e : Nat → List (ZMod 11)) (observed : DealView (ZMod 11) (ZMod 11) {0}),
    Nat.card { r : Drawn (ZMod 11) 1 // viewOf {0} (VssP.newDealer envD.suite 3 7 [6, 10, 4] 2 r.1) =
      some observed } =
    Nat.card { y : ({0} : Finset Nat) → ZMod 11 // (simView envD.suite ((3 : ZMod 11) • envD.suite.base) [6, 10, 4] 2
      {0} e0 e ((7 : ZMod 11) • envD.suite.base) (extend y)).restrict {0} (Finset.Subset.refl _) = observed } ∧
    Nat.card { r : Drawn (ZMod 11) 1 // viewOf {0} (VssP.newDealer envD.suite 3 7 [6, 10, 4] 2 r.1) =
      some observed } ≠ 0 := by
  obtain ⟨e0, e, h⟩ := C146_count 11 envD.suite lawful.base_lin [6, 10, 4] 2 (by decide) {0} (by decide) (by decide)
  obtain ⟨_, _, h'⟩ := C146_dealer 11 envD.suite lawful.base_lin [6, 10, 4] 2 (by decide) {0} (by decide) (by decide)
  obtain ⟨φ, hφ⟩ := h' 3 7
  obtain ⟨d, hd, -⟩ := hφ ⟨[5], rfl⟩
  refine ⟨e0, e, realView {0} d, h 3 7 {0} (Finset.Subset.refl _) _, ?_⟩
  have := finite_drawn (F := ZMod 11) 1
  have : Nonempty { r : Drawn (ZMod 11) 1 // viewOf {0} (VssP.newDealer envD.suite 3 7 [6, 10, 4] 2 r.1) =
      some (realView {0} d) } := ⟨⟨⟨[5], rfl⟩, by change viewOf {0} (VssP.newDealer _ _ _ _ _ [5]) = _; rw [hd]; rfl⟩⟩
  exact Nat.card_pos.ne'

/-- `C146_moving`: what is seen and published in some run of the two resharings occurs as often as with the secret
`other` and the simulator. -/
example (secret other : ZMod 11) (r : Drawn (ZMod 11) 1 × Redraws (ZMod 11) periods) : ∃ e0 e,
    Nat.card { r' : Drawn (ZMod 11) 1 × Redraws (ZMod 11) periods //
      seen periods {2} (secret :: r'.1.1) r'.2 = seen periods {2} (secret :: r.1.1) r.2 ∧
      published envDI.suite.base periods (secret :: r'.1.1) r'.2 =
        published envDI.suite.base periods (secret :: r.1.1) r.2 } =
    Nat.card { r' : Drawn (ZMod 11) 1 × Redraws (ZMod 11) periods //
      seen periods {2} (other :: r'.1.1) r'.2 = seen periods {2} (secret :: r.1.1) r.2 ∧
      simPublic envDI.suite.base e0 e (secret • envDI.suite.base) periods 2 {2}
        (seen periods {2} (secret :: r.1.1) r.2) = published envDI.suite.base periods (secret :: r.1.1) r.2 } := by
  obtain ⟨e0, e, h⟩ := C146_moving (F := ZMod 11) (G := ZMod 11) 11
  exact ⟨e0, e, h _ envDI_lawful.base_lin periods 2 {2} full secret other _ _⟩

/-- `C146_correct_dealer`: participant 0 of `net`, in a generation with any two others. -/
example : ∃ (e0 : List (ZMod 11)) (e : Nat → List (ZMod 11)),
    realView {1} ((net envD).D 0).dealer = simView envD.suite ((3 : ZMod 11) • envD.suite.base) [6, 10, 4] 2
      {1} e0 e ((7 : ZMod 11) • envD.suite.base) (fun i => ((⟨[7, 5]⟩ : PriPoly (ZMod 11)).eval i).v) := by
  obtain ⟨e0, e, h⟩ := C146_correct_dealer 11 envD.suite lawful.base_lin 2 {1} (by decide) (by decide) (by decide)
  exact ⟨e0, e, h _ 7 [5] _ (DkgPExample.net_honest.fair.start 0 (by decide) trivial) (by decide) 7
    (.inr ⟨rfl, rfl, by decide, rfl⟩)⟩

/-- `C146_generation`: the three participants of `net`, of which participant 1 is controlled; the key is 12. -/
example : ∃ (e0 : List (ZMod 11)) (e : Nat → List (ZMod 11)),
    realView {1} ((net envD).D 0).dealer = simView envD.suite ((3 : ZMod 11) • envD.suite.base) ((net envD).pubs envD) 2
      {1} e0 e ((12 : ZMod 11) • envD.suite.base - ∑ l ∈ (Finset.range 3).erase 0, (net envD).sec l • envD.suite.base)
      (fun i => ((⟨netPoly (net envD) 2 0⟩ : PriPoly (ZMod 11)).eval i).v) := by
  obtain ⟨e0, e, h⟩ := C146_generation 11 envD lawful 2 {1} (by decide) (by decide) (by decide)
  exact ⟨e0, e, (h (net envD) DkgPExample.net_honest rfl _ (by decide)).2 0 (by decide)⟩

/-- `C146_commits`: the commitments to `7 + 5 x` from `7 • B` and the share of holder 2. -/
example : ∃ (e0 : List (ZMod 11)) (e : Nat → List (ZMod 11)), ([7, 5] : List (ZMod 11)).map (fun c => c • (2 : ZMod 11)) =
    simCommits 2 2 {2} e0 e ((7 : ZMod 11) • (2 : ZMod 11)) (fun _ => 0) := by
  obtain ⟨e0, e, h⟩ := exists_simBasis (F := ZMod 11) 11 2 {2} (by decide) (by decide) (by decide)
  exact ⟨e0, e, C146_commits (Lin.of_module _) h [7, 5] rfl _ (by decide +kernel)⟩

end FeldmanSimExample

end Kyber.Props

namespace Kyber.Ed

open Kyber Kyber.ModInt Kyber.Poly Kyber.Spec Kyber.Props Kyber.VssP

/-- C146 on edwards25519. -/
theorem C146_edwards25519 (sha hash : Bytes → Bytes) :
    (∀ (pubs : List EdPt) (t : Nat), VssP.validT t pubs = true → ∀ C : Finset Nat, (∀ i ∈ C, i + 1 < L) →
      C.card + 1 = t → ∃ (e0 : List (ZMod L)) (e : Nat → List (ZMod L)), ∀ (x secret : ZMod L) (D : Finset Nat)
        (hD : D ⊆ C) (observed : DealView (ZMod L) EdPt D),
      Nat.card { r : Drawn (ZMod L) (t - 1) //
        viewOf D (VssP.newDealer (edSuite sha hash) x secret pubs t r.1) = some observed } =
      Nat.card { y : C → ZMod L // (simView (edSuite sha hash) (x • (edSuite sha hash).base) pubs t C e0 e
        (secret • (edSuite sha hash).base) (extend y)).restrict D hD = observed }) ∧
    ∃ (e0 : Nat → Finset Nat → List (ZMod L)) (e : Nat → Finset Nat → Nat → List (ZMod L)),
      ∀ (ps : List Period) (t : Nat) (C : Finset Nat), Full L ps t C → ∀ (secret other : ZMod L)
        (v : View (ZMod L) ps C) (w : Public EdPt ps),
      Nat.card { r : Drawn (ZMod L) (t - 1) × Redraws (ZMod L) ps // seen ps C (secret :: r.1.1) r.2 = v ∧
        published (edSuite sha hash).base ps (secret :: r.1.1) r.2 = w } =
      Nat.card { r : Drawn (ZMod L) (t - 1) × Redraws (ZMod L) ps // seen ps C (other :: r.1.1) r.2 = v ∧
        simPublic (edSuite sha hash).base e0 e (secret • (edSuite sha hash).base) ps t C v = w } := by
  refine ⟨fun pubs t hv C hq hc => C146_count L (edSuite sha hash) (edSuite_lawful sha hash).base_lin pubs t hv C hq hc,
    ?_⟩
  obtain ⟨e0, e, h⟩ := C146_moving (F := ZMod L) (G := EdPt) L
  exact ⟨e0, e, h _ (edSuite_lawful sha hash).base_lin⟩


example (sha hash : Bytes → Bytes) (P Q R : EdPt) :=
  (C146_edwards25519 sha hash).1 [P, Q, R] 2 rfl {2} (by intro i hi; simp at hi; subst hi; decide +kernel) rfl

end Kyber.Ed
