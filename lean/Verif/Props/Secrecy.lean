/-
C134: the shares, deals and messages that fewer than `t` parties see are as likely for one secret as for any other
(`src/share/poly.rs`, `src/share/vss/rabin/vss.rs`, `src/share/dkg/rabin/dkg.rs`). The scalars drawn by `pick` are
taken to be uniform and independent, so that likelihood is the number of draws.
-/
import Mathlib.SetTheory.Cardinal.Finite
import Verif.Props.DkgRabinSecrecy

set_option linter.unusedSectionVars false

namespace Kyber.Spec

open Kyber.Poly Kyber.VssR Kyber.DkgR

/-- `n` scalars drawn one after the other. -/
abbrev Drawn (F : Type) (n : Nat) : Type := { l : List F // l.length = n }

/-- The draws of `new_dealer`: the coefficients of the secret polynomial above the constant one, and those of the
blinding polynomial. -/
abbrev Draws (F : Type) (t : Nat) : Type := Drawn F (t - 1) × Drawn F t

variable {F G : Type} [Field F] [AddCommGroup G] [SMul F G] [DecidableEq G]

/-- The session, the aggregator and the deals that the members of `coalition` get. -/
def dealerView (coalition : Finset Nat) :
    Res VssP.VssError (Dealer F G) → Option (Bytes × Aggregator F G × (coalition → Option (Deal F G)))
  | .ok d => some (d.sessionId, d.aggregator, fun i => d.deals[i.1]?)
  | _ => none

/-- The group in which `j` drew the secret `r.1` and the coefficients `r.2`. -/
def RNet.draw (E : Env F G) (N : RNet F G) (j : Nat) (r : F × Draws F N.t) : RNet F G :=
  N.choose j r.1 r.2.1.1 r.2.2.1
    (match newDistKeyGenerator E (N.x j) (N.pubs E) N.t r.1 r.2.1.1 r.2.2.1 with
      | .ok d => d
      | _ => N.D j)

/-- The distributed secret. -/
def RNet.total (N : RNet F G) : F := ∑ l ∈ Finset.range N.n, N.sec l

end Kyber.Spec

namespace Kyber.Props

open Kyber Kyber.Poly Kyber.Spec Kyber.VssR Kyber.DkgR

variable {F G : Type} [Field F] [AddCommGroup G] [DecidableEq G]

/-- Adding fixed scalars to the drawn ones. -/
def translate {n : Nat} (ds : Drawn F n) : Drawn F n ≃ Drawn F n where
  toFun l := ⟨List.zipWith (· + ·) l.1 ds.1, by rw [List.length_zipWith, l.2, ds.2, min_self]⟩
  invFun l := ⟨List.zipWith (· - ·) l.1 ds.1, by rw [List.length_zipWith, l.2, ds.2, min_self]⟩
  left_inv l := by
    obtain ⟨l, hl⟩ := l
    obtain ⟨ds, hd⟩ := ds
    refine Subtype.ext ?_
    simp only
    refine List.ext_getElem (by simp [hl, hd]) (fun i h1 h2 => by simp)
  right_inv l := by
    obtain ⟨l, hl⟩ := l
    obtain ⟨ds, hd⟩ := ds
    refine Subtype.ext ?_
    simp only
    refine List.ext_getElem (by simp [hl, hd]) (fun i h1 h2 => by simp)

/-- A polynomial with constant coefficient `c` that vanishes on the coalition. -/
theorem exists_shift (q : Nat) [CharP F q] (t : Nat) (ht : 1 ≤ t) (coalition : Finset Nat)
    (hq : ∀ i ∈ coalition, i + 1 < q) (hcard : coalition.card < t) (c : F) :
    ∃ cs : Drawn F (t - 1), ∀ i ∈ coalition, polyVal (c :: cs.1) ((i + 1 : Nat) : F) = 0 := by
  obtain ⟨⟨f⟩, hl, hs, hv⟩ := C05_no_secret_excluded q t coalition hq hcard (fun _ => (0 : F)) c
  simp only [PriPoly.threshold] at hl
  cases f with
  | nil => simp at hl; omega
  | cons a cs =>
    simp only [PriPoly.secret, List.head?_cons, Res.unwrap_some, Res.ok.injEq] at hs
    subst hs
    refine ⟨⟨cs, by simp only [List.length_cons] at hl; omega⟩, fun i hi => ?_⟩
    have := hv i hi
    rwa [eval_v] at this

/-- C134 for plain sharing: for each secret as many polynomials of threshold `t` give the observed shares to fewer than
`t` holders. -/
theorem C134_shares (q : Nat) [CharP F q] (t : Nat) (coalition : Finset Nat)
    (hq : ∀ i ∈ coalition, i + 1 < q) (hcard : coalition.card < t) (observed : Nat → F) (secret secret' : F) :
    Nat.card { f : Drawn F (t - 1) // ∀ i ∈ coalition, ((⟨secret :: f.1⟩ : PriPoly F).eval i).v = observed i } =
    Nat.card { f : Drawn F (t - 1) // ∀ i ∈ coalition, ((⟨secret' :: f.1⟩ : PriPoly F).eval i).v = observed i } := by
  obtain ⟨cs, hcs⟩ := exists_shift q t (by omega) coalition hq hcard (secret' - secret)
  refine Nat.card_congr ((translate cs).subtypeEquiv (fun f => ?_))
  refine forall₂_congr (fun i hi => ?_)
  rw [eval_v, eval_v]
  have e : secret' :: (translate cs f).1 = List.zipWith (· + ·) (secret :: f.1) ((secret' - secret) :: cs.1) := by
    simp [translate]
  rw [e, polyVal_zipWith_add (by simp [f.2, cs.2]), hcs i hi, add_zero]

section

variable [SMul F G]

/-- Moving the two polynomials along `ds` and `-h⁻¹ ds` leaves the commitments. -/
theorem commitsOf_shift {B H : G} (hl : Lin F B) {h : F} (hh : h ≠ 0) (hH : H = h • B) :
    ∀ f g ds : List F, f.length = g.length → ds.length = f.length →
      commitsOf B H (List.zipWith (· + ·) f ds) (List.zipWith (· + ·) g (ds.map (-h⁻¹ * ·))) = commitsOf B H f g := by
  intro f
  induction f with
  | nil => intro g ds h1 h2; simp [commitsOf]
  | cons a f ih =>
    intro g ds h1 h2
    cases g with
    | nil => simp at h1
    | cons b g => cases ds with
      | nil => simp at h2
      | cons c ds =>
        have := ih g ds (by simpa using h1) (by simpa using h2)
        unfold commitsOf at this ⊢
        simp only [List.map_cons, List.zipWith_cons_cons, this, List.cons.injEq, and_true]
        rw [hH, ← hl.mul, ← hl.mul, ← hl.add, ← hl.add]
        congr 1
        field_simp
        ring

/-- C134 for the Rabin VSS: the draws for one secret and those for another correspond one to one such that the
coalition of fewer than `t` verifiers gets the same from the dealer. -/
theorem C134_dealer (q : Nat) [CharP F q] (E : Env F G) (hl : Lin F E.suite.base) (x : F) (pubs : List G) (t : Nat)
    (hv : VssP.validT t pubs = true) (h : F) (hh : h ≠ 0) (hH : deriveH E pubs = h • E.suite.base)
    (coalition : Finset Nat) (hq : ∀ i ∈ coalition, i + 1 < q) (hcard : coalition.card < t) (c : F) :
    ∃ e : Draws F t ≃ Draws F t, ∀ (secret : F) (r : Draws F t), ∃ d d',
      VssR.newDealer E x secret pubs t r.1.1 r.2.1 = .ok d ∧
      VssR.newDealer E x (secret + c) pubs t (e r).1.1 (e r).2.1 = .ok d' ∧
      d'.sessionId = d.sessionId ∧ d'.aggregator = d.aggregator ∧ ∀ i ∈ coalition, d'.deals[i]? = d.deals[i]? := by
  have ht2 : 2 ≤ t := by
    simp only [VssP.validT, Bool.and_eq_true, decide_eq_true_eq] at hv; exact hv.1.1
  obtain ⟨cs, hcs⟩ := exists_shift q t (by omega) coalition hq hcard c
  have hlen : (c :: cs.1).length = t := by rw [List.length_cons, cs.2]; omega
  let gs : Drawn F t := ⟨(c :: cs.1).map (-h⁻¹ * ·), by rw [List.length_map, hlen]⟩
  refine ⟨(translate cs).prodCongr (translate gs), fun secret r => ?_⟩
  obtain ⟨⟨f, hf⟩, ⟨g, hg⟩⟩ := r
  obtain ⟨d, hd⟩ := newDealer_some E x secret pubs t f g hv (by omega) (by omega)
  obtain ⟨d', hd'⟩ := newDealer_some E x (secret + c) pubs t (translate cs ⟨f, hf⟩).1 (translate gs ⟨g, hg⟩).1 hv
    (translate cs ⟨f, hf⟩).2.ge (translate gs ⟨g, hg⟩).2.ge
  refine ⟨d, d', hd, hd', ?_⟩
  obtain ⟨f1, g1, hfl, hgl, -, hf1, hg1, -, -, -, -, -, -, -, -, hsid, hdeals, hagg⟩ := VssR.newDealer_ok hd
  obtain ⟨f2, g2, hfl', hgl', -, hf2, hg2, -, -, -, -, -, -, -, -, hsid', hdeals', hagg'⟩ := VssR.newDealer_ok hd'
  rw [List.take_of_length_le (by omega)] at hf1 hg1
  rw [List.take_of_length_le (by rw [(translate cs ⟨f, hf⟩).2])] at hf2
  rw [List.take_of_length_le (by rw [(translate gs ⟨g, hg⟩).2])] at hg2
  have ef : f2 = List.zipWith (· + ·) f1 (c :: cs.1) := by rw [hf2, hf1]; rfl
  have eg : g2 = List.zipWith (· + ·) g1 ((c :: cs.1).map (-h⁻¹ * ·)) := by rw [hg2, hg1]; rfl
  have hcomm : commitsOf E.suite.base (deriveH E pubs) f2 g2 = commitsOf E.suite.base (deriveH E pubs) f1 g1 := by
    rw [ef, eg]
    exact commitsOf_shift hl hh hH f1 g1 _ (by rw [hfl, hgl]) (by rw [hlen, hfl])
  have hs : d'.sessionId = d.sessionId := by rw [hsid', hcomm, hsid]
  have hfv : ∀ i ∈ coalition, (⟨f2⟩ : PriPoly F).eval i = (⟨f1⟩ : PriPoly F).eval i := by
    intro i hi
    rw [C01_eval_genuine, C01_eval_genuine]
    simp only
    rw [ef, polyVal_zipWith_add (by rw [hfl, hlen]), hcs i hi, add_zero]
  have hgv : ∀ i ∈ coalition, (⟨g2⟩ : PriPoly F).eval i = (⟨g1⟩ : PriPoly F).eval i := by
    intro i hi
    rw [C01_eval_genuine, C01_eval_genuine]
    simp only
    rw [eg, polyVal_zipWith_add (by rw [List.length_map, hgl, hlen]), Dss.polyVal_map_mul, hcs i hi, mul_zero, add_zero]
  refine ⟨hs, by rw [hagg', hagg, hcomm, hs], fun i hi => ?_⟩
  rw [hdeals', hdeals, List.getElem?_map, List.getElem?_map]
  by_cases hil : i < pubs.length
  · rw [List.getElem?_range hil]
    simp only [Option.map_some, hs, hcomm, hfv i hi, hgv i hi]
  · rw [List.getElem?_eq_none (by simpa using hil)]
    rfl

/-- C134 for the Rabin VSS, counted: whatever fewer than `t` verifiers get, as many draws of the dealer lead to it
with one secret as with any other. -/
theorem C134_dealer_count (q : Nat) [CharP F q] (E : Env F G) (hl : Lin F E.suite.base) (x : F) (pubs : List G)
    (t : Nat) (hv : VssP.validT t pubs = true) (h : F) (hh : h ≠ 0) (hH : deriveH E pubs = h • E.suite.base)
    (coalition : Finset Nat) (hq : ∀ i ∈ coalition, i + 1 < q) (hcard : coalition.card < t) (secret secret' : F)
    (seen : Bytes × Aggregator F G × (coalition → Option (Deal F G))) :
    Nat.card { r : Draws F t //
      dealerView coalition (VssR.newDealer E x secret pubs t r.1.1 r.2.1) = some seen } =
    Nat.card { r : Draws F t //
      dealerView coalition (VssR.newDealer E x secret' pubs t r.1.1 r.2.1) = some seen } := by
  obtain ⟨e, he⟩ := C134_dealer q E hl x pubs t hv h hh hH coalition hq hcard (secret' - secret)
  refine Nat.card_congr (e.subtypeEquiv (fun r => ?_))
  obtain ⟨d, d', h1, h2, h3, h4, h5⟩ := he secret r
  rw [show secret + (secret' - secret) = secret' by ring] at h2
  rw [h1, h2]
  have : (fun i : coalition => d'.deals[i.1]?) = (fun i : coalition => d.deals[i.1]?) := funext (fun i => h5 i.1 i.2)
  simp only [dealerView, h3, h4, this]

end

section

variable [DistribSMul F G]

theorem draw_honest (E : Env F G) (N : RNet F G) (h : N.Honest E) (j : Nat) (hj : j < N.n) (r : F × Draws F N.t)
    (d : Dealer F G) (hd : VssR.newDealer E (N.x j) r.1 (N.pubs E) N.t r.2.1.1 r.2.2.1 = .ok d) :
    ∃ dj, dj.dealer = d ∧ N.draw E j r = N.choose j r.1 r.2.1.1 r.2.2.1 dj ∧ (N.draw E j r).Honest E := by
  obtain ⟨hfi, hdl, h3, h4, h5, h6, h7, h8, h9, h10⟩ := newDistKeyGenerator_ok (h.start j hj)
  have hdj : newDistKeyGenerator E (N.x j) (N.pubs E) N.t r.1 r.2.1.1 r.2.2.1 = .ok { N.D j with dealer := d } := by
    unfold newDistKeyGenerator
    simp only [hfi, hd, Res.mapErr_ok, Res.bind_ok]
    rw [← h4, ← h3, ← h5, ← h6, h7, h8, h9, h10]
  have e : N.draw E j r = N.choose j r.1 r.2.1.1 r.2.2.1 { N.D j with dealer := d } := by
    unfold RNet.draw
    rw [hdj]
  refine ⟨_, rfl, e, ?_⟩
  rw [e]
  refine ⟨h.nodup, h.x, h.k, h.vk, h.ck, ?_⟩
  intro i hi
  by_cases hij : i = j
  · subst hij
    simp only [RNet.choose, if_pos]
    exact hdj
  · simp only [RNet.choose, if_neg hij]
    exact h.start i hi

theorem total_draw (E : Env F G) (N : RNet F G) (j : Nat) (hj : j < N.n) (r : F × Draws F N.t) :
    (N.draw E j r).total = r.1 + ∑ l ∈ (Finset.range N.n).erase j, N.sec l := by
  have hj' : j ∈ Finset.range (N.draw E j r).n := Finset.mem_range.2 hj
  unfold RNet.total
  rw [← Finset.add_sum_erase _ _ hj']
  simp only [RNet.draw, RNet.choose, if_pos]
  rw [Finset.sum_congr rfl (g := N.sec) (fun l hl => if_neg (Finset.ne_of_mem_erase hl))]

theorem choose_choose (N : RNet F G) (j : Nat) (s s' : F) (f f' g g' : List F) (d d' : Dkg F G) :
    (N.choose j s f g d).choose j s' f' g' d' = N.choose j s' f' g' d' := by
  unfold RNet.choose
  simp only [RNet.mk.injEq, true_and]
  refine ⟨?_, ?_, ?_, ?_⟩ <;> funext l <;> by_cases hl : l = j <;> simp [hl]

/-- C134 for the Rabin DKG: the draws of participant `j` correspond one to one to draws with which the distributed
secret is larger by `c`, such that the coalition sees the same. -/
theorem C134_generation (q : Nat) [CharP F q] (E : Env F G) (hS : E.suite.Lawful) (N : RNet F G) (h : N.Honest E)
    (w : F) (hw : w ≠ 0) (hH : deriveH E (N.pubs E) = w • E.suite.base)
    (coalition : Finset Nat) (hq : ∀ i ∈ coalition, i + 1 < q) (hcard : coalition.card < N.t)
    (j : Nat) (hj : j < N.n) (hjc : j ∉ coalition) (c : F) :
    ∃ e : F × Draws F N.t ≃ F × Draws F N.t, ∀ r,
      (N.draw E j r).Honest E ∧ (N.draw E j (e r)).Honest E ∧
      (N.draw E j (e r)).total = (N.draw E j r).total + c ∧
      RNet.SameView E coalition j (N.draw E j r) (N.draw E j (e r)) := by
  obtain ⟨-, hdl, -⟩ := newDistKeyGenerator_ok (h.start j hj)
  obtain ⟨-, -, -, -, -, -, -, hv, -⟩ := VssR.newDealer_ok hdl
  obtain ⟨e, he⟩ := C134_dealer q E hS.base_lin (N.x j) (N.pubs E) N.t hv w hw hH coalition hq hcard c
  refine ⟨(Equiv.addRight c).prodCongr e, fun r => ?_⟩
  obtain ⟨d, d', h1, h2, h3, h4, h5⟩ := he r.1 r.2
  obtain ⟨dj, k1, k2, k3⟩ := draw_honest E N h j hj r d h1
  obtain ⟨dj', k1', k2', k3'⟩ := draw_honest E N h j hj (r.1 + c, e r.2) d' h2
  refine ⟨k3, k3', ?_, ?_⟩
  · rw [total_draw E N j hj, total_draw E N j hj]
    simp only [Equiv.prodCongr_apply, Prod.map_fst, Equiv.coe_addRight]
    ring
  · show RNet.SameView E coalition j (N.draw E j r) (N.draw E j (r.1 + c, e r.2))
    have e1 : N.draw E j (r.1 + c, e r.2) = (N.draw E j r).choose j (r.1 + c) (e r.2).1.1 (e r.2).2.1 dj' := by
      rw [k2', k2, choose_choose]
    have eD : (N.draw E j r).D j = dj := by rw [k2]; exact if_pos rfl
    rw [e1]
    refine sameView_choose E _ k3 coalition j hj hjc _ _ _ dj' (by rw [← e1]; exact k3') ?_ ?_ ?_
    · rw [eD, k1, k1', h3]
    · rw [eD, k1, k1', h4]
    · rw [eD, k1, k1']; exact h5

theorem SameView.trans {E : Env F G} {coalition : Finset Nat} {j : Nat} {N N' N'' : RNet F G}
    (h : RNet.SameView E coalition j N N') (h' : RNet.SameView E coalition j N' N'') :
    RNet.SameView E coalition j N N'' := by
  obtain ⟨⟨a1, a2, a3, a4, a5, a6, a7⟩, b, c, d, e, f, g, s⟩ := h
  obtain ⟨⟨a1', a2', a3', a4', a5', a6', a7'⟩, b', c', d', e', f', g', s'⟩ := h'
  refine ⟨⟨a1'.trans a1, a2'.trans a2, a3'.trans a3, a4'.trans a4, a5'.trans a5, a6'.trans a6, a7'.trans a7⟩,
    fun l hl => (b' l hl).trans (b l hl), fun l i hi => (c' l i hi).trans (c l i hi), fun l i => (d' l i).trans (d l i),
    fun l hl => (e' l hl).trans (e l hl), fun rs hrs => (f' rs hrs).trans (f rs hrs),
    fun z ord i hi msgs hm => ⟨(g' z ord i hi msgs hm).1.trans (g z ord i hi msgs hm).1,
      (g' z ord i hi msgs hm).2.trans (g z ord i hi msgs hm).2⟩, fun i hi hin => ?_⟩
  have := s' i hi (by rw [a1]; exact hin)
  rw [a1] at this
  exact this.trans (s i hi hin)

theorem SameView.symm {E : Env F G} {coalition : Finset Nat} {j : Nat} {N N' : RNet F G}
    (h : RNet.SameView E coalition j N N') : RNet.SameView E coalition j N' N := by
  obtain ⟨⟨a1, a2, a3, a4, a5, a6, a7⟩, b, c, d, e, f, g, s⟩ := h
  refine ⟨⟨a1.symm, a2.symm, a3.symm, a4.symm, a5.symm, a6.symm, a7.symm⟩,
    fun l hl => (b l hl).symm, fun l i hi => (c l i hi).symm, fun l i => (d l i).symm,
    fun l hl => (e l hl).symm, fun rs hrs => (f rs hrs).symm,
    fun z ord i hi msgs hm => ⟨(g z ord i hi msgs hm).1.symm, (g z ord i hi msgs hm).2.symm⟩, fun i hi hin => ?_⟩
  rw [a1] at hin ⊢
  exact (s i hi hin).symm

/-- C134 for the Rabin DKG, counted: among the draws of `j` that look to the coalition like those of `N`, every
distributed secret comes out equally often. -/
theorem C134_generation_count (q : Nat) [CharP F q] (E : Env F G) (hS : E.suite.Lawful) (N : RNet F G)
    (h : N.Honest E) (w : F) (hw : w ≠ 0) (hH : deriveH E (N.pubs E) = w • E.suite.base)
    (coalition : Finset Nat) (hq : ∀ i ∈ coalition, i + 1 < q) (hcard : coalition.card < N.t)
    (j : Nat) (hj : j < N.n) (hjc : j ∉ coalition) (a a' : F) :
    Nat.card { r : F × Draws F N.t // RNet.SameView E coalition j N (N.draw E j r) ∧ (N.draw E j r).total = a } =
    Nat.card { r : F × Draws F N.t // RNet.SameView E coalition j N (N.draw E j r) ∧ (N.draw E j r).total = a' } := by
  obtain ⟨e, he⟩ := C134_generation q E hS N h w hw hH coalition hq hcard j hj hjc (a' - a)
  refine Nat.card_congr (e.subtypeEquiv (fun r => ?_))
  obtain ⟨-, -, h3, h4⟩ := he r
  refine and_congr ⟨fun hs => SameView.trans hs h4, fun hs => SameView.trans hs (SameView.symm h4)⟩ ?_
  rw [h3]
  constructor
  · rintro rfl; ring
  · intro hs
    have := congrArg (· - (a' - a)) hs
    simpa using this

end

namespace SecrecyExample

open Kyber.Toy

/-- A case for `C134_shares`: of the lines modulo 11 one passes the share 5 at index 1, whatever the secret. -/
example (secret : ZMod 11) : Nat.card { f : Drawn (ZMod 11) (2 - 1) //
      ∀ i ∈ ({1} : Finset Nat), ((⟨secret :: f.1⟩ : PriPoly (ZMod 11)).eval i).v = 5 } =
    Nat.card { f : Drawn (ZMod 11) (2 - 1) //
      ∀ i ∈ ({1} : Finset Nat), ((⟨3 :: f.1⟩ : PriPoly (ZMod 11)).eval i).v = 5 } :=
  C134_shares 11 2 {1} (by decide) (by decide) (fun _ => 5) secret 3

/-- One of them: 3 + x gives 5 at 2. -/
example : ((⟨[3, 1]⟩ : PriPoly (ZMod 11)).eval 1).v = 5 := by decide +kernel

/-- A case for `C134_dealer` and `C134_dealer_count`: a dealer for the three verifiers of `netR`. -/
example (seen : Bytes × Aggregator (ZMod 11) (ZMod 11) × (({1} : Finset Nat) → Option (Deal (ZMod 11) (ZMod 11)))) :
    Nat.card { r : Draws (ZMod 11) 2 //
      dealerView {1} (VssR.newDealer envR 3 7 [6, 10, 4] 2 r.1.1 r.2.1) = some seen } =
    Nat.card { r : Draws (ZMod 11) 2 //
      dealerView {1} (VssR.newDealer envR 3 0 [6, 10, 4] 2 r.1.1 r.2.1) = some seen } :=
  C134_dealer_count 11 envR lawful.base_lin 3 [6, 10, 4] 2 (by decide +kernel) 8 (by decide) (by decide +kernel) {1}
    (by decide) (by decide) 7 0 seen

/-- A case for `C134_generation` and `C134_generation_count`. -/
example (a : ZMod 11) :
    Nat.card { r : ZMod 11 × Draws (ZMod 11) 2 //
      RNet.SameView envR {1} 0 (netR envR) ((netR envR).draw envR 0 r) ∧ ((netR envR).draw envR 0 r).total = a } =
    Nat.card { r : ZMod 11 × Draws (ZMod 11) 2 //
      RNet.SameView envR {1} 0 (netR envR) ((netR envR).draw envR 0 r) ∧ ((netR envR).draw envR 0 r).total = 1 } :=
  C134_generation_count 11 envR lawful (netR envR) DkgRExample.netR_honest 8 (by decide) (by decide +kernel) {1}
    (by decide) (by decide) 0 (by decide) (by decide) a 1

end SecrecyExample

end Kyber.Props
