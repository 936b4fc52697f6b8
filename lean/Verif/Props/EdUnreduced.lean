/-
C151: a share of which the public check approves is the share that was committed to, whatever bytes it
is stored in.
-/
import Verif.Lemmas.Ed.TopDigit
import Verif.Model.Ed.Shares
import Verif.Props.EdScalar
import Verif.Props.EdPoint
import Verif.Props.EdRuns
import Verif.Props.EdBincode
import Verif.Props.VssPedersen

set_option linter.unusedSectionVars false

namespace Kyber.Ed

open Kyber Kyber.ModInt Kyber.Poly Kyber.Spec Kyber.Props

/-! ## Multiplication, exactly -/

/-- C69: multiplication by a stored scalar is right, for all points or just for the base point, exactly if
the 32 bytes are less than `lossFrom`, which is about 8.47 times `2^252`. -/
theorem C69_exact_partial (a : Bytes) (ha : a.length = 32) :
    ((∀ (s : Ext) (p : EdPt), s.Rep p → (ptMul a (some s)).Rep (leNat a • p)) ↔ leNat a < lossFrom) ∧
    ((ptMul a none).Rep (leNat a • basePt) ↔ leNat a < lossFrom) := by
  have key : ∀ q : Ext, q.Rep (mulVal a • basePt) → q.Rep (leNat a • basePt) → leNat a < lossFrom := by
    intro q h1 h2
    refine (mulVal_cast_iff ha).1 (base_inj ?_)
    rw [act_int, act_base]
    exact h1.pt_eq.symm.trans h2.pt_eq
  constructor
  · constructor
    · intro h
      exact key _ (scalarMult_mulVal baseExt_rep ha) (h _ _ baseExt_rep)
    · intro h s p hs
      have := scalarMult_mulVal hs ha
      rwa [mulVal_small h, Nat.cast_smul_eq_nsmul] at this
  · constructor
    · exact key _ (scalarMultBase_mulVal ha)
    · intro h
      have := scalarMultBase_mulVal ha
      rwa [mulVal_small h, Nat.cast_smul_eq_nsmul] at this

/-- Reduced scalars, and all below `2^255`, are on the safe side; `bigScalar` is not. -/
example : L < lossFrom ∧ 2 ^ 255 < lossFrom ∧ lossFrom < 2 ^ 256 ∧ ¬ leNat bigScalar < lossFrom := by decide +kernel

/-! ## The public check -/

theorem foldr_rep {xi : Bytes} {x : ZMod L} (hl : xi.length = 32) (hx : leNat xi = x.val) {us : List Ext} {cs : List EdPt}
    (h : List.Forall₂ Ext.Rep us cs) :
    (us.foldr (fun c v => ptAdd (ptMul xi (some v)) c) extZero).Rep (pointVal cs x) := by
  induction h with
  | nil => exact extZero_rep
  | cons hu _ ih =>
    rw [List.foldr_cons, pointVal, add_comm]
    refine ptAdd_rep ?_ hu
    have hlt : leNat xi < lossFrom := by
      rw [hx]
      exact lt_trans (ZMod.val_lt x) (by decide +kernel)
    have := scalarMult_mulVal ih hl
    rwa [mulVal_small hlt, Nat.cast_smul_eq_nsmul, hx, ← act_def] at this

/-- The evaluation of the code is that of the polynomial in the exponent. -/
theorem pubEval_rep {us : List Ext} {cs : List EdPt} (h : List.Forall₂ Ext.Rep us cs) (hne : cs ≠ []) (i : Nat)
    (hi : i + 1 < 2 ^ 63) : ∃ u, pubEvalExt us i = .ok u ∧ u.Rep (pointVal cs ((i + 1 : Nat) : ZMod L)) := by
  have hlen := h.length_eq
  obtain ⟨b, hb, hbl, hbv⟩ := C51_set_int64_partial (1 + i) (by omega) (by omega)
  unfold pubEvalExt
  rw [if_neg (by rw [hlen]; simpa using hne), hb]
  refine ⟨_, rfl, foldr_rep hbl ?_ h⟩
  have hL : i + 1 < L := lt_trans hi (by decide +kernel)
  rw [ZMod.val_natCast, Nat.mod_eq_of_lt hL]
  have : (1 + (i : Int)) % L = ((i + 1 : Nat) : Int) := by
    rw [Int.emod_eq_of_lt (by omega) (by omega)]
    push_cast
    ring
  rw [this] at hbv
  exact_mod_cast hbv

/-- The commitments `us` are those of the polynomial with coefficients `cs`. -/
def CommitTo (us : List Ext) (cs : List (ZMod L)) : Prop := List.Forall₂ Ext.Rep us (cs.map (fun c => c • basePt))

theorem val_map (cs : List (ZMod L)) (x : ZMod L) : pointVal (cs.map (fun c => c • basePt)) x = polyVal cs x • basePt :=
  pointVal_map_smul cs (lin_of_order L_smul_base) x

/-- C151, in full: if the check against the commitments to a polynomial approves of the 32 bytes that a
share is stored in, these are, modulo the order, the value of the polynomial. -/
def C151_statement : Prop :=
  ∀ (cs : List (ZMod L)) (us : List Ext) (s : Share Bytes), cs ≠ [] → CommitTo us cs → s.v.length = 32 →
    s.i + 1 < 2 ^ 63 → pubCheckExt none us s = .ok true →
    ((leNat s.v : Nat) : ZMod L) = polyVal cs ((s.i + 1 : Nat) : ZMod L)

/-- What the check decides, for all 32 bytes: whether the number that `Point::mul` takes them for is the
value of the polynomial. With or without an explicit base point. -/
theorem C151_check_iff_partial (cs : List (ZMod L)) (us : List Ext) (s : Share Bytes) (hne : cs ≠ [])
    (hc : CommitTo us cs) (hl : s.v.length = 32) (hi : s.i + 1 < 2 ^ 63) (b : Option Ext) (hb : b = none ∨ b = some baseExt) :
    ∃ r, pubCheckExt b us s = .ok r ∧
      (r = true ↔ ((mulVal s.v : Int) : ZMod L) = polyVal cs ((s.i + 1 : Nat) : ZMod L)) := by
  obtain ⟨u, hu, hr⟩ := pubEval_rep hc (by simpa using hne) s.i hi
  have hm : (ptMul s.v b).Rep (mulVal s.v • basePt) := by
    rcases hb with rfl | rfl
    · exact scalarMultBase_mulVal hl
    · exact scalarMult_mulVal baseExt_rep hl
  refine ⟨_, by unfold pubCheckExt; rw [hu, Res.bind_ok], ?_⟩
  rw [ptEq_iff hr hm, val_map, ← act_int]
  exact ⟨fun h => (base_inj h).symm, fun h => by rw [h]⟩

/-- The claim holds for the bytes below `lossFrom`, thus for all reduced scalars, and for no others:
every larger value is approved against some commitments although it is not the value of the polynomial. -/
theorem C151_exact_partial (v : Bytes) (hl : v.length = 32) (i : Nat) (hi : i + 1 < 2 ^ 63) :
    (∀ (cs : List (ZMod L)) (us : List Ext), cs ≠ [] → CommitTo us cs → pubCheckExt none us ⟨i, v⟩ = .ok true →
      ((leNat v : Nat) : ZMod L) = polyVal cs ((i + 1 : Nat) : ZMod L)) ↔ leNat v < lossFrom := by
  constructor
  · intro h
    obtain ⟨rep, hrep⟩ := exists_rep
    have hc : CommitTo [(rep (((mulVal v : Int) : ZMod L) • basePt)).ge] [((mulVal v : Int) : ZMod L)] :=
      .cons (hrep _) .nil
    obtain ⟨r, h1, h2⟩ := C151_check_iff_partial _ _ ⟨i, v⟩ (List.cons_ne_nil _ _) hc hl hi none (Or.inl rfl)
    have e : polyVal [((mulVal v : Int) : ZMod L)] ((i + 1 : Nat) : ZMod L) = ((mulVal v : Int) : ZMod L) := by
      simp [polyVal]
    rw [e] at h2
    have := h _ _ (List.cons_ne_nil _ _) hc (by rw [h1, h2.2 rfl])
    rw [e] at this
    exact (mulVal_cast_iff hl).1 this.symm
  · intro h cs us hne hc hch
    obtain ⟨r, h1, h2⟩ := C151_check_iff_partial cs us ⟨i, v⟩ hne hc hl hi none (Or.inl rfl)
    rw [h1, Res.ok.injEq] at hch
    rw [← h2.1 hch, (mulVal_cast_iff hl).2 h]

theorem C151_violated : ¬ C151_statement := by
  intro h
  have := (C151_exact_partial bigScalar (by decide) 0 (by norm_num)).1
    (fun cs us hne hc => h cs us ⟨0, bigScalar⟩ hne hc (by decide) (by norm_num))
  revert this
  decide +kernel

/-- A genuine share, in reduced form, is approved. -/
example (c d : ZMod L) : ∃ us, CommitTo us [c, d] ∧
    pubCheckExt none us ⟨2, leBytes 32 (c + d * 3).val⟩ = .ok true := by
  obtain ⟨rep, hrep⟩ := exists_rep
  have hc : CommitTo [(rep (c • basePt)).ge, (rep (d • basePt)).ge] [c, d] := .cons (hrep _) (.cons (hrep _) .nil)
  have hv : leNat (leBytes 32 (c + d * 3).val) = (c + d * 3).val := by
    rw [leNat_leBytes, Nat.mod_eq_of_lt]
    exact lt_of_lt_of_le (ZMod.val_lt _) (by decide +kernel)
  obtain ⟨r, h1, h2⟩ := C151_check_iff_partial [c, d] _ ⟨2, leBytes 32 (c + d * 3).val⟩ (by simp) hc (length_leBytes _ _)
    (by norm_num) none (Or.inl rfl)
  refine ⟨_, hc, ?_⟩
  rw [h1, h2.2]
  rw [mulVal_small (by rw [hv]; exact lt_trans (ZMod.val_lt _) (by decide +kernel)), hv, Int.cast_natCast,
    ZMod.natCast_zmod_val]
  simp [polyVal, Finset.sum_range_succ]

/-! ## How much a dealer can forge -/

/-- The order exceeds `2^252` by this much, about `2^125`. -/
def excess : Nat := L - 16 ^ 63

theorem excess_eq : 16 ^ 63 + excess = L := by decide +kernel

theorem gap_arith {e n r o x l : Nat} {k m : Int} (ho : 15 * o + 1 = 16 ^ 63) (hex : 16 ^ 63 + x = l)
    (g1 : 7 * o < r) (g2 : r ≤ 7 * o + x) (d1 : e * 16 ^ 63 ≤ n + 8 * o) (d2 : n + 8 * o < (e + 1) * 16 ^ 63)
    (hmv : m = (n : Int) - 16 ^ 63 * (e : Int)) (hk : m - r = l * k) : False := by
  have hk0 : k ≤ -1 ∨ 0 ≤ k := by omega
  have p63 : (16 : Nat) ^ 63 = 15 * o + 1 := ho.symm
  have p63' : (16 : Int) ^ 63 = 15 * (o : Int) + 1 := by exact_mod_cast p63
  rw [p63] at d1 d2 hex
  rw [p63'] at hmv
  have d1' : (e : Int) * (15 * o + 1) ≤ n + 8 * o := by exact_mod_cast d1
  have d2' : (n : Int) + 8 * o < (e + 1) * (15 * o + 1) := by exact_mod_cast d2
  rcases hk0 with hk0 | hk0
  · have : (l : Int) * k ≤ l * (-1) := mul_le_mul_of_nonneg_left hk0 (by omega)
    have e1 : (l : Int) = 15 * o + 1 + x := by exact_mod_cast hex.symm
    have e2 : (r : Int) ≤ 7 * o + x := by exact_mod_cast g2
    linarith
  · have : 0 ≤ (l : Int) * k := mul_nonneg (by omega) hk0
    have e2 : (7 : Int) * o < r := by exact_mod_cast g1
    linarith

/-- Against given commitments a wrong share is approved for nearly every index: all but the indices where
the value of the polynomial is one of `excess` many, out of `L`. A dealer can thus give any chosen verifier
a share that is approved and useless. -/
theorem C151_forgeable_iff (cs : List (ZMod L)) (us : List Ext) (hne : cs ≠ []) (hc : CommitTo us cs) (i : Nat)
    (hi : i + 1 < 2 ^ 63) :
    (∃ v : Bytes, v.length = 32 ∧ pubCheckExt none us ⟨i, v⟩ = .ok true ∧
      ((leNat v : Nat) : ZMod L) ≠ polyVal cs ((i + 1 : Nat) : ZMod L)) ↔
    ¬ (7 * ones63 < (polyVal cs ((i + 1 : Nat) : ZMod L)).val ∧
      (polyVal cs ((i + 1 : Nat) : ZMod L)).val ≤ 7 * ones63 + excess) := by
  set c := polyVal cs ((i + 1 : Nat) : ZMod L) with hcdef
  have hch : ∀ v : Bytes, v.length = 32 → (pubCheckExt none us ⟨i, v⟩ = .ok true ↔ ((mulVal v : Int) : ZMod L) = c) := by
    intro v hl
    obtain ⟨r, h1, h2⟩ := C151_check_iff_partial cs us ⟨i, v⟩ hne hc hl hi none (Or.inl rfl)
    rw [h1, Res.ok.injEq, h2]
  have ho := ones63_eq
  have hex := excess_eq
  have hcv : ((c.val : Nat) : ZMod L) = c := ZMod.natCast_zmod_val c
  have hcl : c.val < L := ZMod.val_lt c
  have hsmall : ∀ v : Bytes, v.length = 32 → ((mulVal v : Int) : ZMod L) = c →
      (((leNat v : Nat) : ZMod L) ≠ c ↔ 8 < topDigit v) := by
    intro v hl hm
    rw [← hm, ne_comm, Ne, mulVal_cast_iff hl, ← topDigit_le, not_le]
  have h16 : (16 : Nat) ^ 64 = 256 ^ 32 := by norm_num
  constructor
  · rintro ⟨v, hl, hv, hw⟩ ⟨g1, g2⟩
    have hm := (hch v hl).1 hv
    have ht := (hsmall v hl hm).1 hw
    -- the multiplier lies between -8 ones and 7 ones
    have hmv : mulVal v = (leNat v : Int) - 16 ^ 63 * (topDigit v : Int) := by
      unfold mulVal
      rw [if_neg (by omega)]
    have d1 : topDigit v * 16 ^ 63 ≤ leNat v + 8 * ones63 := Nat.div_mul_le_self _ _
    have d2 : leNat v + 8 * ones63 < (topDigit v + 1) * 16 ^ 63 :=
      Nat.lt_mul_of_div_lt (Nat.lt_succ_self _) (by positivity)
    obtain ⟨k, hk⟩ : ∃ k : Int, mulVal v - c.val = L * k := by
      have : ((mulVal v - c.val : Int) : ZMod L) = 0 := by
        rw [Int.cast_sub, hm, Int.cast_natCast, hcv, sub_self]
      exact (ZMod.intCast_zmod_eq_zero_iff_dvd _ _).1 this
    exact gap_arith ho hex g1 g2 d1 d2 hmv hk
  · intro hg
    -- both constructions
    have build : ∀ (n e : Nat) (m : Int), n < 16 ^ 64 → 8 < e → e * 16 ^ 63 ≤ n + 8 * ones63 → n + 8 * ones63 < (e + 1) * 16 ^ 63 →
        (n : Int) - 16 ^ 63 * (e : Int) = m → ((m : Int) : ZMod L) = c →
        ∃ v : Bytes, v.length = 32 ∧ pubCheckExt none us ⟨i, v⟩ = .ok true ∧ ((leNat v : Nat) : ZMod L) ≠ c := by
      intro n e m hn he h1 h2 h3 h4
      have hv : leNat (leBytes 32 n) = n := by rw [leNat_leBytes, Nat.mod_eq_of_lt (by rwa [← h16])]
      have ht : topDigit (leBytes 32 n) = e := by
        unfold topDigit
        rw [hv]
        exact Nat.div_eq_of_lt_le h1 h2
      have hm : mulVal (leBytes 32 n) = m := by
        unfold mulVal
        rw [ht, hv, if_neg (by omega), h3]
      refine ⟨leBytes 32 n, length_leBytes _ _, (hch _ (length_leBytes _ _)).2 (by rw [hm, h4]), ?_⟩
      rw [hsmall _ (length_leBytes _ _) (by rw [hm, h4]), ht]
      exact he
    by_cases h : c.val ≤ 7 * ones63
    · refine build (9 * 16 ^ 63 + c.val) 9 c.val ?_ (by norm_num) ?_ ?_ ?_ ?_
      · rw [pow_succ]; omega
      · omega
      · omega
      · push_cast; ring
      · rw [Int.cast_natCast, hcv]
    · have h' : 7 * ones63 + excess < c.val := by
        by_contra hx
        exact hg ⟨by omega, by omega⟩
      refine build (9 * 16 ^ 63 + (c.val - excess)) 10 ((c.val : Int) - L) ?_ (by norm_num) ?_ ?_ ?_ ?_
      · rw [pow_succ]; omega
      · omega
      · omega
      · have : excess ≤ c.val := by omega
        have hL : (L : Int) = 16 ^ 63 + excess := by exact_mod_cast hex.symm
        rw [hL]
        push_cast [Nat.cast_sub this]
        ring
      · rw [Int.cast_sub, Int.cast_natCast, Int.cast_natCast, ZMod.natCast_self, hcv, sub_zero]

/-- The exception is rare. -/
example : 2 ^ 126 * excess < L := by decide +kernel

/-! ## Deals -/

/-- The deal `d`, as the code holds it, reads as `d'` when it comes to `Point::mul`. -/
structure DealAs (d : VssP.Deal Bytes Ext) (d' : VssP.Deal (ZMod L) EdPt) : Prop where
  sid : d'.sessionId = d.sessionId
  t : d'.t = d.t
  i : d'.secShare.i = d.secShare.i
  v : d'.secShare.v = ((mulVal d.secShare.v : Int) : ZMod L)
  len : d.secShare.v.length = 32
  commits : List.Forall₂ Ext.Rep d.commitments d'.commitments

/-- What `verify_deal` looks at in the two states agrees. -/
structure AggAs (a : VssP.Aggregator Bytes Ext) (a' : VssP.Aggregator (ZMod L) EdPt) : Prop where
  n : a'.verifiers.length = a.verifiers.length
  sid : a'.sid = a.sid
  t : a'.t = a.t
  deal : a'.deal.isSome = a.deal.isSome

/-- `verify_deal` on stored bytes is `verify_deal` of the protocol model, with the number that `Point::mul`
takes the bytes of the share for: same verdict, and states that agree again. -/
theorem C151_verify_deal_partial (sha hash : Bytes → Bytes) (a : VssP.Aggregator Bytes Ext)
    (a' : VssP.Aggregator (ZMod L) EdPt) (ha : AggAs a a') (hn : a.verifiers.length < 2 ^ 63)
    (d : VssP.Deal Bytes Ext) (d' : VssP.Deal (ZMod L) EdPt) (hd : DealAs d d') (incl : Bool) :
    (verifyDealExt a d incl).2 = (a'.verifyDeal (edSuite sha hash) d' incl).2 ∧
      AggAs (verifyDealExt a d incl).1 (a'.verifyDeal (edSuite sha hash) d' incl).1 := by
  unfold verifyDealExt VssP.Aggregator.verifyDeal
  rw [ha.deal]
  by_cases h : (a.deal.isSome && incl) = true
  · rw [if_pos h, if_pos h]
    exact ⟨rfl, ha⟩
  · rw [if_neg h, if_neg h]
    have hr : AggAs (a.remember d) (a'.remember d') := by
      have := ha.deal
      unfold VssP.Aggregator.remember
      cases h1 : a.deal with
      | none =>
        rw [h1] at this
        cases h2 : a'.deal with
        | none => exact ⟨ha.n, hd.sid, hd.t, rfl⟩
        | some y => rw [h2] at this; cases this
      | some x =>
        rw [h1] at this
        cases h2 : a'.deal with
        | none => rw [h2] at this; cases this
        | some y => exact ha
    have hn' : (a.remember d).verifiers.length < 2 ^ 63 := by
      unfold VssP.Aggregator.remember
      split <;> exact hn
    refine ⟨?_, hr⟩
    show checkDealExt _ _ = VssP.Aggregator.checkDeal _ _ _
    generalize a.remember d = b at hr hn'
    generalize a'.remember d' = b' at hr
    unfold checkDealExt VssP.Aggregator.checkDeal
    have hvt : VssP.validT d'.t b'.verifiers = VssP.validT d.t b.verifiers := by
      unfold VssP.validT
      rw [hd.t, hr.n]
    rw [hvt, hd.t, hr.t, hr.sid, hd.sid, hr.n, hd.i]
    by_cases c1 : VssP.validT d.t b.verifiers = false
    · rw [if_pos c1, if_pos c1]
    rw [if_neg c1, if_neg c1]
    by_cases c2 : d.t ≠ b.t
    · rw [if_pos c2, if_pos c2]
    rw [if_neg c2, if_neg c2]
    by_cases c3 : b.sid ≠ d.sessionId
    · rw [if_pos c3, if_pos c3]
    rw [if_neg c3, if_neg c3]
    by_cases c4 : b.verifiers.length ≤ d.secShare.i
    · rw [if_pos c4, if_pos c4]
    rw [if_neg c4, if_neg c4]
    by_cases hne : d'.commitments = []
    · have h0 : d.commitments = [] := by
        have := hd.commits
        rw [hne] at this
        exact List.forall₂_nil_right_iff.1 this
      unfold pubEvalExt PubPoly.eval
      rw [if_pos (by rw [h0]; rfl), if_pos (by rw [hne]; rfl)]
      rfl
    · obtain ⟨u, hu, hrep⟩ := pubEval_rep hd.commits hne d.secShare.i (by omega)
      rw [hu, pubEval_eq (F := ZMod L) (⟨none, d'.commitments⟩ : PubPoly EdPt) hne d.secShare.i, Res.mapErr_ok,
        Res.mapErr_ok, Res.bind_ok, Res.bind_ok]
      have hm := scalarMultBase_mulVal hd.len
      have e := ptEq_iff hm hrep
      have hb : d'.secShare.v • (edSuite sha hash).base = mulVal d.secShare.v • basePt := by
        rw [hd.v]
        exact act_int _
      rw [hb]
      by_cases c5 : mulVal d.secShare.v • basePt = pointVal d'.commitments ((d.secShare.i + 1 : Nat) : ZMod L)
      · rw [if_neg (by rw [e.2 c5]; simp), if_neg (by simpa using c5)]
      · rw [if_pos, if_pos c5]
        rw [← Bool.not_eq_true, e]
        exact c5

/-- A dealer's freedom: for every committed polynomial, every set of verifiers and every threshold that is
acceptable, and every verifier but those at the rare exceptional values, there is a deal with the
right commitments and the right index that a verifier approves of and keeps although the share in it is
not the committed one. -/
theorem C151_deal_forged (verifiers : List Ext) (hn : verifiers.length < 2 ^ 63) (t : Nat)
    (ht : VssP.validT t verifiers = true) (sid : Bytes) (cs : List (ZMod L)) (us : List Ext) (hne : cs ≠ [])
    (hc : CommitTo us cs) (i : Nat) (hi : i < verifiers.length)
    (hg : ¬ (7 * ones63 < (polyVal cs ((i + 1 : Nat) : ZMod L)).val ∧
      (polyVal cs ((i + 1 : Nat) : ZMod L)).val ≤ 7 * ones63 + excess)) :
    ∃ v : Bytes, v.length = 32 ∧
      (verifyDealExt (VssP.newEmptyAggregator verifiers) ⟨sid, ⟨i, v⟩, t, us⟩ true).2 = .ok () ∧
      (verifyDealExt (VssP.newEmptyAggregator verifiers) ⟨sid, ⟨i, v⟩, t, us⟩ true).1.deal = some ⟨sid, ⟨i, v⟩, t, us⟩ ∧
      ((leNat v : Nat) : ZMod L) ≠ polyVal cs ((i + 1 : Nat) : ZMod L) := by
  obtain ⟨v, hl, hch, hw⟩ := (C151_forgeable_iff cs us hne hc i (by omega)).2 hg
  refine ⟨v, hl, ?_, rfl, hw⟩
  obtain ⟨r, h1, h2⟩ := C151_check_iff_partial cs us ⟨i, v⟩ hne hc hl (by omega : i + 1 < 2 ^ 63) none (Or.inl rfl)
  rw [h1, Res.ok.injEq] at hch
  obtain ⟨u, hu, hr⟩ := pubEval_rep hc (by simpa using hne) i (by omega)
  show checkDealExt _ _ = _
  unfold checkDealExt
  rw [if_neg (by simpa [VssP.newEmptyAggregator, VssP.Aggregator.remember] using ht),
    if_neg (by simp [VssP.newEmptyAggregator, VssP.Aggregator.remember]),
    if_neg (by simp [VssP.newEmptyAggregator, VssP.Aggregator.remember]),
    if_neg (by simpa [VssP.newEmptyAggregator, VssP.Aggregator.remember] using hi)]
  rw [hu, Res.mapErr_ok, Res.bind_ok]
  have hm := scalarMultBase_mulVal hl
  rw [if_neg]
  rw [Bool.not_eq_false, ptEq_iff hm hr, val_map, ← act_int, h2.1 hch]

/-- A case: three verifiers, threshold 2, and the polynomial `1 + x`. -/
example (verifiers : List Ext) (h : verifiers.length = 3) : ∃ us, CommitTo us [1, 1] ∧
    VssP.validT 2 verifiers = true ∧ ∃ v : Bytes, v.length = 32 ∧
      (verifyDealExt (VssP.newEmptyAggregator verifiers) ⟨[], ⟨1, v⟩, 2, us⟩ true).2 = .ok () ∧
      ((leNat v : Nat) : ZMod L) ≠ 3 := by
  obtain ⟨rep, hrep⟩ := exists_rep
  have hc : CommitTo [(rep ((1 : ZMod L) • basePt)).ge, (rep ((1 : ZMod L) • basePt)).ge] [1, 1] :=
    .cons (hrep _) (.cons (hrep _) .nil)
  have ht : VssP.validT 2 verifiers = true := by unfold VssP.validT; rw [h]; rfl
  have e : polyVal [(1 : ZMod L), 1] ((1 + 1 : Nat) : ZMod L) = ((3 : Nat) : ZMod L) := by
    simp [polyVal, Finset.sum_range_succ]
    norm_num
  have e3 : (((3 : Nat) : ZMod L)).val = 3 := by
    rw [ZMod.val_natCast, Nat.mod_eq_of_lt (by decide +kernel)]
  obtain ⟨v, h1, h2, -, h4⟩ := C151_deal_forged verifiers (by omega) 2 ht [] [1, 1] _ (by simp) hc 1 (by omega) (by
    rw [e, e3]
    decide +kernel)
  exact ⟨_, hc, ht, v, h1, h2, by rw [e] at h4; exact_mod_cast h4⟩

/-- A deal of the Rabin scheme, as the code holds it and as `Point::mul` reads it. -/
structure RDealAs (d : VssR.Deal Bytes Ext) (d' : VssR.Deal (ZMod L) EdPt) : Prop where
  sid : d'.sessionId = d.sessionId
  t : d'.t = d.t
  i : d'.secShare.i = d.secShare.i
  j : d'.rndShare.i = d.rndShare.i
  v : d'.secShare.v = ((mulVal d.secShare.v : Int) : ZMod L)
  w : d'.rndShare.v = ((mulVal d.rndShare.v : Int) : ZMod L)
  len : d.secShare.v.length = 32
  rlen : d.rndShare.v.length = 32
  commits : List.Forall₂ Ext.Rep d.commitments d'.commitments

theorem act_int_order {p : EdPt} (h : L • p = 0) (m : Int) : ((m : Int) : ZMod L) • p = m • p := by
  obtain ⟨n, hn⟩ : ∃ n : Nat, (n : Int) = m % L :=
    ⟨(m % L).toNat, Int.toNat_of_nonneg (Int.emod_nonneg _ (by exact_mod_cast prime_L.ne_zero))⟩
  have h1 : ((m : Int) : ZMod L) = ((n : Nat) : ZMod L) := by
    rw [← Int.cast_natCast n, hn, ZMod.intCast_mod]
  have h2 : m • p = (n : Int) • p := by
    conv_lhs => rw [← Int.emod_add_mul_ediv m L, ← hn]
    rw [add_smul, mul_comm, mul_smul, Nat.cast_smul_eq_nsmul ℤ L, h, smul_zero, add_zero]
  rw [h1, h2, act_mod h, Nat.cast_smul_eq_nsmul]

/-- The checks of the Rabin scheme, where the share and its blinding are multiplied by different points: the same, for
both shares. The second base point is of prime order, as are all points that `pick` makes. -/
theorem C151_rabin_partial (sha hash : Bytes → Bytes) (E : VssR.Env (ZMod L) EdPt) (hE : E.suite = edSuite sha hash)
    (a : VssR.Aggregator Bytes Ext) (a' : VssR.Aggregator (ZMod L) EdPt) (hn : a'.verifiers.length = a.verifiers.length)
    (hs : a'.sid = a.sid) (hlen : a.verifiers.length < 2 ^ 63) (h : Ext) (hh : h.Rep (VssR.deriveH E a'.verifiers))
    (hL : L • VssR.deriveH E a'.verifiers = 0) (d : VssR.Deal Bytes Ext) (d' : VssR.Deal (ZMod L) EdPt)
    (hd : RDealAs d d') : checkDealRabinExt h a d = a'.checkDeal E d' := by
  unfold checkDealRabinExt VssR.Aggregator.checkDeal
  have hvt : VssP.validT d'.t a'.verifiers = VssP.validT d.t a.verifiers := by
    unfold VssP.validT
    rw [hd.t, hn]
  rw [hvt, hs, hd.sid, hn, hd.i, hd.j]
  by_cases c1 : VssP.validT d.t a.verifiers = false
  · rw [if_pos c1, if_pos c1]
  rw [if_neg c1, if_neg c1]
  by_cases c2 : a.sid ≠ d.sessionId
  · rw [if_pos c2, if_pos c2]
  rw [if_neg c2, if_neg c2]
  by_cases c3 : d.secShare.i ≠ d.rndShare.i
  · rw [if_pos c3, if_pos c3]
  rw [if_neg c3, if_neg c3]
  by_cases c4 : a.verifiers.length ≤ d.secShare.i
  · rw [if_pos c4, if_pos c4]
  rw [if_neg c4, if_neg c4]
  by_cases hne : d'.commitments = []
  · have h0 : d.commitments = [] := by
      have := hd.commits
      rw [hne] at this
      exact List.forall₂_nil_right_iff.1 this
    unfold pubEvalExt PubPoly.eval
    rw [if_pos (by rw [h0]; rfl), if_pos (by rw [hne]; rfl)]
    rfl
  · obtain ⟨u, hu, hrep⟩ := pubEval_rep hd.commits hne d.secShare.i (by omega)
    rw [hu, pubEval_eq (F := ZMod L) (⟨none, d'.commitments⟩ : PubPoly EdPt) hne d.secShare.i, Res.mapErr_ok,
      Res.mapErr_ok, Res.bind_ok, Res.bind_ok]
    have hm := ptAdd_rep (scalarMultBase_mulVal hd.len) (scalarMult_mulVal hh hd.rlen)
    have e := ptEq_iff hm hrep
    have hb : d'.secShare.v • E.suite.base = mulVal d.secShare.v • basePt := by
      rw [hd.v, hE]
      exact act_int _
    have hg : d'.rndShare.v • VssR.deriveH E a'.verifiers = mulVal d.rndShare.v • VssR.deriveH E a'.verifiers := by
      rw [hd.w, act_int_order hL]
    rw [hb, hg]
    by_cases c5 : mulVal d.secShare.v • basePt + mulVal d.rndShare.v • VssR.deriveH E a'.verifiers =
        pointVal d'.commitments ((d.secShare.i + 1 : Nat) : ZMod L)
    · rw [if_neg (by rw [e.2 c5]; simp), if_neg (by simpa using c5)]
    · rw [if_pos, if_pos c5]
      rw [← Bool.not_eq_true, e]
      exact c5

/-- The hypotheses are met by fresh states and any stored deal: the deal read back always exists. -/
example (us : List Ext) (ps : List EdPt) (h : List.Forall₂ Ext.Rep us ps) (d : VssP.Deal Bytes Ext)
    (hl : d.secShare.v.length = 32) (cs : List EdPt) (hc : List.Forall₂ Ext.Rep d.commitments cs) :
    AggAs (VssP.newEmptyAggregator us) (VssP.newEmptyAggregator ps) ∧
      DealAs d ⟨d.sessionId, ⟨d.secShare.i, ((mulVal d.secShare.v : Int) : ZMod L)⟩, d.t, cs⟩ :=
  ⟨⟨h.length_eq.symm, rfl, rfl, rfl⟩, ⟨rfl, rfl, rfl, rfl, hl, hc⟩⟩

/-- The same for the other scheme, with a second base point of prime order, here twice the base point. -/
example (d : VssR.Deal Bytes Ext) (hl : d.secShare.v.length = 32) (hl' : d.rndShare.v.length = 32) (cs : List EdPt)
    (hc : List.Forall₂ Ext.Rep d.commitments cs) :
    RDealAs d ⟨d.sessionId, ⟨d.secShare.i, ((mulVal d.secShare.v : Int) : ZMod L)⟩,
      ⟨d.rndShare.i, ((mulVal d.rndShare.v : Int) : ZMod L)⟩, d.t, cs⟩ ∧ L • (2 • basePt) = 0 ∧
      ∃ h : Ext, h.Rep (2 • basePt) := by
  obtain ⟨rep, hrep⟩ := exists_rep
  exact ⟨⟨rfl, rfl, rfl, rfl, rfl, rfl, hl, hl', hc⟩, by rw [smul_comm, L_smul_base, smul_zero], _, hrep _⟩

/-! ## The share of the distributed key -/

/-- A deal whose share, for verifier `i`, passes the check. -/
def Approved (i m : Nat) (d : VssP.Deal Bytes Ext) : Prop :=
  d.secShare.v.length = 32 ∧ d.commitments.length = m ∧ (∃ Cs, List.Forall₂ Ext.Rep d.commitments Cs) ∧
    pubCheckExt none d.commitments ⟨i, d.secShare.v⟩ = .ok true

theorem Approved.val {i m : Nat} {d : VssP.Deal Bytes Ext} (h : Approved i m d) (hm : m ≠ 0) (hi : i + 1 < 2 ^ 63) :
    ∃ Cs, List.Forall₂ Ext.Rep d.commitments Cs ∧
      pointVal Cs ((i + 1 : Nat) : ZMod L) = ((mulVal d.secShare.v : Int) : ZMod L) • basePt := by
  obtain ⟨hl, hlen, ⟨Cs, hC⟩, hch⟩ := h
  refine ⟨Cs, hC, ?_⟩
  have hne : Cs ≠ [] := by
    rintro rfl
    have := hC.length_eq
    simp at this
    rw [this] at hlen
    exact hm hlen.symm
  obtain ⟨u, hu, hr⟩ := pubEval_rep hC hne i hi
  unfold pubCheckExt at hch
  rw [hu, Res.bind_ok, Res.ok.injEq] at hch
  rw [(ptEq_iff hr (scalarMultBase_mulVal hl)).1 hch, act_int]

theorem zip_rep {us ws : List Ext} {Cs Ds : List EdPt} (h : List.Forall₂ Ext.Rep us Cs) (g : List.Forall₂ Ext.Rep ws Ds) :
    List.Forall₂ Ext.Rep (List.zipWith ptAdd us ws) (List.zipWith (· + ·) Cs Ds) := by
  induction h generalizing ws Ds with
  | nil => exact .nil
  | cons h1 _ ih =>
    cases g with
    | nil => exact .nil
    | cons g1 g2 => exact .cons (ptAdd_rep h1 g1) (ih g2)

/-- Sum of the numbers the shares are worth modulo the order, and of those `Point::mul` takes them for. -/
def worth (ds : List (VssP.Deal Bytes Ext)) : ZMod L := (ds.map (fun d => ((leNat d.secShare.v : Nat) : ZMod L))).sum
@[inherit_doc worth] def taken (ds : List (VssP.Deal Bytes Ext)) : ZMod L :=
  (ds.map (fun d => ((mulVal d.secShare.v : Int) : ZMod L))).sum

theorem scAdd_len (a b : Bytes) (ha : a.length = 32) (hb : b.length = 32) : (scAdd a b).length = 32 := by
  rw [scAdd_val a b ha hb, length_leBytes]

theorem scAdd_cast (a b : Bytes) (ha : a.length = 32) (hb : b.length = 32) :
    ((leNat (scAdd a b) : Nat) : ZMod L) = ((leNat a : Nat) : ZMod L) + ((leNat b : Nat) : ZMod L) := by
  rw [scAdd_nat a b ha hb, ZMod.natCast_mod, Nat.cast_add]

theorem dkgKeyLoop_spec {i m : Nat} (hm : m ≠ 0) (hi : i + 1 < 2 ^ 63) (ds : List (VssP.Deal Bytes Ext))
    (h : ∀ d ∈ ds, Approved i m d) (sh : Bytes) (hsh : sh.length = 32) (hred : leNat sh < L) (p : List Ext) (Cs : List EdPt)
    (hp : List.Forall₂ Ext.Rep p Cs) (hpl : p.length = m) :
    ∃ b us Ds, dkgKeyLoop sh (some p) ds = .ok (b, some us) ∧ b.length = 32 ∧ leNat b < L ∧ us.length = m ∧
      ((leNat b : Nat) : ZMod L) = ((leNat sh : Nat) : ZMod L) + worth ds ∧ List.Forall₂ Ext.Rep us Ds ∧
      pointVal Ds ((i + 1 : Nat) : ZMod L) = pointVal Cs ((i + 1 : Nat) : ZMod L) + taken ds • basePt := by
  have hB := lin_of_order L_smul_base
  induction ds generalizing sh p Cs with
  | nil =>
    refine ⟨sh, p, Cs, rfl, hsh, hred, hpl, by simp [worth], hp, ?_⟩
    rw [show taken [] = 0 from rfl, hB.zero, add_zero]
  | cons d ds ih =>
    have hd := h d List.mem_cons_self
    obtain ⟨Ds, hD, hv⟩ := hd.val hm hi
    have hlen : p.length = d.commitments.length := by rw [hpl, hd.2.1]
    have hl1 : Cs.length = Ds.length := by rw [← hp.length_eq, ← hD.length_eq, hlen]
    obtain ⟨b, us, Es, h1, h2, h3, h4, h5, h6, h7⟩ := ih (fun x hx => h x (List.mem_cons_of_mem _ hx))
      (scAdd sh d.secShare.v) (scAdd_len _ _ hsh hd.1)
      (by rw [scAdd_nat _ _ hsh hd.1]; exact Nat.mod_lt _ prime_L.pos)
      (List.zipWith ptAdd p d.commitments) (List.zipWith (· + ·) Cs Ds) (zip_rep hp hD)
      (by rw [List.length_zipWith, ← hlen, hpl, min_self])
    refine ⟨b, us, Es, ?_, h2, h3, h4, ?_, h6, ?_⟩
    · rw [dkgKeyLoop]
      show (pubAddExt p d.commitments >>= fun p => dkgKeyLoop (scAdd sh d.secShare.v) (some p) ds) = _
      unfold pubAddExt
      rw [if_neg (not_not.2 hlen), Res.bind_ok]
      exact h1
    · rw [h5, scAdd_cast _ _ hsh hd.1, worth, worth, List.map_cons, List.sum_cons, add_assoc]
    · rw [h7, pointVal_zipWith_add hl1, hv, taken, taken, List.map_cons, List.sum_cons, hB.add, add_assoc]

/-- A participant whose deals were all approved computes a share of the distributed key and the commitments
to it. That share passes the check against those commitments exactly if the sums of what the received
shares are worth and of what `Point::mul` takes them for coincide. -/
theorem C151_key_partial (i m : Nat) (hm : m ≠ 0) (hi : i + 1 < 2 ^ 63) (ds : List (VssP.Deal Bytes Ext)) (hne : ds ≠ [])
    (h : ∀ d ∈ ds, Approved i m d) :
    ∃ b us r, dkgKeyExt ds = .ok (b, us) ∧ leNat b < L ∧ ((leNat b : Nat) : ZMod L) = worth ds ∧
      pubCheckExt none us ⟨i, b⟩ = .ok r ∧ (r = true ↔ worth ds = taken ds) := by
  have hB := lin_of_order L_smul_base
  obtain ⟨d, ds, rfl⟩ := List.exists_cons_of_ne_nil hne
  have hd := h d List.mem_cons_self
  obtain ⟨Cs, hC, hv⟩ := hd.val hm hi
  have hz : scZero.length = 32 := rfl
  obtain ⟨b, us, Ds, h1, h2, h3, h4, h5, h6, h7⟩ := dkgKeyLoop_spec hm hi ds (fun x hx => h x (List.mem_cons_of_mem _ hx))
    (scAdd scZero d.secShare.v) (scAdd_len _ _ hz hd.1) (by rw [scAdd_nat _ _ hz hd.1]; exact Nat.mod_lt _ prime_L.pos)
    d.commitments Cs hC hd.2.1
  have hDne : Ds ≠ [] := by
    rintro rfl
    have := h6.length_eq
    rw [h4] at this
    exact hm this
  obtain ⟨u, hu, hr⟩ := pubEval_rep h6 hDne i hi
  have hw : ((leNat b : Nat) : ZMod L) = worth (d :: ds) := by
    rw [h5, scAdd_cast _ _ hz hd.1, show leNat scZero = 0 by decide +kernel, Nat.cast_zero, zero_add, worth, worth,
      List.map_cons, List.sum_cons]
  refine ⟨b, us, _, ?_, h3, hw, by unfold pubCheckExt; rw [hu, Res.bind_ok], ?_⟩
  · unfold dkgKeyExt
    rw [dkgKeyLoop, h1]
    rfl
  · have hsm : leNat b < lossFrom := lt_trans h3 (by decide +kernel)
    have hb := scalarMultBase_mulVal h2
    rw [mulVal_small hsm, ← act_int, Int.cast_natCast, hw] at hb
    rw [ptEq_iff hr hb, h7, hv, ← hB.add]
    have : ((mulVal d.secShare.v : Int) : ZMod L) + taken ds = taken (d :: ds) := by
      rw [taken, taken, List.map_cons, List.sum_cons]
    rw [this]
    exact ⟨fun e => (base_inj e).symm, fun e => by rw [e]⟩

/-- With exactly one approved share out of range the result does not fit its commitments; with none it
does. -/
theorem C151_key_bad_partial (i m : Nat) (hm : m ≠ 0) (hi : i + 1 < 2 ^ 63) (ds es : List (VssP.Deal Bytes Ext))
    (h : ∀ d ∈ ds ++ es, Approved i m d) (hok : ∀ d ∈ ds ++ es, leNat d.secShare.v < lossFrom)
    (d : VssP.Deal Bytes Ext) (hd : Approved i m d) :
    ∃ b us r, dkgKeyExt (ds ++ d :: es) = .ok (b, us) ∧ pubCheckExt none us ⟨i, b⟩ = .ok r ∧
      (r = true ↔ leNat d.secShare.v < lossFrom) := by
  have hall : ∀ x ∈ ds ++ d :: es, Approved i m x := by
    intro x hx
    rcases List.mem_append.1 hx with h1 | h1
    · exact h x (List.mem_append_left _ h1)
    · rcases List.mem_cons.1 h1 with rfl | h1
      · exact hd
      · exact h x (List.mem_append_right _ h1)
  obtain ⟨b, us, r, h1, -, -, h4, h5⟩ := C151_key_partial i m hm hi (ds ++ d :: es) (by simp) hall
  refine ⟨b, us, r, h1, h4, ?_⟩
  have e : ∀ l : List (VssP.Deal Bytes Ext), (∀ x ∈ l, leNat x.secShare.v < lossFrom) → worth l = taken l := by
    intro l hl
    unfold worth taken
    congr 1
    refine List.map_congr_left (fun x hx => ?_)
    rw [mulVal_small (hl x hx), Int.cast_natCast]
  have e1 := e ds (fun x hx => hok x (List.mem_append_left _ hx))
  have e2 := e es (fun x hx => hok x (List.mem_append_right _ hx))
  have s1 : worth (ds ++ d :: es) = taken ds + (((leNat d.secShare.v : Nat) : ZMod L) + taken es) := by
    rw [← e1, ← e2, worth, worth, worth, List.map_append, List.sum_append, List.map_cons, List.sum_cons]
  have s2 : taken (ds ++ d :: es) = taken ds + (((mulVal d.secShare.v : Int) : ZMod L) + taken es) := by
    rw [taken, taken, taken, List.map_append, List.sum_append, List.map_cons, List.sum_cons]
  rw [h5, s1, s2, ← mulVal_cast_iff hd.1]
  constructor
  · intro h
    exact (add_right_cancel (add_left_cancel h)).symm
  · intro h
    rw [h]

/-- A case: verifier 1, one deal with a reduced share of `1 + x` and one with a forged one. Both are approved,
and the share of the key made from them does not fit the commitments made from them. -/
example : ∃ d e : VssP.Deal Bytes Ext, Approved 1 2 d ∧ leNat d.secShare.v < lossFrom ∧ Approved 1 2 e ∧
    ∃ b us, dkgKeyExt ([d] ++ e :: []) = .ok (b, us) ∧ pubCheckExt none us ⟨1, b⟩ = .ok false := by
  obtain ⟨rep, hrep⟩ := exists_rep
  have hc : CommitTo [(rep ((1 : ZMod L) • basePt)).ge, (rep ((1 : ZMod L) • basePt)).ge] [1, 1] :=
    .cons (hrep _) (.cons (hrep _) .nil)
  have ev : polyVal [(1 : ZMod L), 1] ((1 + 1 : Nat) : ZMod L) = ((3 : Nat) : ZMod L) := by
    simp [polyVal, Finset.sum_range_succ]
    norm_num
  have e3 : (((3 : Nat) : ZMod L)).val = 3 := by
    rw [ZMod.val_natCast, Nat.mod_eq_of_lt (by decide +kernel)]
  obtain ⟨v, h1, h2, h3⟩ := (C151_forgeable_iff [1, 1] _ (by simp) hc 1 (by norm_num)).2 (by rw [ev, e3]; decide +kernel)
  have n3 : leNat (leBytes 32 3) = 3 := by decide +kernel
  have hsm : leNat (leBytes 32 3) < lossFrom := by rw [n3]; decide +kernel
  obtain ⟨r, g1, g2⟩ := C151_check_iff_partial [1, 1] _ ⟨1, leBytes 32 3⟩ (by simp) hc (length_leBytes _ _) (by norm_num)
    none (Or.inl rfl)
  have hr : r = true := g2.2 (by rw [ev, mulVal_small hsm, n3]; norm_num)
  rw [hr] at g1
  have hbig : ¬ leNat v < lossFrom := by
    intro hlt
    obtain ⟨r', k1, k2⟩ := C151_check_iff_partial [1, 1] _ ⟨1, v⟩ (by simp) hc h1 (by norm_num) none (Or.inl rfl)
    rw [k1, Res.ok.injEq] at h2
    have := k2.1 h2
    rw [(mulVal_cast_iff h1).2 hlt] at this
    exact h3 this
  have ad : Approved 1 2 ⟨[], ⟨1, leBytes 32 3⟩, 2, _⟩ := ⟨length_leBytes _ _, rfl, ⟨_, hc⟩, g1⟩
  have ae : Approved 1 2 ⟨[], ⟨1, v⟩, 2, _⟩ := ⟨h1, rfl, ⟨_, hc⟩, h2⟩
  refine ⟨_, _, ad, hsm, ae, ?_⟩
  obtain ⟨b, us, r, p1, p2, p3⟩ := C151_key_bad_partial 1 2 (by norm_num) (by norm_num) [_] []
    (by intro d hd; rw [List.append_nil, List.mem_singleton] at hd; rw [hd]; exact ad)
    (by intro d hd; rw [List.append_nil, List.mem_singleton] at hd; rw [hd]; exact hsm) _ ae
  refine ⟨b, us, p1, ?_⟩
  rw [p2]
  congr 1
  rw [← Bool.not_eq_true, p3]
  exact hbig

/-- `C151_exact_partial`: a share below the group order is checked in earnest. -/
example := (C151_exact_partial scOne (by decide) 0 (by norm_num)).2 (by decide +kernel)

end Kyber.Ed
