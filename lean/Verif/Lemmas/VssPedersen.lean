/-
Lemmas about the Pedersen VSS model.
-/
import Verif.Spec.VssPedersen
import Verif.Lemmas.Basic
import Verif.Lemmas.Shamir
import Verif.Lemmas.Schnorr
import Verif.Lemmas.Dh
import Mathlib.Algebra.BigOperators.Module

set_option linter.unusedSectionVars false

namespace Kyber.VssP

open Kyber.Poly Kyber.Spec

variable {F G : Type} [Field F] [AddCommGroup G] [DecidableEq G]

/-! ### How an aggregator can change -/

section

variable [SMul F G]

/-- What every call preserves: the verifiers, stored responses, the stored deal, the bad mark
and the timeout. -/
structure Ext (a a' : Aggregator F G) : Prop where
  verifiers : a'.verifiers = a.verifiers
  responses : ∀ i r, a.responses.get i = some r → a'.responses.get i = some r
  deal : ∀ d, a.deal = some d → a'.deal = some d
  bad : a.badDealer = true → a'.badDealer = true
  timeout : a.timeout = true → a'.timeout = true

theorem Ext.refl (a : Aggregator F G) : Ext a a :=
  ⟨rfl, fun _ _ h => h, fun _ h => h, fun h => h, fun h => h⟩

theorem Ext.trans {a b c : Aggregator F G} (h : Ext a b) (h' : Ext b c) : Ext a c :=
  ⟨h'.verifiers.trans h.verifiers, fun i r hr => h'.responses i r (h.responses i r hr),
    fun d hd => h'.deal d (h.deal d hd), fun hb => h'.bad (h.bad hb),
    fun hb => h'.timeout (h.timeout hb)⟩

theorem remember_ext (a : Aggregator F G) (d : Deal F G) : Ext a (a.remember d) := by
  unfold Aggregator.remember
  split
  · exact Ext.refl a
  · rename_i h
    exact ⟨rfl, fun _ _ h => h, fun d' h' => by simp [h] at h', fun h => h, fun h => h⟩

theorem remember_responses (a : Aggregator F G) (d : Deal F G) :
    (a.remember d).responses = a.responses := by
  unfold Aggregator.remember; split <;> rfl

theorem verifyDeal_fst (S : Suite F G) (a : Aggregator F G) (d : Deal F G) (b : Bool) :
    (a.verifyDeal S d b).1 = a ∨ (a.verifyDeal S d b).1 = a.remember d := by
  unfold Aggregator.verifyDeal; split
  · exact Or.inl rfl
  · exact Or.inr rfl

theorem verifyDeal_ext (S : Suite F G) (a : Aggregator F G) (d : Deal F G) (b : Bool) :
    Ext a (a.verifyDeal S d b).1 := by
  rcases verifyDeal_fst S a d b with h | h <;> rw [h]
  · exact Ext.refl a
  · exact remember_ext a d

theorem verifyDeal_responses (S : Suite F G) (a : Aggregator F G) (d : Deal F G) (b : Bool) :
    (a.verifyDeal S d b).1.responses = a.responses := by
  rcases verifyDeal_fst S a d b with h | h <;> rw [h]
  exact remember_responses a d

theorem addResponse_cases (a : Aggregator F G) (r : Response) :
    (∃ e, a.addResponse r = (a, .err e)) ∨
    (r.index < a.verifiers.length ∧ a.responses.get r.index = none ∧
      a.addResponse r = ({ a with responses := a.responses.insert r.index r }, .ok ())) := by
  unfold Aggregator.addResponse
  split
  · exact Or.inl ⟨_, rfl⟩
  · split
    · exact Or.inl ⟨_, rfl⟩
    · rename_i h1 h2
      refine Or.inr ⟨?_, by simpa using h2, rfl⟩
      simpa [findPub] using h1

theorem addResponse_ext (a : Aggregator F G) (r : Response) : Ext a (a.addResponse r).1 := by
  rcases addResponse_cases a r with ⟨e, h⟩ | ⟨-, hn, h⟩ <;> rw [h]
  · exact Ext.refl a
  · refine ⟨rfl, fun i r' hr => ?_, fun _ h => h, fun h => h, fun h => h⟩
    show (a.responses.insert r.index r).get i = some r'
    rw [AMap.get_insert, if_neg]
    · exact hr
    · rintro rfl; rw [hn] at hr; cases hr

theorem verifyResponse_cases (S : Suite F G) (a : Aggregator F G) (r : Response) :
    (∃ e, a.verifyResponse S r = (a, .err e)) ∨ a.verifyResponse S r = (a, .panic) ∨
    (∃ pub, (a.sid ≠ [] → r.sessionId = a.sid) ∧ a.verifiers[r.index]? = some pub ∧
      Schnorr.verify S pub (r.hash S) r.signature = .ok () ∧
      a.verifyResponse S r = a.addResponse r) := by
  unfold Aggregator.verifyResponse findPub
  split
  · exact Or.inl ⟨_, rfl⟩
  · rename_i h
    split
    · exact Or.inl ⟨_, rfl⟩
    · rename_i pub hp
      split
      · rename_i hv
        refine Or.inr (Or.inr ⟨pub, ?_, hp, hv, rfl⟩)
        intro hs; by_contra h'; exact h ⟨hs, h'⟩
      · exact Or.inl ⟨_, rfl⟩
      · exact Or.inr (Or.inl rfl)

theorem verifyResponse_ext (S : Suite F G) (a : Aggregator F G) (r : Response) :
    Ext a (a.verifyResponse S r).1 := by
  rcases verifyResponse_cases S a r with ⟨e, h⟩ | h | ⟨_, -, -, -, h⟩ <;> rw [h]
  · exact Ext.refl a
  · exact Ext.refl a
  · exact addResponse_ext a r

theorem verifyJustification_ext (S : Suite F G) (a : Aggregator F G) (j : Justification F G) :
    Ext a (a.verifyJustification S j).1 := by
  have hv := verifyDeal_ext S a j.deal false
  unfold Aggregator.verifyJustification
  split
  · exact Ext.refl a
  split
  · exact Ext.refl a
  split
  · exact Ext.refl a
  · simp only
    split
    · exact hv
    · exact ⟨hv.verifiers, hv.responses, hv.deal, fun _ => rfl, hv.timeout⟩
    · exact hv

theorem verifyJustification_responses (S : Suite F G) (a : Aggregator F G) (j : Justification F G) :
    (a.verifyJustification S j).1.responses = a.responses := by
  have hv := verifyDeal_responses S a j.deal false
  unfold Aggregator.verifyJustification
  split
  · rfl
  split
  · rfl
  split
  · rfl
  · simp only
    split <;> exact hv

/-- The reply of `process_encrypted_deal`. -/
def mkReply (E : Env F G) (v : Verifier F G) (d : Deal F G) (k : F) (status : Bool) : Response :=
  let r : Response := ⟨VssP.sessionId E.suite v.dealer v.verifiers d.commitments d.t, v.index,
    status, []⟩
  { r with signature := Schnorr.sign E.suite k v.longterm (r.hash E.suite) }

/-- All outcomes of `process_encrypted_deal`. -/
theorem processEncryptedDeal_cases (E : Env F G) (v : Verifier F G) (e : EncryptedDeal G) (k : F) :
    ((∃ err, v.processEncryptedDeal E e k = (v, .err err)) ∨
      v.processEncryptedDeal E e k = (v, .panic)) ∨
    ∃ d, v.decryptDeal E e = .ok d ∧ d.secShare.i = v.index ∧ v.aggregator.deal = none ∧
      ((v.aggregator.remember d).checkDeal E.suite d = .panic ∧
        v.processEncryptedDeal E e k =
          ({ v with aggregator := v.aggregator.remember d }, .panic) ∨
       ∃ status, ((v.aggregator.remember d).checkDeal E.suite d = .ok () ↔ status = true) ∧
        (v.processEncryptedDeal E e k).1 = { v with aggregator :=
          ((v.aggregator.remember d).addResponse (mkReply E v d k status)).1 } ∧
        (v.processEncryptedDeal E e k).2 =
          (((v.aggregator.remember d).addResponse (mkReply E v d k status)).2 >>=
            fun _ => .ok (mkReply E v d k status))) := by
  unfold Verifier.processEncryptedDeal
  split
  · exact Or.inl (Or.inl ⟨_, rfl⟩)
  · exact Or.inl (Or.inr rfl)
  · rename_i d hd
    split
    · exact Or.inl (Or.inl ⟨_, rfl⟩)
    · rename_i hi
      simp only [ne_eq, not_not] at hi
      unfold Verifier.processDeal Aggregator.verifyDeal
      by_cases hn : v.aggregator.deal = none
      · refine Or.inr ⟨d, hd, hi, hn, ?_⟩
        simp only [hn, Option.isSome_none, Bool.false_and, Bool.false_eq_true, if_false]
        cases hc : (v.aggregator.remember d).checkDeal E.suite d with
        | ok u => exact Or.inr ⟨true, by simp, rfl, rfl⟩
        | panic => exact Or.inl ⟨rfl, rfl⟩
        | err e' =>
          right
          refine ⟨false, by simp, ?_⟩
          have hne : e' ≠ .dealAlreadyProcessed := by
            rintro rfl
            revert hc
            unfold Aggregator.checkDeal
            split; · simp
            split; · simp
            split; · simp
            split; · simp
            unfold PubPoly.eval
            split
            · simp
            · simp only [Res.mapErr_ok, Res.bind_ok]
              split <;> simp
          cases e' <;> first | exact absurd rfl hne | exact ⟨rfl, rfl⟩
      · left; left
        obtain ⟨d0, hd0⟩ := Option.ne_none_iff_exists'.1 hn
        simp only [hd0, Option.isSome_some, Bool.true_and, if_true]
        exact ⟨_, rfl⟩

theorem processEncryptedDeal_ext (E : Env F G) (v : Verifier F G) (e : EncryptedDeal G) (k : F) :
    Ext v.aggregator (v.processEncryptedDeal E e k).1.aggregator := by
  rcases processEncryptedDeal_cases E v e k with (⟨_, h⟩ | h) | ⟨d, -, -, -, ⟨-, h⟩ | ⟨st, -, h, -⟩⟩
    <;> rw [h]
  · exact Ext.refl _
  · exact Ext.refl _
  · exact remember_ext _ d
  · exact (remember_ext _ d).trans (addResponse_ext _ _)

theorem vStep_ext (E : Env F G) (v : Verifier F G) (c : VCall F G) :
    Ext v.aggregator (vStep E v c).aggregator := by
  cases c with
  | encDeal e k => exact processEncryptedDeal_ext E v e k
  | response r => exact verifyResponse_ext E.suite v.aggregator r
  | justification j => exact verifyJustification_ext E.suite v.aggregator j
  | timeout => exact ⟨rfl, fun _ _ h => h, fun _ h => h, fun h => h, fun _ => rfl⟩
  | setThreshold t => exact ⟨rfl, fun _ _ h => h, fun _ h => h, fun h => h, fun h => h⟩
  | unsafeSet i b => exact addResponse_ext _ _
  | verifyDeal d b => exact verifyDeal_ext E.suite _ d b
  | addResponse r => exact addResponse_ext _ _

theorem vRun_ext (E : Env F G) (v : Verifier F G) (cs : List (VCall F G)) :
    Ext v.aggregator (vRun E v cs).aggregator := by
  induction cs generalizing v with
  | nil => exact Ext.refl _
  | cons c cs ih => exact (vStep_ext E v c).trans (ih (vStep E v c))

/-- The identity of a verifier never changes. -/
theorem vStep_ident (E : Env F G) (v : Verifier F G) (c : VCall F G) :
    (vStep E v c).verifiers = v.verifiers ∧ (vStep E v c).dealer = v.dealer ∧
    (vStep E v c).index = v.index ∧ (vStep E v c).longterm = v.longterm := by
  cases c with
  | encDeal e k =>
    show (v.processEncryptedDeal E e k).1.verifiers = _ ∧ (v.processEncryptedDeal E e k).1.dealer = _ ∧
      (v.processEncryptedDeal E e k).1.index = _ ∧ (v.processEncryptedDeal E e k).1.longterm = _
    rcases processEncryptedDeal_cases E v e k with (⟨_, h⟩ | h) | ⟨d, -, -, -, ⟨-, h⟩ | ⟨st, -, h, -⟩⟩
      <;> rw [h] <;> exact ⟨rfl, rfl, rfl, rfl⟩
  | response r => exact ⟨rfl, rfl, rfl, rfl⟩
  | justification j => exact ⟨rfl, rfl, rfl, rfl⟩
  | timeout => exact ⟨rfl, rfl, rfl, rfl⟩
  | setThreshold t => exact ⟨rfl, rfl, rfl, rfl⟩
  | unsafeSet i b => exact ⟨rfl, rfl, rfl, rfl⟩
  | verifyDeal d b => exact ⟨rfl, rfl, rfl, rfl⟩
  | addResponse r => exact ⟨rfl, rfl, rfl, rfl⟩

/-! ### An invariant principle for the stored responses -/

/-- If every way in which a call can add a response establishes `P`, every stored response
satisfies `P`. -/
theorem stored_inv (P : Nat → Response → Prop) (E : Env F G) (v : Verifier F G)
    (cs : List (VCall F G)) (h0 : ∀ i r, v.aggregator.responses.get i = some r → P i r)
    (hstep : ∀ (pre : List (VCall F G)) (c : VCall F G) (post : List (VCall F G)),
      cs = pre ++ c :: post →
      ∀ i r, (vRun E v pre).aggregator.responses.get i = none →
        (vStep E (vRun E v pre) c).aggregator.responses.get i = some r → P i r) :
    ∀ i r, (vRun E v cs).aggregator.responses.get i = some r → P i r := by
  induction cs using List.reverseRecOn with
  | nil => exact h0
  | append_singleton cs c ih =>
    intro i r hr
    have ih' := ih (fun pre c' post hpre => hstep pre c' (post ++ [c]) (by simp [hpre]))
    cases hg : (vRun E v cs).aggregator.responses.get i with
    | none => exact hstep cs c [] rfl i r hg (by simpa [vRun, List.foldl_append] using hr)
    | some r' =>
      have := (vStep_ext E (vRun E v cs) c).responses i r' hg
      have hr' : (vStep E (vRun E v cs) c).aggregator.responses.get i = some r := by
        simpa [vRun, List.foldl_append] using hr
      rw [this] at hr'
      cases hr'
      exact ih' i r hg

theorem addResponse_new {a : Aggregator F G} {r r' : Response} {i : Nat}
    (hn : a.responses.get i = none) (h : (a.addResponse r).1.responses.get i = some r') :
    r' = r ∧ i = r.index ∧ i < a.verifiers.length := by
  rcases addResponse_cases a r with ⟨e, h'⟩ | ⟨hl, -, h'⟩ <;> rw [h'] at h
  · rw [hn] at h; cases h
  · simp only [AMap.get_insert] at h
    split at h
    · rename_i hi; cases h; subst hi; exact ⟨rfl, rfl, hl⟩
    · rw [hn] at h; cases h

/-- Where a newly stored response comes from. -/
theorem vStep_new (E : Env F G) (v : Verifier F G) (c : VCall F G) (i : Nat) (r : Response)
    (hn : v.aggregator.responses.get i = none)
    (h : (vStep E v c).aggregator.responses.get i = some r) :
    r.index = i ∧ i < v.aggregator.verifiers.length ∧
    ((∃ e k d, c = .encDeal e k ∧ v.decryptDeal E e = .ok d ∧ i = v.index ∧ d.secShare.i = i ∧
        v.aggregator.deal = none ∧ r = mkReply E v d k r.status ∧
        ((v.aggregator.remember d).checkDeal E.suite d = .ok () ↔ r.status = true)) ∨
     (c = .response r ∧ (v.aggregator.sid ≠ [] → r.sessionId = v.aggregator.sid) ∧
        ∃ pub, v.aggregator.verifiers[i]? = some pub ∧
          Schnorr.verify E.suite pub (r.hash E.suite) r.signature = .ok ()) ∨
     c = .addResponse r ∨ ∃ b, c = .unsafeSet i b) := by
  cases c with
  | encDeal e k =>
    change (v.processEncryptedDeal E e k).1.aggregator.responses.get i = some r at h
    rcases processEncryptedDeal_cases E v e k with
      (⟨_, h'⟩ | h') | ⟨d, hd, hi, hnone, ⟨-, h'⟩ | ⟨st, hst, h', -⟩⟩ <;> rw [h'] at h
    · rw [hn] at h; cases h
    · rw [hn] at h; cases h
    · rw [show ({ v with aggregator := v.aggregator.remember d } : Verifier F G).aggregator.responses =
        v.aggregator.responses from remember_responses _ _, hn] at h; cases h
    · obtain ⟨h1, h2, h3⟩ := addResponse_new (by rw [remember_responses]; exact hn) h
      have h4 : i = v.index := h2
      rw [(remember_ext v.aggregator d).verifiers] at h3
      refine ⟨by rw [h1]; exact h2.symm, h3, Or.inl ⟨e, k, d, rfl, hd, h4, by rw [hi, h4], hnone, ?_, ?_⟩⟩
      · rw [h1]; rfl
      · rw [h1]; exact hst
  | response r' =>
    change (v.aggregator.verifyResponse E.suite r').1.responses.get i = some r at h
    rcases verifyResponse_cases E.suite v.aggregator r' with ⟨e, h'⟩ | h' | ⟨pub, h1, h2, h3, h'⟩ <;>
      rw [h'] at h
    · rw [hn] at h; cases h
    · rw [hn] at h; cases h
    · obtain ⟨rfl, rfl, h6⟩ := addResponse_new hn h
      exact ⟨rfl, h6, Or.inr (Or.inl ⟨rfl, h1, pub, h2, h3⟩)⟩
  | justification j =>
    change (v.aggregator.verifyJustification E.suite j).1.responses.get i = some r at h
    rw [verifyJustification_responses, hn] at h; cases h
  | timeout => change v.aggregator.responses.get i = some r at h; rw [hn] at h; cases h
  | setThreshold t => change v.aggregator.responses.get i = some r at h; rw [hn] at h; cases h
  | unsafeSet j b =>
    obtain ⟨h1, h2, h3⟩ := addResponse_new hn h
    have h4 : i = j := h2
    subst h4
    exact ⟨by rw [h1], h3, Or.inr (Or.inr (Or.inr ⟨b, rfl⟩))⟩
  | verifyDeal d b =>
    change (v.aggregator.verifyDeal E.suite d b).1.responses.get i = some r at h
    rw [verifyDeal_responses, hn] at h; cases h
  | addResponse r' =>
    obtain ⟨rfl, rfl, h3⟩ := addResponse_new hn h
    exact ⟨rfl, h3, Or.inr (Or.inr (Or.inl rfl))⟩

/-! ### Counting -/

theorem count_eq (a : Aggregator F G) (l : List Nat) :
    a.count l = ((l.filter (fun i => (a.responses.get i).isNone)).length,
      (l.filter (fun i => ((a.responses.get i).map Response.status) == some true)).length,
      l.any (fun i => ((a.responses.get i).map Response.status) == some false)) := by
  induction l with
  | nil => rfl
  | cons i l ih =>
    simp only [Aggregator.count, ih, List.filter_cons, List.any_cons]
    cases h : a.responses.get i with
    | none => simp
    | some r => cases hr : r.status <;> simp [hr]

theorem card_filter_range (n : Nat) (p : Nat → Bool) :
    ((List.range n).filter p).length = ((Finset.range n).filter (fun i => p i = true)).card := by
  induction n with
  | zero => rfl
  | succ n ih =>
    rw [List.range_succ, List.filter_append, List.length_append, ih, Finset.range_add_one,
      Finset.filter_insert]
    by_cases h : p n = true
    · rw [if_pos h, Finset.card_insert_of_notMem (by simp)]; simp [h]
    · rw [if_neg h]; simp [h]

theorem count_range (a : Aggregator F G) (n : Nat) :
    a.count (List.range n) = ((missing a.responses n).card, (approvedBy a.responses n).card,
      decide (complainedBy a.responses n ≠ ∅)) := by
  rw [count_eq, card_filter_range, card_filter_range]
  have h1 : (Finset.range n).filter (fun i => (a.responses.get i).isNone = true) =
      missing a.responses n := by
    unfold missing; congr 1; ext i; simp
  have h2 : (Finset.range n).filter (fun i => (((a.responses.get i).map Response.status) == some true) = true) =
      approvedBy a.responses n := by
    unfold approvedBy; congr 1; ext i; simp
  rw [h1, h2]
  congr 2
  rw [Bool.eq_iff_iff]
  simp only [List.any_eq_true, List.mem_range, decide_eq_true_eq, ne_eq,
    ← Finset.nonempty_iff_ne_empty, Finset.Nonempty, complainedBy, Finset.mem_filter, Finset.mem_range]
  constructor
  · rintro ⟨i, hi, h⟩
    exact ⟨i, hi, by simpa using h⟩
  · rintro ⟨i, hi, h⟩
    exact ⟨i, hi, by simpa using h⟩

theorem partition_card (resp : AMap Response) (n : Nat) :
    (missing resp n).card + (approvedBy resp n).card + (complainedBy resp n).card = n := by
  have hd1 : Disjoint (missing resp n) (approvedBy resp n) := by
    rw [Finset.disjoint_left]
    intro i h1 h2
    simp only [missing, approvedBy, Finset.mem_filter] at h1 h2
    obtain ⟨-, r, hr, -⟩ := h2
    rw [h1.2] at hr; cases hr
  have hd2 : Disjoint (missing resp n ∪ approvedBy resp n) (complainedBy resp n) := by
    rw [Finset.disjoint_left]
    intro i h1 h2
    simp only [missing, approvedBy, complainedBy, Finset.mem_union, Finset.mem_filter] at h1 h2
    obtain ⟨-, r, hr, hs⟩ := h2
    rcases h1 with ⟨-, h1⟩ | ⟨-, r', hr', hs'⟩
    · rw [h1] at hr; cases hr
    · rw [hr] at hr'; cases hr'; rw [hs] at hs'; cases hs'
  rw [← Finset.card_union_of_disjoint hd1, ← Finset.card_union_of_disjoint hd2]
  have : missing resp n ∪ approvedBy resp n ∪ complainedBy resp n = Finset.range n := by
    ext i
    simp only [missing, approvedBy, complainedBy, Finset.mem_union, Finset.mem_filter]
    cases h : resp.get i with
    | none => simp
    | some r => cases hr : r.status <;> simp [hr]
  rw [this, Finset.card_range]

/-! ### Interpolation in the exponent -/

theorem indices_map_some {α β : Type} (l : List α) (f : α → Share β) :
    indices (l.map (fun a => some (f a))) = (l.map (fun a => (f a).i)).toFinset := by
  unfold indices
  congr 1
  induction l with
  | nil => rfl
  | cons a l ih => exact congrArg (List.cons _) ih

end

section

variable [Module F G]

/-- Interpolating at 0 the values of a committed polynomial gives the first commitment. -/
theorem lagrange_pointVal (s : Finset Nat) (hs : Set.InjOn (xc F) s) (Cs : List G)
    (hl : Cs.length ≤ s.card) (y : Nat → F) (B : G)
    (hy : ∀ k ∈ s, y k • B = pointVal Cs ((k + 1 : Nat) : F)) :
    ((Lagrange.interpolate s (xc F) y).eval 0) • B = Cs.getD 0 0 := by
  classical
  rw [Lagrange.interpolate_apply, Polynomial.eval_finsetSum, Finset.sum_smul]
  have h1 : ∀ k ∈ s, (Polynomial.eval 0 (Polynomial.C (y k) * Lagrange.basis s (xc F) k)) • B =
      ∑ j ∈ Finset.range Cs.length,
        (Polynomial.eval 0 (Lagrange.basis s (xc F) k) * xc F k ^ j) • Cs.getD j 0 := by
    intro k hk
    rw [Polynomial.eval_mul, Polynomial.eval_C, mul_comm, mul_smul, hy k hk]
    rw [pointVal_eq_sum, Finset.smul_sum]
    refine Finset.sum_congr rfl (fun j _ => ?_)
    rw [smul_smul]; rfl
  rw [Finset.sum_congr rfl h1, Finset.sum_comm]
  have h2 : ∀ j ∈ Finset.range Cs.length,
      (∑ k ∈ s, (Polynomial.eval 0 (Lagrange.basis s (xc F) k) * xc F k ^ j) • Cs.getD j 0) =
        (if j = 0 then Cs.getD 0 0 else 0) := by
    intro j hj
    rw [← Finset.sum_smul]
    have hdeg : (Polynomial.X ^ j : Polynomial F).degree < s.card := by
      rw [Polynomial.degree_X_pow]
      have := Finset.mem_range.1 hj
      exact_mod_cast lt_of_lt_of_le this hl
    have := congrArg (Polynomial.eval 0)
      (Lagrange.eq_interpolate (f := (Polynomial.X ^ j : Polynomial F)) hs hdeg)
    rw [Lagrange.interpolate_apply, Polynomial.eval_finsetSum] at this
    have h3 : ∑ k ∈ s, Polynomial.eval 0 (Lagrange.basis s (xc F) k) * xc F k ^ j =
        Polynomial.eval 0 (Polynomial.X ^ j : Polynomial F) := by
      rw [this]
      refine Finset.sum_congr rfl (fun k _ => ?_)
      simp [mul_comm]
    rw [h3]
    by_cases hj0 : j = 0
    · subst hj0; simp
    · simp [hj0]
  rw [Finset.sum_congr rfl h2, Finset.sum_ite_eq']
  split
  · rfl
  · rename_i h
    have : Cs.length = 0 := by simpa using h
    rw [List.length_eq_zero_iff.1 this]; rfl

/-- `recover_secret` on shares lying on a committed polynomial. -/
theorem recoverSecret_committed (q : Nat) [CharP F q] (ord : MapOrder)
    (shares : List (Option (Share F))) (t : Nat) (Cs : List G) (B : G)
    (hy : ∀ s, some s ∈ shares → s.v • B = pointVal Cs ((s.i + 1 : Nat) : F))
    (hidx : ∀ i ∈ indices shares, i < q) (hl : Cs.length ≤ t)
    (hcount : t ≤ (indices shares).card) :
    ∃ s, Poly.recoverSecret ord shares t = .ok s ∧ s • B = Cs.getD 0 0 := by
  refine ⟨_, recoverSecret_eq ord shares t hcount, ?_⟩
  obtain ⟨hk, -, -, -, hyv, -⟩ := xy_spec (F := F) shares t
  apply lagrange_pointVal _ (xc_injOn q _ (fun i hi => hidx i (kset_subset shares t hi)))
  · rw [card_kset]
    split
    · omega
    · exact hl.trans (le_min (le_refl _) hcount)
  · intro k hkm
    rw [mem_kset, ← hk] at hkm
    obtain ⟨v, hv⟩ := AMap.get_of_mem_keys hkm
    obtain ⟨s, hs, hsi, hsv⟩ := hyv (k, v) (AMap.mem_of_get hv)
    rw [show yval (xy F shares t).2 k = v by simp [yval, hv]]
    simp only at hsi hsv
    subst hsi hsv
    exact hy s hs

end

end Kyber.VssP
