/-
Lemmas about the Rabin VSS model.
-/
import Verif.Spec.VssRabin
import Verif.Lemmas.VssPedersenHonest

set_option linter.unusedSectionVars false

namespace Kyber.VssR

open Kyber.Poly Kyber.Spec
open Kyber.VssP (VssError EncryptedDeal Response validT findPub context ascii)

variable {F G : Type} [Field F] [AddCommGroup G] [DecidableEq G]

/-! ### How an aggregator can change -/

section

variable [SMul F G]

/-- What every call preserves: the verifiers, the threshold, stored approvals, the existence of
stored responses, the stored deal, the bad mark. -/
structure Ext (a a' : Aggregator F G) : Prop where
  verifiers : a'.verifiers = a.verifiers
  t : a'.t = a.t
  responses : ∀ i r, a.responses.get i = some r → ∃ r', a'.responses.get i = some r' ∧
    r'.sessionId = r.sessionId ∧ r'.index = r.index ∧ r'.signature = r.signature ∧
    (r.status = true → r'.status = true)
  deal : ∀ d, a.deal = some d → a'.deal = some d
  bad : a.badDealer = true → a'.badDealer = true

theorem Ext.refl (a : Aggregator F G) : Ext a a :=
  ⟨rfl, rfl, fun _ r h => ⟨r, h, rfl, rfl, rfl, fun h => h⟩, fun _ h => h, fun h => h⟩

theorem Ext.trans {a b c : Aggregator F G} (h : Ext a b) (h' : Ext b c) : Ext a c := by
  refine ⟨h'.verifiers.trans h.verifiers, h'.t.trans h.t, fun i r hr => ?_,
    fun d hd => h'.deal d (h.deal d hd), fun hb => h'.bad (h.bad hb)⟩
  obtain ⟨r1, h1, e1, e2, e3, e4⟩ := h.responses i r hr
  obtain ⟨r2, h2, f1, f2, f3, f4⟩ := h'.responses i r1 h1
  exact ⟨r2, h2, f1.trans e1, f2.trans e2, f3.trans e3, fun h => f4 (e4 h)⟩

theorem remember_responses (a : Aggregator F G) (d : Deal F G) :
    (a.remember d).responses = a.responses := by
  unfold Aggregator.remember; split <;> rfl

theorem remember_bad (a : Aggregator F G) (d : Deal F G) :
    (a.remember d).badDealer = a.badDealer := by
  unfold Aggregator.remember; split <;> rfl

theorem remember_verifiers (a : Aggregator F G) (d : Deal F G) :
    (a.remember d).verifiers = a.verifiers := by
  unfold Aggregator.remember; split <;> rfl

theorem remember_t (a : Aggregator F G) (d : Deal F G) : (a.remember d).t = a.t := by
  unfold Aggregator.remember; split <;> rfl

theorem remember_ext (a : Aggregator F G) (d : Deal F G) : Ext a (a.remember d) := by
  refine ⟨remember_verifiers a d, remember_t a d, fun i r h => ?_, fun d' h => ?_,
    fun h => (remember_bad a d).trans h⟩
  · rw [remember_responses]; exact ⟨r, h, rfl, rfl, rfl, fun h => h⟩
  · unfold Aggregator.remember; rw [h]; exact h

theorem verifyDeal_fst (E : Env F G) (a : Aggregator F G) (d : Deal F G) (b : Bool) :
    (a.verifyDeal E d b).1 = a ∨ (a.verifyDeal E d b).1 = a.remember d := by
  unfold Aggregator.verifyDeal; split
  · exact Or.inl rfl
  · exact Or.inr rfl

theorem verifyDeal_ext (E : Env F G) (a : Aggregator F G) (d : Deal F G) (b : Bool) :
    Ext a (a.verifyDeal E d b).1 := by
  rcases verifyDeal_fst E a d b with h | h <;> rw [h]
  · exact Ext.refl a
  · exact remember_ext a d

theorem addResponse_cases (a : Aggregator F G) (r : Response) :
    (∃ e, a.addResponse r = (a, .err e)) ∨
    (r.index < a.verifiers.length ∧ a.responses.get r.index = none ∧
      a.addResponse r = ({ a with responses := a.responses.insert r.index r }, .ok ())) := by
  unfold Aggregator.addResponse
  split
  · exact Or.inl ⟨_, rfl⟩
  · split
    · exact Or.inl ⟨_, rfl⟩
    · rename_i h1 h2
      refine Or.inr ⟨?_, by simpa using h2, rfl⟩
      simpa [findPub] using h1

theorem addResponse_ext (a : Aggregator F G) (r : Response) : Ext a (a.addResponse r).1 := by
  rcases addResponse_cases a r with ⟨e, h⟩ | ⟨-, hn, h⟩ <;> rw [h]
  · exact Ext.refl a
  · refine ⟨rfl, rfl, fun i r' hr => ⟨r', ?_, rfl, rfl, rfl, fun h => h⟩, fun _ h => h, fun h => h⟩
    show (a.responses.insert r.index r).get i = some r'
    rw [AMap.get_insert, if_neg]
    · exact hr
    · rintro rfl; rw [hn] at hr; cases hr

theorem verifyResponse_cases (S : Suite F G) (a : Aggregator F G) (r : Response) :
    (∃ e, a.verifyResponse S r = (a, .err e)) ∨ a.verifyResponse S r = (a, .panic) ∨
    (∃ pub, r.sessionId = a.sid ∧ a.verifiers[r.index]? = some pub ∧
      Schnorr.verify S pub (r.hash S) r.signature = .ok () ∧
      a.verifyResponse S r = a.addResponse r) := by
  unfold Aggregator.verifyResponse findPub
  split
  · exact Or.inl ⟨_, rfl⟩
  · rename_i h
    split
    · exact Or.inl ⟨_, rfl⟩
    · rename_i pub hp
      split
      · rename_i hv
        exact Or.inr (Or.inr ⟨pub, by simpa using h, hp, hv, rfl⟩)
      · exact Or.inl ⟨_, rfl⟩
      · exact Or.inr (Or.inl rfl)

theorem verifyResponse_ext (S : Suite F G) (a : Aggregator F G) (r : Response) :
    Ext a (a.verifyResponse S r).1 := by
  rcases verifyResponse_cases S a r with ⟨e, h⟩ | h | ⟨_, -, -, -, h⟩ <;> rw [h]
  · exact Ext.refl a
  · exact Ext.refl a
  · exact addResponse_ext a r

/-- All outcomes of `verify_justification`. -/
theorem verifyJustification_cases (E : Env F G) (a : Aggregator F G) (j : Justification F G) :
    (∃ e, a.verifyJustification E j = (a, .err e)) ∨
    ∃ r, j.index < a.verifiers.length ∧ a.responses.get j.index = some r ∧ r.status = false ∧
      ((a.remember j.deal).checkDeal E j.deal = .panic ∧
        a.verifyJustification E j = (a.remember j.deal, .panic) ∨
       (∃ e, (a.remember j.deal).checkDeal E j.deal = .err e ∧
        a.verifyJustification E j = ({ (a.remember j.deal) with
          badDealer := true
          responses := a.responses.insert j.index r }, .err e)) ∨
       ((a.remember j.deal).checkDeal E j.deal = .ok () ∧
        a.verifyJustification E j = ({ (a.remember j.deal) with
          responses := a.responses.insert j.index { r with status := true } }, .ok ()))) := by
  unfold Aggregator.verifyJustification
  split
  · exact Or.inl ⟨_, rfl⟩
  · rename_i hp
    split
    · exact Or.inl ⟨_, rfl⟩
    · rename_i r hr
      split
      · exact Or.inl ⟨_, rfl⟩
      · rename_i hs
        refine Or.inr ⟨r, by simpa [findPub] using hp, hr, by simpa using hs, ?_⟩
        unfold Aggregator.verifyDeal
        simp only [Bool.and_false, Bool.false_eq_true, if_false, remember_responses]
        split
        · rename_i h; exact Or.inl ⟨h, rfl⟩
        · rename_i e h; exact Or.inr (Or.inl ⟨e, h, rfl⟩)
        · rename_i h; exact Or.inr (Or.inr ⟨h, rfl⟩)

theorem verifyJustification_ext (E : Env F G) (a : Aggregator F G) (j : Justification F G) :
    Ext a (a.verifyJustification E j).1 := by
  have hrem := remember_ext a j.deal
  rcases verifyJustification_cases E a j with
    ⟨e, h⟩ | ⟨r, hl, hr, hs, ⟨-, h⟩ | ⟨e, -, h⟩ | ⟨-, h⟩⟩ <;> rw [h]
  · exact Ext.refl a
  · exact hrem
  · refine ⟨hrem.verifiers, hrem.t, fun i r' hr' => ?_, hrem.deal, fun _ => rfl⟩
    show ∃ r'', (a.responses.insert j.index r).get i = some r'' ∧ _
    rw [AMap.get_insert]
    split
    · rename_i hi; subst hi; rw [hr] at hr'; cases hr'
      exact ⟨r, rfl, rfl, rfl, rfl, fun h => h⟩
    · exact ⟨r', hr', rfl, rfl, rfl, fun h => h⟩
  · refine ⟨hrem.verifiers, hrem.t, fun i r' hr' => ?_, hrem.deal, hrem.bad⟩
    show ∃ r'', (a.responses.insert j.index _).get i = some r'' ∧ _
    rw [AMap.get_insert]
    split
    · rename_i hi; subst hi; rw [hr] at hr'; cases hr'
      exact ⟨_, rfl, rfl, rfl, rfl, fun _ => rfl⟩
    · exact ⟨r', hr', rfl, rfl, rfl, fun h => h⟩

/-! ### `clean_verifiers` -/

theorem cleanFold_get (sid : Bytes) (l : List Nat) (m : AMap Response) (i : Nat) :
    (l.foldl (Aggregator.cleanOne sid) m).get i =
      match m.get i with
      | some r => some r
      | none => if i ∈ l then some ⟨sid, i, false, []⟩ else none := by
  induction l generalizing m with
  | nil => simp only [List.foldl_nil, List.not_mem_nil, if_false]; cases m.get i <;> rfl
  | cons k l ih =>
    rw [List.foldl_cons, ih]
    have h : (Aggregator.cleanOne sid m k).get i =
        match m.get i with
        | some r => some r
        | none => if i = k then some ⟨sid, i, false, []⟩ else none := by
      unfold Aggregator.cleanOne
      cases hk : m.get k with
      | some r =>
        simp only
        by_cases hik : i = k
        · subst hik; rw [hk]
        · rw [if_neg hik]; cases m.get i <;> rfl
      | none =>
        simp only [AMap.get_insert]
        by_cases hik : i = k
        · subst hik; simp [hk]
        · simp only [hik, if_false]; cases m.get i <;> rfl
    rw [h]
    cases hm : m.get i with
    | some r => rfl
    | none =>
      by_cases hik : i = k
      · simp [hik]
      · simp [hik]

theorem cleanVerifiers_get (a : Aggregator F G) (i : Nat) :
    a.cleanVerifiers.responses.get i =
      match a.responses.get i with
      | some r => some r
      | none => if i < a.verifiers.length then some ⟨a.sid, i, false, []⟩ else none := by
  have := cleanFold_get a.sid (List.range a.verifiers.length) a.responses i
  simp only [List.mem_range] at this
  exact this

theorem cleanVerifiers_ext (a : Aggregator F G) : Ext a a.cleanVerifiers := by
  refine ⟨rfl, rfl, fun i r h => ⟨r, ?_, rfl, rfl, rfl, fun h => h⟩, fun _ h => h, fun h => h⟩
  rw [cleanVerifiers_get, h]

/-! ### The verifier -/

/-- The reply of `process_encrypted_deal`. -/
def mkReply (E : Env F G) (v : Verifier F G) (d : Deal F G) (k : F) (status : Bool) : Response :=
  let r : Response := ⟨VssP.sessionId E.suite v.dealer v.verifiers d.commitments d.t, v.index,
    status, []⟩
  { r with signature := Schnorr.sign E.suite k v.longterm (r.hash E.suite) }

theorem checkDeal_not_processed (E : Env F G) (a : Aggregator F G) (d : Deal F G) :
    a.checkDeal E d ≠ .err .dealAlreadyProcessed := by
  unfold Aggregator.checkDeal
  split; · simp
  split; · simp
  split; · simp
  split; · simp
  unfold PubPoly.eval
  simp only
  split
  · simp
  · simp only [Res.mapErr_ok, Res.bind_ok]
    split <;> simp

/-- All outcomes of `process_encrypted_deal`. -/
theorem processEncryptedDeal_cases (E : Env F G) (v : Verifier F G) (e : EncryptedDeal G) (k : F) :
    ((∃ err, v.processEncryptedDeal E e k = (v, .err err)) ∨
      v.processEncryptedDeal E e k = (v, .panic)) ∨
    ∃ d, v.decryptDeal E e = .ok d ∧ d.secShare.i = v.index ∧ (v.aggregatorFor d).deal = none ∧
      (((v.aggregatorFor d).remember d).checkDeal E d = .panic ∧
        v.processEncryptedDeal E e k =
          ({ v with aggregator := some ((v.aggregatorFor d).remember d) }, .panic) ∨
       ∃ status, (((v.aggregatorFor d).remember d).checkDeal E d = .ok () ↔ status = true) ∧
        (v.processEncryptedDeal E e k).1 = { v with
          aggregator := some
            ((((v.aggregatorFor d).remember d).addResponse (mkReply E v d k status)).1) } ∧
        (v.processEncryptedDeal E e k).2 =
          ((((v.aggregatorFor d).remember d).addResponse (mkReply E v d k status)).2 >>=
            fun _ => .ok (mkReply E v d k status))) := by
  unfold Verifier.processEncryptedDeal
  split
  · exact Or.inl (Or.inl ⟨_, rfl⟩)
  · exact Or.inl (Or.inr rfl)
  · rename_i d hd
    split
    · exact Or.inl (Or.inl ⟨_, rfl⟩)
    · rename_i hi
      simp only [ne_eq, not_not] at hi
      unfold Verifier.processDeal Aggregator.verifyDeal
      by_cases hn : (v.aggregatorFor d).deal = none
      · refine Or.inr ⟨d, hd, hi, hn, ?_⟩
        simp only [hn, Option.isSome_none, Bool.false_and, Bool.false_eq_true, if_false]
        cases hc : ((v.aggregatorFor d).remember d).checkDeal E d with
        | ok u => exact Or.inr ⟨true, by simp, rfl, rfl⟩
        | panic => exact Or.inl ⟨rfl, rfl⟩
        | err e' =>
          right
          refine ⟨false, by simp, ?_⟩
          have hne : e' ≠ .dealAlreadyProcessed := by
            rintro rfl
            exact checkDeal_not_processed E _ d hc
          cases e' <;> first | exact absurd rfl hne | exact ⟨rfl, rfl⟩
      · left; left
        obtain ⟨d0, hd0⟩ := Option.ne_none_iff_exists'.1 hn
        have hagg : v.aggregator = some (v.aggregatorFor d) := by
          unfold Verifier.aggregatorFor at hn ⊢
          cases ha : v.aggregator with
          | some a => rfl
          | none => rw [ha] at hn; exact absurd rfl hn
        simp only [hd0, Option.isSome_some, Bool.true_and, if_true]
        refine ⟨.dealAlreadyProcessed, ?_⟩
        rw [← hagg]

/-- What every call preserves, for the optional aggregator of a verifier. -/
def ExtO (a a' : Option (Aggregator F G)) : Prop :=
  ∀ x, a = some x → ∃ x', a' = some x' ∧ Ext x x'

theorem ExtO.refl (a : Option (Aggregator F G)) : ExtO a a := fun x h => ⟨x, h, Ext.refl x⟩

theorem ExtO.trans {a b c : Option (Aggregator F G)} (h : ExtO a b) (h' : ExtO b c) : ExtO a c := by
  intro x hx
  obtain ⟨y, hy, e⟩ := h x hx
  obtain ⟨z, hz, e'⟩ := h' y hy
  exact ⟨z, hz, e.trans e'⟩

theorem ExtO.map {f : Aggregator F G → Aggregator F G} (hf : ∀ a, Ext a (f a))
    (a : Option (Aggregator F G)) : ExtO a (a.map f) := by
  rintro x rfl
  exact ⟨f x, rfl, hf x⟩

theorem aggregatorFor_of_some {v : Verifier F G} {a : Aggregator F G} (h : v.aggregator = some a)
    (d : Deal F G) : v.aggregatorFor d = a := by
  unfold Verifier.aggregatorFor; rw [h]; rfl

theorem processEncryptedDeal_ext (E : Env F G) (v : Verifier F G) (e : EncryptedDeal G) (k : F) :
    ExtO v.aggregator (v.processEncryptedDeal E e k).1.aggregator := by
  intro a ha
  rcases processEncryptedDeal_cases E v e k with (⟨_, h⟩ | h) | ⟨d, -, -, -, ⟨-, h⟩ | ⟨st, -, h, -⟩⟩
    <;> rw [h]
  · exact ⟨a, ha, Ext.refl _⟩
  · exact ⟨a, ha, Ext.refl _⟩
  · exact ⟨_, rfl, by rw [aggregatorFor_of_some ha]; exact remember_ext _ d⟩
  · exact ⟨_, rfl, by
      rw [aggregatorFor_of_some ha]; exact (remember_ext _ d).trans (addResponse_ext _ _)⟩

theorem rStep_ext (E : Env F G) (v : Verifier F G) (c : RCall F G) :
    ExtO v.aggregator (rStep E v c).aggregator := by
  cases c with
  | encDeal e k => exact processEncryptedDeal_ext E v e k
  | response r =>
    intro a ha
    exact ⟨(a.verifyResponse E.suite r).1, by simp [rStep, Verifier.processResponse, ha],
      verifyResponse_ext E.suite a r⟩
  | justification j =>
    intro a ha
    exact ⟨(a.verifyJustification E j).1, by simp [rStep, Verifier.processJustification, ha],
      verifyJustification_ext E a j⟩
  | timeout => exact ExtO.map cleanVerifiers_ext _
  | unsafeSet i b => exact ExtO.map (fun a => addResponse_ext a _) _
  | verifyDeal d b => exact ExtO.map (fun a => verifyDeal_ext E a d b) _
  | addResponse r => exact ExtO.map (fun a => addResponse_ext a r) _

theorem rRun_ext (E : Env F G) (v : Verifier F G) (cs : List (RCall F G)) :
    ExtO v.aggregator (rRun E v cs).aggregator := by
  induction cs generalizing v with
  | nil => exact ExtO.refl _
  | cons c cs ih => exact (rStep_ext E v c).trans (ih (rStep E v c))

/-- The identity of a verifier never changes. -/
theorem rStep_ident (E : Env F G) (v : Verifier F G) (c : RCall F G) :
    (rStep E v c).verifiers = v.verifiers ∧ (rStep E v c).dealer = v.dealer ∧
    (rStep E v c).index = v.index ∧ (rStep E v c).longterm = v.longterm := by
  cases c with
  | encDeal e k =>
    show (v.processEncryptedDeal E e k).1.verifiers = _ ∧ (v.processEncryptedDeal E e k).1.dealer = _ ∧
      (v.processEncryptedDeal E e k).1.index = _ ∧ (v.processEncryptedDeal E e k).1.longterm = _
    rcases processEncryptedDeal_cases E v e k with (⟨_, h⟩ | h) | ⟨d, -, -, -, ⟨-, h⟩ | ⟨st, -, h, -⟩⟩
      <;> rw [h] <;> exact ⟨rfl, rfl, rfl, rfl⟩
  | response r =>
    simp only [rStep, Verifier.processResponse]; split <;> exact ⟨rfl, rfl, rfl, rfl⟩
  | justification j =>
    simp only [rStep, Verifier.processJustification]; split <;> exact ⟨rfl, rfl, rfl, rfl⟩
  | timeout => exact ⟨rfl, rfl, rfl, rfl⟩
  | unsafeSet i b => exact ⟨rfl, rfl, rfl, rfl⟩
  | verifyDeal d b => exact ⟨rfl, rfl, rfl, rfl⟩
  | addResponse r => exact ⟨rfl, rfl, rfl, rfl⟩

theorem rRun_ident (E : Env F G) (v : Verifier F G) (cs : List (RCall F G)) :
    (rRun E v cs).verifiers = v.verifiers ∧ (rRun E v cs).dealer = v.dealer ∧
    (rRun E v cs).index = v.index ∧ (rRun E v cs).longterm = v.longterm := by
  induction cs generalizing v with
  | nil => exact ⟨rfl, rfl, rfl, rfl⟩
  | cons c cs ih =>
    obtain ⟨h1, h2, h3, h4⟩ := ih (rStep E v c)
    obtain ⟨g1, g2, g3, g4⟩ := rStep_ident E v c
    exact ⟨h1.trans g1, h2.trans g2, h3.trans g3, h4.trans g4⟩

/-! ### An invariant principle -/

/-- A property of aggregators kept by every call and true of every aggregator that
`process_encrypted_deal` creates holds after every history from a fresh verifier. -/
theorem agg_inv (P : Aggregator F G → Prop) (E : Env F G) (v : Verifier F G)
    (h0 : v.aggregator = none)
    (hnew : ∀ (Cs : List G) (t : Nat) (sid : Bytes), P (newAggregator v.verifiers Cs t sid))
    (hrem : ∀ a d, P a → P (a.remember d)) (hadd : ∀ a r, P a → P (a.addResponse r).1)
    (hclean : ∀ a, P a → P a.cleanVerifiers)
    (hjust : ∀ a j, P a → P (a.verifyJustification E j).1)
    (cs : List (RCall F G)) :
    ∀ a, (rRun E v cs).aggregator = some a → P a := by
  induction cs using List.reverseRecOn with
  | nil => intro a ha; rw [show (rRun E v []).aggregator = v.aggregator from rfl, h0] at ha; cases ha
  | append_singleton cs c ih =>
    have hrun : rRun E v (cs ++ [c]) = rStep E (rRun E v cs) c := by simp [rRun]
    rw [hrun]
    intro a ha
    have hfor : ∀ d, P ((rRun E v cs).aggregatorFor d) := by
      intro d
      unfold Verifier.aggregatorFor
      cases hx : (rRun E v cs).aggregator with
      | some x => exact ih x hx
      | none =>
        rw [(rRun_ident E v cs).1]
        exact hnew _ _ _
    have hvd : ∀ (x : Aggregator F G) d b, P x → P (x.verifyDeal E d b).1 := by
      intro x d b hx
      rcases verifyDeal_fst E x d b with h | h <;> rw [h]
      · exact hx
      · exact hrem _ _ hx
    cases c with
    | encDeal e k =>
      change ((rRun E v cs).processEncryptedDeal E e k).1.aggregator = some a at ha
      rcases processEncryptedDeal_cases E (rRun E v cs) e k with
        (⟨_, h⟩ | h) | ⟨d, -, -, -, ⟨-, h⟩ | ⟨st, -, h, -⟩⟩ <;> rw [h] at ha
      · exact ih a ha
      · exact ih a ha
      · cases ha; exact hrem _ _ (hfor d)
      · cases ha; exact hadd _ _ (hrem _ _ (hfor d))
    | response r =>
      simp only [rStep, Verifier.processResponse] at ha
      split at ha
      · rename_i x hx
        cases ha
        rcases verifyResponse_cases E.suite x r with ⟨e, h⟩ | h | ⟨_, -, -, -, h⟩ <;> rw [h]
        · exact ih x hx
        · exact ih x hx
        · exact hadd _ _ (ih x hx)
      · exact ih a ha
    | justification j =>
      simp only [rStep, Verifier.processJustification] at ha
      split at ha
      · rename_i x hx
        cases ha
        exact hjust _ _ (ih x hx)
      · exact ih a ha
    | timeout =>
      simp only [rStep, Verifier.setTimeout, Option.map_eq_some_iff] at ha
      obtain ⟨x, hx, rfl⟩ := ha
      exact hclean _ (ih x hx)
    | unsafeSet i b =>
      simp only [rStep, Verifier.onAggregator, Option.map_eq_some_iff] at ha
      obtain ⟨x, hx, rfl⟩ := ha
      exact hadd _ _ (ih x hx)
    | verifyDeal d b =>
      simp only [rStep, Verifier.onAggregator, Option.map_eq_some_iff] at ha
      obtain ⟨x, hx, rfl⟩ := ha
      exact hvd _ _ _ (ih x hx)
    | addResponse r =>
      simp only [rStep, Verifier.onAggregator, Option.map_eq_some_iff] at ha
      obtain ⟨x, hx, rfl⟩ := ha
      exact hadd _ _ (ih x hx)

/-- The shape of the response map in reachable states. -/
structure Wf (pubs : List G) (a : Aggregator F G) : Prop where
  verifiers : a.verifiers = pubs
  nodup : a.responses.keys.Nodup
  index : ∀ i r, a.responses.get i = some r → r.index = i ∧ i < pubs.length

theorem wf_of_get {pubs : List G} {a : Aggregator F G} (h : Wf pubs a) {m : AMap Response}
    (hn : m.keys.Nodup) (hm : ∀ i r, m.get i = some r → r.index = i ∧ i < pubs.length)
    {b : Aggregator F G} (hb : b.responses = m) (hv : b.verifiers = a.verifiers) : Wf pubs b :=
  ⟨hv.trans h.verifiers, hb ▸ hn, hb ▸ hm⟩

theorem nodup_cleanFold (sid : Bytes) (l : List Nat) (m : AMap Response) (h : m.keys.Nodup) :
    (l.foldl (Aggregator.cleanOne sid) m).keys.Nodup := by
  induction l generalizing m with
  | nil => exact h
  | cons k l ih =>
    rw [List.foldl_cons]
    apply ih
    unfold Aggregator.cleanOne
    split
    · exact h
    · exact AMap.nodup_insert h _ _

theorem reachable_wf (E : Env F G) (v : Verifier F G) (h0 : v.aggregator = none)
    (cs : List (RCall F G)) :
    ∀ a, (rRun E v cs).aggregator = some a → Wf v.verifiers a := by
  apply agg_inv (Wf v.verifiers) E v h0
  · intro Cs t sid
    exact ⟨rfl, List.nodup_nil, by intro i r h; simp [newAggregator] at h⟩
  · intro a d h
    exact wf_of_get h h.nodup h.index (remember_responses a d) (remember_verifiers a d)
  · intro a r h
    rcases addResponse_cases a r with ⟨e, h'⟩ | ⟨hl, -, h'⟩ <;> rw [h']
    · exact h
    · refine wf_of_get h (AMap.nodup_insert h.nodup r.index r) ?_ rfl rfl
      intro i r' hr'
      rw [AMap.get_insert] at hr'
      split at hr'
      · rename_i hi; cases hr'; subst hi; exact ⟨rfl, h.verifiers ▸ hl⟩
      · exact h.index i r' hr'
  · intro a h
    refine wf_of_get h (nodup_cleanFold _ _ _ h.nodup) ?_ rfl rfl
    intro i r' hr'
    have := cleanVerifiers_get a i
    rw [show a.cleanVerifiers.responses.get i = some r' from hr'] at this
    cases hg : a.responses.get i with
    | some r => rw [hg] at this; cases this; exact h.index i r' hg
    | none =>
      rw [hg] at this
      simp only at this
      split at this
      · rename_i hl; cases this; exact ⟨rfl, h.verifiers ▸ hl⟩
      · cases this
  · intro a j h
    rcases verifyJustification_cases E a j with
      ⟨e, h'⟩ | ⟨r, hl, hr, hs, ⟨-, h'⟩ | ⟨e, -, h'⟩ | ⟨-, h'⟩⟩ <;> rw [h']
    · exact h
    · exact wf_of_get h h.nodup h.index (remember_responses a _) (remember_verifiers a _)
    · refine wf_of_get h (AMap.nodup_insert h.nodup j.index r) ?_ rfl (remember_verifiers a _)
      intro i r' hr'
      rw [AMap.get_insert] at hr'
      split at hr'
      · rename_i hi; cases hr'; subst hi; exact h.index _ _ hr
      · exact h.index i r' hr'
    · refine wf_of_get h (AMap.nodup_insert h.nodup j.index _) ?_ rfl (remember_verifiers a _)
      intro i r' hr'
      rw [AMap.get_insert] at hr'
      split at hr'
      · rename_i hi; cases hr'; subst hi; exact ⟨(h.index _ _ hr).1, (h.index _ _ hr).2⟩
      · exact h.index i r' hr'

/-! ### Counting -/

/-- The number of stored approvals. -/
theorem approvals_card {pubs : List G} {a : Aggregator F G} (h : Wf pubs a) :
    (a.responses.filter (fun e => e.2.status)).length =
      (approvedBy a.responses pubs.length).card := by
  have hnd : ((a.responses.filter (fun e => e.2.status)).map Prod.fst).Nodup := by
    have : List.Sublist ((a.responses.filter (fun e => e.2.status)).map Prod.fst) a.responses.keys :=
      List.Sublist.map _ List.filter_sublist
    exact h.nodup.sublist this
  have : (approvedBy a.responses pubs.length) =
      ((a.responses.filter (fun e => e.2.status)).map Prod.fst).toFinset := by
    ext i
    simp only [approvedBy, Finset.mem_filter, Finset.mem_range, List.mem_toFinset, List.mem_map,
      List.mem_filter, Prod.exists, exists_and_right, exists_eq_right]
    constructor
    · rintro ⟨-, r, hr, hs⟩
      exact ⟨r, AMap.mem_of_get hr, hs⟩
    · rintro ⟨r, hm, hs⟩
      have hg := AMap.get_of_mem h.nodup hm
      exact ⟨(h.index i r hg).2, r, hg, hs⟩
  rw [this, List.toFinset_card_of_nodup hnd, List.length_map]

theorem checkDeal_ok_iff (E : Env F G) (a : Aggregator F G) (d : Deal F G)
    (hn : a.verifiers.length < 2 ^ 32) :
    a.checkDeal E d = .ok () ↔
      a.sid = d.sessionId ∧ GoodDealR E.suite.base (deriveH E a.verifiers) a.verifiers.length d := by
  unfold Aggregator.checkDeal GoodDealR
  simp only [Res.ite_err_eq_ok, Res.bind_eq_ok, Res.mapErr_eq_ok, Props.C06_pub_eval,
    Res.ite_panic_eq_ok, Bool.not_eq_false, Res.ok.injEq, not_not, ne_eq, not_le, validT,
    Bool.and_eq_true, decide_eq_true_eq]
  constructor
  · rintro ⟨⟨⟨h1, h2⟩, -⟩, h3, h4, h5, s, ⟨h6, rfl⟩, h7, -⟩
    exact ⟨h3, h1, h2, h4, h5, h6, h7⟩
  · rintro ⟨h3, h1, h2, h4, h5, h6, h7⟩
    exact ⟨⟨⟨h1, h2⟩, Nat.mod_eq_of_lt (by omega)⟩, h3, h4, h5, _, ⟨h6, rfl⟩, h7, trivial⟩

end

end Kyber.VssR
