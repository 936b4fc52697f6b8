/-
Properties C64, C65 for the Pedersen VSS: what `deal` returns, what a justification is about.
-/
import Verif.Props.VssPedersenMore

set_option linter.unusedSectionVars false

namespace Kyber.Props

open Kyber Kyber.Poly Kyber.Spec Kyber.VssP

variable {F G : Type} [Field F] [AddCommGroup G] [DecidableEq G]

/-! ## C64: `deal` only returns a deal that passed the check -/

section

variable [SMul F G]

/-- C64 for the Pedersen variant, the intended property: what `deal` returns is the verifier's own
share and lies on the committed polynomial. -/
def C64_statement : Prop :=
  ∀ (F G : Type) (_ : Field F) (_ : AddCommGroup G) (_ : Module F G) (_ : DecidableEq G)
    (E : Env F G) (x : F) (dealer : G) (pubs : List G) (v0 : Verifier F G)
    (_ : newVerifier E.suite x dealer pubs = .ok v0) (cs : List (VCall F G))
    (_ : ∀ c ∈ cs, c.fromNetwork = true) (d : Deal F G),
    (vRun E v0 cs).deal = some d →
    d.secShare.i = v0.index ∧ 2 ≤ d.t ∧ d.t ≤ pubs.length ∧
    d.secShare.v • E.suite.base = pointVal d.commitments ((d.secShare.i + 1 : Nat) : F)

/-- What holds: if no response with the verifier's own index is delivered to it, then what `deal`
returns is its own share on the committed polynomial (deals without commitments, on which the
check panics, aside). Missing: an old approval of the verifier itself, replayed before the deal
arrives, is accepted, and then the complaint about a bad deal cannot be stored. -/
theorem C64_no_replay_partial (E : Env F G) (x : F) (dealer : G) (pubs : List G)
    (v0 : Verifier F G) (hv : newVerifier E.suite x dealer pubs = .ok v0)
    (cs : List (VCall F G)) (hnet : ∀ c ∈ cs, c.fromNetwork = true)
    (hself : ∀ r, VCall.response r ∈ cs → r.index ≠ v0.index) (d : Deal F G)
    (hd : (vRun E v0 cs).deal = some d) (hne : d.commitments ≠ []) :
    d.secShare.i = v0.index ∧ 2 ≤ d.t ∧ d.t ≤ pubs.length ∧
    d.secShare.v • E.suite.base = pointVal d.commitments ((d.secShare.i + 1 : Nat) : F) := by
  have hfields : v0.aggregator = newEmptyAggregator pubs ∧ v0.verifiers = pubs ∧
      v0.index < pubs.length := by
    unfold newVerifier at hv
    simp only at hv
    split at hv
    · cases hv
    · rename_i i hi
      simp only [Res.ok.injEq] at hv
      subst hv
      rw [List.findIdx?_eq_some_iff_getElem] at hi
      exact ⟨rfl, rfl, hi.1⟩
  obtain ⟨ha0, -, hidx0⟩ := hfields
  have key : ((vRun E v0 cs).aggregator.deal = none →
        (vRun E v0 cs).aggregator.responses.get v0.index = none) ∧
      ∀ d, (vRun E v0 cs).aggregator.deal = some d →
        (d.secShare.i = v0.index ∧ 2 ≤ d.t ∧ d.t ≤ pubs.length ∧
          d.secShare.v • E.suite.base = pointVal d.commitments ((d.secShare.i + 1 : Nat) : F)) ∨
        (∃ i < pubs.length, ∃ r, (vRun E v0 cs).aggregator.responses.get i = some r ∧
          r.status = false) ∨ d.commitments = [] := by
    clear hd
    induction cs using List.reverseRecOn with
    | nil =>
      rw [show vRun E v0 [] = v0 from rfl, ha0]
      exact ⟨fun _ => rfl, fun d h => by cases h⟩
    | append_singleton cs c ih =>
      have hrun : vRun E v0 (cs ++ [c]) = vStep E (vRun E v0 cs) c := by simp [vRun]
      obtain ⟨ih1, ih2⟩ := ih (fun c hc => hnet c (by simp [hc])) (fun r hr => hself r (by simp [hr]))
      have hc1 := hnet c (by simp)
      have hext := vStep_ext E (vRun E v0 cs) c
      have hvs : (vRun E v0 cs).aggregator.verifiers = pubs := by
        rw [(vRun_ext E v0 cs).verifiers, ha0]; rfl
      obtain ⟨-, -, hi3, -⟩ : (vRun E v0 cs).verifiers = v0.verifiers ∧
          (vRun E v0 cs).dealer = v0.dealer ∧ (vRun E v0 cs).index = v0.index ∧
          (vRun E v0 cs).longterm = v0.longterm := by
        clear ih1 ih2 hext hrun hvs hnet hself ih
        induction cs using List.reverseRecOn with
        | nil => exact ⟨rfl, rfl, rfl, rfl⟩
        | append_singleton cs c ih =>
          have h1 := vStep_ident E (vRun E v0 cs) c
          rw [show vRun E v0 (cs ++ [c]) = vStep E (vRun E v0 cs) c by simp [vRun]]
          exact ⟨h1.1.trans ih.1, h1.2.1.trans ih.2.1, h1.2.2.1.trans ih.2.2.1,
            h1.2.2.2.trans ih.2.2.2⟩
      rw [hrun]
      -- once a deal is stored it stays, and so does the reason
      by_cases hdeal : (vRun E v0 cs).aggregator.deal = none
      · cases c with
        | encDeal e k =>
          rw [show vStep E (vRun E v0 cs) (.encDeal e k) =
            ((vRun E v0 cs).processEncryptedDeal E e k).1 from rfl]
          rcases processEncryptedDeal_cases E (vRun E v0 cs) e k with
            (⟨_, h⟩ | h) | ⟨d, -, hidx, -, h⟩
          · rw [h]; exact ⟨ih1, ih2⟩
          · rw [h]; exact ⟨ih1, ih2⟩
          · have hrem : ((vRun E v0 cs).aggregator.remember d).deal = some d := by
              unfold Aggregator.remember; rw [hdeal]
            have hremv : ((vRun E v0 cs).aggregator.remember d).verifiers = pubs := by
              rw [(remember_ext _ d).verifiers, hvs]
            rcases h with ⟨hp, h⟩ | ⟨st, hst, h, -⟩
            · rw [h]
              refine ⟨fun hx => ?_, fun d' hd' => Or.inr (Or.inr ?_)⟩
              · exfalso
                rw [show ({ (vRun E v0 cs) with aggregator :=
                  (vRun E v0 cs).aggregator.remember d } : Verifier F G).aggregator.deal =
                  ((vRun E v0 cs).aggregator.remember d).deal from rfl, hrem] at hx
                cases hx
              · rw [show ({ (vRun E v0 cs) with aggregator :=
                  (vRun E v0 cs).aggregator.remember d } : Verifier F G).aggregator.deal =
                  ((vRun E v0 cs).aggregator.remember d).deal from rfl, hrem] at hd'
                cases hd'
                by_contra hcne
                unfold Aggregator.checkDeal at hp
                simp only [C06_pub_eval, if_neg hcne] at hp
                split at hp; · cases hp
                split at hp; · cases hp
                split at hp; · cases hp
                split at hp; · cases hp
                simp only [Res.mapErr_ok, Res.bind_ok] at hp
                split at hp <;> cases hp
            · rw [h]
              have hnone : ((vRun E v0 cs).aggregator.remember d).responses.get v0.index = none := by
                rw [remember_responses]; exact ih1 hdeal
              have hri : (mkReply E (vRun E v0 cs) d k st).index = v0.index := hi3
              have hadd : ((vRun E v0 cs).aggregator.remember d).addResponse
                  (mkReply E (vRun E v0 cs) d k st) =
                  ({ ((vRun E v0 cs).aggregator.remember d) with
                    responses := ((vRun E v0 cs).aggregator.remember d).responses.insert v0.index
                      (mkReply E (vRun E v0 cs) d k st) }, .ok ()) := by
                unfold Aggregator.addResponse
                rw [hri, if_neg (by simpa [findPub, hremv] using hidx0), hnone]
                rfl
              rw [hadd]
              refine ⟨fun hx => ?_, fun d' hd' => ?_⟩
              · exfalso
                change ((vRun E v0 cs).aggregator.remember d).deal = none at hx
                rw [hrem] at hx; cases hx
              · change ((vRun E v0 cs).aggregator.remember d).deal = some d' at hd'
                rw [hrem] at hd'
                cases hd'
                cases st with
                | true =>
                  left
                  have hck := hst.2 rfl
                  unfold Aggregator.checkDeal at hck
                  simp only [Res.ite_err_eq_ok, Res.bind_eq_ok, Res.mapErr_eq_ok, C06_pub_eval,
                    Res.ite_panic_eq_ok, Bool.not_eq_false, Res.ok.injEq, not_not, ne_eq, not_le,
                    validT, Bool.and_eq_true, decide_eq_true_eq, hremv] at hck
                  obtain ⟨⟨⟨h1, h2⟩, -⟩, -, -, -, s, ⟨-, rfl⟩, h7, -⟩ := hck
                  exact ⟨by rw [hidx, hi3], h1, h2, h7⟩
                | false =>
                  right; left
                  refine ⟨v0.index, hidx0, mkReply E (vRun E v0 cs) d k false, ?_, rfl⟩
                  show (AMap.insert _ _ _).get v0.index = _
                  rw [AMap.get_insert, if_pos rfl]
        | response r =>
          have hr : r.index ≠ v0.index := hself r (by simp)
          have hnew := vStep_new E (vRun E v0 cs) (.response r) v0.index
          have hdl : (vStep E (vRun E v0 cs) (.response r)).aggregator.deal = none := by
            show ((vRun E v0 cs).aggregator.verifyResponse E.suite r).1.deal = none
            rcases verifyResponse_cases E.suite (vRun E v0 cs).aggregator r with
              ⟨e, h⟩ | h | ⟨_, -, -, -, h⟩ <;> rw [h]
            · exact hdeal
            · exact hdeal
            · rcases addResponse_cases (vRun E v0 cs).aggregator r with ⟨e, h'⟩ | ⟨-, -, h'⟩ <;> rw [h']
              · exact hdeal
              · exact hdeal
          refine ⟨fun _ => ?_, fun d hd => by rw [hdl] at hd; cases hd⟩
          by_contra hx
          obtain ⟨r', hr'⟩ := Option.ne_none_iff_exists'.1 hx
          obtain ⟨e1, -, h | h | h | ⟨b, h⟩⟩ := hnew r' (ih1 hdeal) hr'
          · obtain ⟨_, _, _, h, -⟩ := h; cases h
          · obtain ⟨h, -⟩ := h
            cases h
            exact hr e1
          · cases h
          · cases h
        | justification j =>
          have hresp : (vStep E (vRun E v0 cs) (.justification j)).aggregator.responses =
              (vRun E v0 cs).aggregator.responses :=
            verifyJustification_responses E.suite _ j
          rw [hresp]
          refine ⟨fun _ => ih1 hdeal, fun d hd => ?_⟩
          right; left
          change ((vRun E v0 cs).aggregator.verifyJustification E.suite j).1.deal = some d at hd
          unfold Aggregator.verifyJustification at hd
          split at hd
          · rw [hdeal] at hd; cases hd
          · rename_i hf
            split at hd
            · rw [hdeal] at hd; cases hd
            · rename_i r hr
              split at hd
              · rw [hdeal] at hd; cases hd
              · rename_i hs
                refine ⟨j.index, ?_, r, hr, by simpa [statusComplaint] using hs⟩
                rw [hvs] at hf
                simpa [findPub] using hf
        | timeout => exact ⟨ih1, ih2⟩
        | setThreshold t => cases hc1
        | unsafeSet i b => cases hc1
        | verifyDeal d b => cases hc1
        | addResponse r => cases hc1
      · obtain ⟨d0, hd0⟩ := Option.ne_none_iff_exists'.1 hdeal
        have hkeep := hext.deal d0 hd0
        refine ⟨fun h => (by rw [hkeep] at h; cases h), fun d hd => ?_⟩
        rw [hkeep] at hd
        cases hd
        refine (ih2 d0 hd0).imp id (Or.imp ?_ id)
        rintro ⟨i, hi, r, hr, hs⟩
        exact ⟨i, hi, r, hext.responses i r hr, hs⟩
  have hvs : (vRun E v0 cs).aggregator.verifiers = pubs := by
    rw [(vRun_ext E v0 cs).verifiers, ha0]; rfl
  unfold Verifier.deal at hd
  split at hd
  · cases hd
  · rename_i hc
    have hcert : (vRun E v0 cs).aggregator.dealCertified = true := by
      simpa using hc
    rw [C23_certified_iff, hvs] at hcert
    rcases key.2 d hd with h | ⟨i, hi, r, hr, hs⟩ | h
    · exact h
    · exfalso
      have : i ∈ complainedBy (vRun E v0 cs).aggregator.responses pubs.length := by
        unfold complainedBy
        rw [Finset.mem_filter, Finset.mem_range]
        exact ⟨hi, r, hr, hs⟩
      rw [hcert.2.2.1] at this
      simp at this
    · exact absurd h hne

/-! ## C65: a justification is about the polynomial that was dealt -/

/-- C65 for the Pedersen variant, the intended property: an accepted justification reveals a share
on the committed polynomial that the verifier knows. -/
def C65_statement : Prop :=
  ∀ (F G : Type) (_ : Field F) (_ : AddCommGroup G) (_ : Module F G) (_ : DecidableEq G)
    (E : Env F G) (x : F) (dealer : G) (pubs : List G) (v0 : Verifier F G)
    (_ : newVerifier E.suite x dealer pubs = .ok v0) (cs : List (VCall F G))
    (_ : ∀ c ∈ cs, c.fromNetwork = true) (j : Justification F G) (d0 : Deal F G),
    (vRun E v0 cs).aggregator.deal = some d0 →
    ((vRun E v0 cs).processJustification E.suite j).2 = .ok () →
    j.deal.secShare.v • E.suite.base =
      pointVal d0.commitments ((j.deal.secShare.i + 1 : Nat) : F)

/-- What holds: if the justification repeats the commitments of the stored deal, then the revealed
share lies on them. Missing: nothing compares the commitments. -/
theorem C65_same_commitments_partial (S : Suite F G) (v : Verifier F G) (j : Justification F G)
    (d0 : Deal F G) (h0 : v.aggregator.deal = some d0) (hc : j.deal.commitments = d0.commitments)
    (h : (v.processJustification S j).2 = .ok ()) :
    j.deal.secShare.v • S.base = pointVal d0.commitments ((j.deal.secShare.i + 1 : Nat) : F) := by
  obtain ⟨-, -, -, -, -, -, -, h⟩ := (C29_accepts_iff_partial S v j d0 h0).1 h
  rw [h, hc]

end

namespace VssPExample

open Kyber.Toy

section

variable [SMul F G]

/-- an earlier session of the same dealer with the same verifiers -/
def oldDealer : Dealer (ZMod 11) (ZMod 11) :=
  match newDealer suite 4 9 pubs 2 [1] with
  | .ok d => d
  | _ => ⟨0, 0, 0, [], ⟨[]⟩, [], [], 0, [], [], newEmptyAggregator []⟩

/-- a dealer that gives verifier 0 a wrong share -/
def cheater : Dealer (ZMod 11) (ZMod 11) :=
  { dealer with deals := dealer.deals.map (fun d =>
      if d.secShare.i = 0 then { d with secShare := ⟨0, d.secShare.v + 1⟩ } else d) }

/-- The approval that verifier 0 gave in the old session is replayed before the bad deal. -/
def replayed : List (VCall (ZMod 11) (ZMod 11)) :=
  [.response (resp (encDeal oldDealer 0) 0), .encDeal (encDeal cheater 0) 5,
   .response (resp (encDeal cheater 1) 1), .response (resp (encDeal cheater 2) 2)]

theorem replayed_network : ∀ c ∈ replayed, c.fromNetwork = true := by
  intro c hc
  simp only [replayed, List.mem_cons, List.not_mem_nil, or_false] at hc
  rcases hc with rfl | rfl | rfl | rfl <;> rfl

/-- The bad deal that `deal` returns. -/
def badDeal : Deal (ZMod 11) (ZMod 11) := cheater.deals.getD 0 ⟨[], ⟨0, 0⟩, 0, []⟩

theorem bad_deal_returned :
    (resp (encDeal cheater 0) 0).status = false ∧
    (vRun envP (ver 0) replayed).deal = some badDeal ∧
    badDeal.secShare.v • envP.suite.base ≠
      pointVal badDeal.commitments ((badDeal.secShare.i + 1 : Nat) : ZMod 11) := by
  unfold pointVal
  decide +kernel

/-- Without the replay the bad deal is not returned; `C64_no_replay_partial` applies to
`withComplaint`. -/
example : (vRun envP (ver 0) (replayed.drop 1)).deal = none ∧
    ∀ r, VCall.response r ∈ withComplaint → r.index ≠ (ver 0).index := by
  refine ⟨by decide +kernel, ?_⟩
  intro r hr
  simp only [withComplaint, List.mem_cons, List.not_mem_nil, or_false, reduceCtorEq, false_or,
    VCall.response.injEq] at hr
  subst hr
  decide +kernel

/-- a justification for another polynomial -/
def otherJust : Justification (ZMod 11) (ZMod 11) :=
  ⟨[], 1, { dealAt 1 with secShare := ⟨1, 1⟩, commitments := [2] }, []⟩

theorem other_polynomial_accepted :
    ((vRun envP (ver 0) withComplaint).processJustification envP.suite otherJust).2 = .ok () ∧
    (vRun envP (ver 0) withComplaint).aggregator.deal = some (dealAt 0) ∧
    ¬ (otherJust.deal.secShare.v • envP.suite.base =
      pointVal (dealAt 0).commitments ((otherJust.deal.secShare.i + 1 : Nat) : ZMod 11)) := by
  unfold pointVal
  decide +kernel

end

end VssPExample

section

variable [SMul F G]

open VssPExample in
/-- C64 does not hold for the Pedersen variant: with an approval replayed from an older session, a
deal that the verifier rejects is later returned as certified. -/
theorem C64_violated_replay : ¬ C64_statement := by
  intro h
  obtain ⟨-, h1, h2⟩ := bad_deal_returned
  exact h2 (h (ZMod 11) (ZMod 11) _ _ _ _
    Toy.envP 3 8 pubs (ver 0) ver0 replayed replayed_network badDeal h1).2.2.2

set_option maxRecDepth 100000 in
open VssPExample in
/-- C65 does not hold for the Pedersen variant: a share of a different polynomial, sent with its own
commitments, is an accepted justification. -/
theorem C65_violated : ¬ C65_statement := by
  intro h
  obtain ⟨h1, h2, h3⟩ := other_polynomial_accepted
  exact h3 (h (ZMod 11) (ZMod 11) _ _ _ _
    Toy.envP 3 8 pubs (ver 0) ver0 withComplaint withComplaint_network otherJust (dealAt 0) h2 h1)

open VssPExample in
set_option maxRecDepth 100000 in
/-- `C65_same_commitments_partial` for an honest justification. -/
example : honestJust.deal.secShare.v • Toy.envP.suite.base =
    pointVal (dealAt 0).commitments ((honestJust.deal.secShare.i + 1 : Nat) : ZMod 11) :=
  C65_same_commitments_partial Toy.envP.suite (vRun Toy.envP (ver 0) withComplaint) honestJust (dealAt 0)
    (by decide +kernel) (by decide +kernel) (by decide +kernel)

end

end Kyber.Props
