/-
C110: a dealer opens the share of a verifier only when that verifier complained about this very
deal, and the justification it sends is accepted.
-/
import Verif.Spec.Dealer
import Verif.Lemmas.DkgRobust
import Verif.Lemmas.DkgPedersenOld
import Verif.Lemmas.DkgRabinDealer
import Verif.Lemmas.VssRabinHonest
import Verif.Props.DkgPedersenQual
import Verif.Props.VssRabinMore
import Verif.Props.DkgRabinHonest

set_option linter.unusedSectionVars false

namespace Kyber.Props

open Kyber.Spec

variable {F G : Type} [Field F] [AddCommGroup G] [SMul F G] [DecidableEq G]

/-! ## Pedersen VSS -/

section pedersen

open Kyber.VssP

/-- The constant part of a dealer. -/
theorem dlRun_const (E : VssP.Env F G) (d : Dealer F G) (cs : List (DlCall F)) :
    { dlRun E d cs with aggregator := d.aggregator } = d := by
  induction cs using List.reverseRecOn with
  | nil => rfl
  | append_singleton cs c ih =>
    have hrun : dlRun E d (cs ++ [c]) = dlStep E (dlRun E d cs) c := by simp [dlRun]
    rw [hrun]
    cases c with
    | response r k =>
      show { (Dealer.processResponse E (dlRun E d cs) r k).1 with aggregator := d.aggregator } = d
      rw [DkgP.dealer_processResponse]; exact ih
    | timeout => exact ih

theorem verifyResponse_agg (S : Suite F G) (a : Aggregator F G) (r : Response) :
    (a.verifyResponse S r).1.sid = a.sid ∧ (a.verifyResponse S r).1.verifiers = a.verifiers := by
  rcases verifyResponse_cases S a r with ⟨e, h⟩ | h | ⟨_, -, -, -, h⟩ <;> rw [h]
  · exact ⟨rfl, rfl⟩
  · exact ⟨rfl, rfl⟩
  · rcases addResponse_cases a r with ⟨e, h'⟩ | ⟨-, -, h'⟩ <;> rw [h'] <;> exact ⟨rfl, rfl⟩

/-- When `verify_response` accepts. -/
theorem verifyResponse_ok_iff (S : Suite F G) (a : Aggregator F G) (hs : a.sid ≠ []) (r : Response) :
    (a.verifyResponse S r).2 = .ok () ↔
      Signed S a.verifiers a.sid r ∧ a.responses.get r.index = none := by
  constructor
  · intro h
    rcases verifyResponse_cases S a r with ⟨e, h'⟩ | h' | ⟨pub, h1, h2, h3, h'⟩
    · rw [h'] at h; cases h
    · rw [h'] at h; cases h
    · rw [h'] at h
      rcases addResponse_cases a r with ⟨e, h''⟩ | ⟨-, h4, -⟩
      · rw [h''] at h; cases h
      · exact ⟨⟨h1 hs, pub, h2, h3⟩, h4⟩
  · rintro ⟨⟨h1, pub, h2, h3⟩, h4⟩
    unfold Aggregator.verifyResponse findPub
    rw [if_neg (by rintro ⟨-, h⟩; exact h h1)]
    simp only [h2, h3]
    unfold Aggregator.addResponse findPub
    simp [h2, h4]

/-- The responses a dealer knows are those that were delivered, are signed and name its session. -/
theorem dlRun_agg (E : VssP.Env F G) (d : Dealer F G) (hs : d.aggregator.sid ≠ [])
    (hr : d.aggregator.responses = []) (cs : List (DlCall F)) :
    (dlRun E d cs).aggregator.sid = d.aggregator.sid ∧
    (dlRun E d cs).aggregator.verifiers = d.aggregator.verifiers ∧
    ∀ i, (dlRun E d cs).aggregator.responses.get i ≠ none ↔
      ∃ r k, DlCall.response r k ∈ cs ∧ Signed E.suite d.aggregator.verifiers d.aggregator.sid r ∧
        r.index = i := by
  induction cs using List.reverseRecOn with
  | nil => exact ⟨rfl, rfl, fun i => by simp [dlRun, hr, AMap.get_nil]⟩
  | append_singleton cs c ih =>
    have hrun : dlRun E d (cs ++ [c]) = dlStep E (dlRun E d cs) c := by simp [dlRun]
    rw [hrun]
    obtain ⟨i1, i2, i3⟩ := ih
    cases c with
    | timeout =>
      refine ⟨i1, i2, fun i => ?_⟩
      show (dlRun E d cs).aggregator.responses.get i ≠ none ↔ _
      rw [i3]; simp
    | response r k =>
      simp only [dlStep]
      rw [DkgP.dealer_processResponse]
      simp only
      obtain ⟨v1, v2⟩ := verifyResponse_agg E.suite (dlRun E d cs).aggregator r
      refine ⟨v1.trans i1, v2.trans i2, fun i => ?_⟩
      have hok := verifyResponse_ok_iff E.suite (dlRun E d cs).aggregator (by rw [i1]; exact hs) r
      rw [i1, i2] at hok
      have hmem : (∃ r' k', DlCall.response r' k' ∈ cs ++ [DlCall.response r k] ∧
          Signed E.suite d.aggregator.verifiers d.aggregator.sid r' ∧ r'.index = i) ↔
          (dlRun E d cs).aggregator.responses.get i ≠ none ∨
          Signed E.suite d.aggregator.verifiers d.aggregator.sid r ∧ r.index = i := by
        rw [i3]
        constructor
        · rintro ⟨r', k', hm, h⟩
          rcases List.mem_append.1 hm with hm | hm
          · exact Or.inl ⟨r', k', hm, h⟩
          · rw [List.mem_singleton] at hm; cases hm; exact Or.inr h
        · rintro (⟨r', k', hm, h⟩ | h)
          · exact ⟨r', k', List.mem_append_left _ hm, h⟩
          · exact ⟨r, k, by simp, h⟩
      rw [hmem]
      have hbad : (dlRun E d cs).aggregator.verifyResponse E.suite r =
          ((dlRun E d cs).aggregator, ((dlRun E d cs).aggregator.verifyResponse E.suite r).2) →
          ((dlRun E d cs).aggregator.verifyResponse E.suite r).2 ≠ .ok () →
          (((dlRun E d cs).aggregator.verifyResponse E.suite r).1.responses.get i ≠ none ↔
            (dlRun E d cs).aggregator.responses.get i ≠ none ∨
            Signed E.suite d.aggregator.verifiers d.aggregator.sid r ∧ r.index = i) := by
        intro h1 h2
        rw [h1]
        refine ⟨Or.inl, ?_⟩
        rintro (h | ⟨h, rfl⟩)
        · exact h
        · intro hn; exact h2 (hok.2 ⟨h, hn⟩)
      rcases verifyResponse_cases E.suite (dlRun E d cs).aggregator r with
        ⟨e, h⟩ | h | ⟨pub, h1, h2, h3, h⟩
      · exact hbad (by rw [h]) (by rw [h]; simp)
      · exact hbad (by rw [h]) (by rw [h]; simp)
      · rcases addResponse_cases (dlRun E d cs).aggregator r with ⟨e, h'⟩ | ⟨-, -, h'⟩
        · exact hbad (by rw [h, h']) (by rw [h, h']; simp)
        · rw [h, h']
          simp only [AMap.get_insert]
          have hsg : Signed E.suite d.aggregator.verifiers d.aggregator.sid r :=
            ⟨by rw [← i1]; exact h1 (by rw [i1]; exact hs), pub, by rw [← i2]; exact h2, h3⟩
          by_cases hi : i = r.index
          · subst hi; simp [hsg]
          · rw [if_neg hi]
            constructor
            · exact Or.inl
            · rintro (h | ⟨-, h⟩)
              · exact h
              · exact absurd h.symm hi

/-- C110 for the Pedersen VSS: after any history of responses and timeouts `process_response`
returns a justification if and only if the response is a complaint, names the dealer's session, is
signed with the key of the verifier it names, and is the first such answer of that verifier. The
justification then contains the session, the index and the deal of exactly that verifier. -/
theorem C110_pedersen_vss (E : VssP.Env F G) (x secret : F) (pubs : List G) (t : Nat) (draws : List F)
    (d0 : Dealer F G) (h0 : newDealer E.suite x secret pubs t draws = .ok d0)
    (hsid : d0.sessionId ≠ []) (cs : List (DlCall F)) (r : Response) (k : F)
    (j : Justification F G) :
    ((dlRun E d0 cs).processResponse E r k).2 = .ok (some j) ↔
      r.status = false ∧ Signed E.suite pubs d0.sessionId r ∧
      (∀ r' k', DlCall.response r' k' ∈ cs → Signed E.suite pubs d0.sessionId r' →
        r'.index ≠ r.index) ∧
      ∃ dl, d0.deals[r.index]? = some dl ∧ j = ⟨d0.sessionId, r.index, dl,
        Schnorr.sign E.suite k x
          (Justification.hash E ⟨d0.sessionId, r.index, dl, []⟩)⟩ := by
  obtain ⟨-, -, hlong, -, -, hvers, -, -, -, -, -, hdeals, hagg⟩ := newDealer_ok h0
  have ha1 : d0.aggregator.sid = d0.sessionId := by rw [hagg]; rfl
  have ha2 : d0.aggregator.verifiers = pubs := by rw [hagg]; rfl
  have ha3 : d0.aggregator.responses = [] := by rw [hagg]; rfl
  obtain ⟨i1, i2, i3⟩ := dlRun_agg E d0 (by rw [ha1]; exact hsid) ha3 cs
  have hc := dlRun_const E d0 cs
  have hc1 : (dlRun E d0 cs).deals = d0.deals := by have := congrArg Dealer.deals hc; exact this
  have hc2 : (dlRun E d0 cs).sessionId = d0.sessionId := by
    have := congrArg Dealer.sessionId hc; exact this
  have hc3 : (dlRun E d0 cs).long = d0.long := by have := congrArg Dealer.long hc; exact this
  rw [ha1] at i1 i3
  rw [ha2] at i2 i3
  have hok := verifyResponse_ok_iff E.suite (dlRun E d0 cs).aggregator (by rw [i1]; exact hsid) r
  rw [i1, i2] at hok
  have hnone : (dlRun E d0 cs).aggregator.responses.get r.index = none ↔
      ∀ r' k', DlCall.response r' k' ∈ cs → Signed E.suite pubs d0.sessionId r' →
        r'.index ≠ r.index := by
    rw [← not_iff_not, ← ne_eq, i3]
    push Not
    constructor
    · rintro ⟨r', k', h1, h2, h3⟩; exact ⟨r', k', h1, h2, h3⟩
    · rintro ⟨r', k', h1, h2, h3⟩; exact ⟨r', k', h1, h2, h3⟩
  rw [hnone] at hok
  have hcomp : ((dlRun E d0 cs).processResponse E r k).2 =
      match ((dlRun E d0 cs).aggregator.verifyResponse E.suite r).2 with
      | .err e => .err e
      | .panic => .panic
      | .ok () => if r.status = true then .ok none else
        match d0.deals[r.index]? with
        | none => .panic
        | some dl => .ok (some ⟨d0.sessionId, r.index, dl,
          Schnorr.sign E.suite k x (Justification.hash E ⟨d0.sessionId, r.index, dl, []⟩)⟩) := by
    unfold Dealer.processResponse
    simp only [hc1, hc2, hc3, hlong, statusApproval]
    cases ((dlRun E d0 cs).aggregator.verifyResponse E.suite r).2 with
    | err e => rfl
    | panic => rfl
    | ok u =>
      cases r.status with
      | true => rfl
      | false =>
        cases d0.deals[r.index]? <;> rfl
  rw [hcomp]
  constructor
  · intro h
    split at h
    · cases h
    · cases h
    · rename_i hv
      obtain ⟨g1, g2⟩ := hok.1 hv
      split at h
      · cases h
      · rename_i hst
        split at h
        · cases h
        · rename_i dl hdl
          cases h
          exact ⟨by simpa using hst, g1, g2, dl, hdl, rfl⟩
  · rintro ⟨h1, h2, h3, dl, h4, rfl⟩
    rw [hok.2 ⟨h2, h3⟩]
    simp [h1, h4]

/-- What a verifier remembers of the deal it holds. -/
theorem held_deal (E : VssP.Env F G) (v : Verifier F G) (h0 : v.aggregator.deal = none)
    (cs : List (VCall F G)) (hc : ∀ c ∈ cs, c.fromNetwork = true) (dl : Deal F G)
    (h : (vRun E v cs).aggregator.deal = some dl) :
    (vRun E v cs).aggregator.sid = dl.sessionId ∧ (vRun E v cs).aggregator.t = dl.t := by
  have key : ∀ cs : List (VCall F G), (∀ c ∈ cs, c.fromNetwork = true) →
      ∀ dl, (vRun E v cs).aggregator.deal = some dl →
        (vRun E v cs).aggregator.sid = dl.sessionId ∧ (vRun E v cs).aggregator.t = dl.t := by
    intro cs
    induction cs using List.reverseRecOn with
    | nil => intro _ dl h; change v.aggregator.deal = some dl at h; rw [h0] at h; cases h
    | append_singleton cs c ih =>
      intro hc
      have hrun : vRun E v (cs ++ [c]) = vStep E (vRun E v cs) c := by simp [vRun]
      rw [hrun]
      have ih' := ih (fun c h => hc c (List.mem_append_left _ h))
      have hrem : ∀ (a : Aggregator F G) (d : Deal F G),
          (∀ dl, a.deal = some dl → a.sid = dl.sessionId ∧ a.t = dl.t) →
          ∀ dl, (a.remember d).deal = some dl →
            (a.remember d).sid = dl.sessionId ∧ (a.remember d).t = dl.t := by
        intro a d ha dl hd
        unfold Aggregator.remember at hd ⊢
        cases hx : a.deal with
        | none => rw [hx] at hd; cases hd; exact ⟨rfl, rfl⟩
        | some y => rw [hx] at hd; simp only at hd ⊢; exact ha _ hd
      have hadd : ∀ (a : Aggregator F G) (r : Response),
          (∀ dl, a.deal = some dl → a.sid = dl.sessionId ∧ a.t = dl.t) →
          ∀ dl, (a.addResponse r).1.deal = some dl →
            (a.addResponse r).1.sid = dl.sessionId ∧ (a.addResponse r).1.t = dl.t := by
        intro a r ha
        rcases addResponse_cases a r with ⟨e, h⟩ | ⟨-, -, h⟩ <;> rw [h] <;> exact ha
      have hvd : ∀ (a : Aggregator F G) (d : Deal F G) (b : Bool),
          (∀ dl, a.deal = some dl → a.sid = dl.sessionId ∧ a.t = dl.t) →
          ∀ dl, (a.verifyDeal E.suite d b).1.deal = some dl →
            (a.verifyDeal E.suite d b).1.sid = dl.sessionId ∧ (a.verifyDeal E.suite d b).1.t = dl.t := by
        intro a d b ha
        rcases verifyDeal_fst E.suite a d b with h | h <;> rw [h]
        · exact ha
        · exact hrem a d ha
      cases c with
      | encDeal e k =>
        simp only [vStep]
        rcases processEncryptedDeal_cases E (vRun E v cs) e k with
          (⟨_, h⟩ | h) | ⟨d, -, -, -, ⟨-, h⟩ | ⟨st, -, h, -⟩⟩ <;> rw [h]
        · exact ih'
        · exact ih'
        · exact hrem _ _ ih'
        · exact hadd _ _ (hrem _ _ ih')
      | response r =>
        simp only [vStep, Verifier.processResponse]
        rcases verifyResponse_cases E.suite (vRun E v cs).aggregator r with ⟨e, h⟩ | h | ⟨_, -, -, -, h⟩ <;>
          rw [h]
        · exact ih'
        · exact ih'
        · exact hadd _ _ ih'
      | justification j =>
        simp only [vStep, Verifier.processJustification]
        have hv := hvd (vRun E v cs).aggregator j.deal false ih'
        unfold Aggregator.verifyJustification
        split
        · exact ih'
        split
        · exact ih'
        split
        · exact ih'
        · simp only
          split <;> exact hv
      | timeout => exact ih'
      | setThreshold t => have := hc (.setThreshold t) (by simp); simp [VCall.fromNetwork] at this
      | unsafeSet i b => have := hc (.unsafeSet i b) (by simp); simp [VCall.fromNetwork] at this
      | verifyDeal d b => have := hc (.verifyDeal d b) (by simp); simp [VCall.fromNetwork] at this
      | addResponse r => have := hc (.addResponse r) (by simp); simp [VCall.fromNetwork] at this
  exact key cs hc dl h

/-- C110, second half, for the Pedersen VSS: a verifier that knows of the complaint, and holds no
deal or one of this dealer's, accepts the justification and does not mark the dealer as bad. -/
theorem C110_pedersen_accepted (E : VssP.Env F G) (hB : Lin F E.suite.base) (x secret : F)
    (pubs : List G) (t : Nat) (draws : List F) (d0 : Dealer F G)
    (h0 : newDealer E.suite x secret pubs t draws = .ok d0)
    (ds : List (DlCall F)) (r : Response) (k : F) (j : Justification F G)
    (hj : ((dlRun E d0 ds).processResponse E r k).2 = .ok (some j)) (hsid : d0.sessionId ≠ [])
    (y : F) (P : G) (v0 : Verifier F G) (hv0 : newVerifier E.suite y P pubs = .ok v0)
    (cs : List (VCall F G)) (hc : ∀ c ∈ cs, c.fromNetwork = true)
    (hd : ∀ dl, (vRun E v0 cs).aggregator.deal = some dl → dl.sessionId = d0.sessionId ∧ dl.t = t)
    (r' : Response) (hr' : (vRun E v0 cs).aggregator.responses.get r.index = some r')
    (hst : r'.status = false) :
    ((vRun E v0 cs).processJustification E.suite j).2 = .ok () ∧
    ((vRun E v0 cs).processJustification E.suite j).1.aggregator.badDealer =
      (vRun E v0 cs).aggregator.badDealer := by
  obtain ⟨-, ⟨-, Q, hQ, -⟩, -, dl, hdl, rfl⟩ := (C110_pedersen_vss E x secret pubs t draws d0 h0 hsid ds r k j).1 hj
  obtain ⟨hval, -, -, -, -, -, -, hpoly, hcom, -, -, hdeals, -⟩ := newDealer_ok h0
  obtain ⟨hl, -⟩ := List.getElem?_eq_some_iff.1 hQ
  have hdl' : dl = ⟨d0.sessionId, d0.secretPoly.eval r.index, t, d0.secretCommits⟩ := by
    rw [hdeals] at hdl
    simp [hl] at hdl
    exact hdl.symm
  have hagg0 : v0.aggregator = newEmptyAggregator pubs := by
    unfold newVerifier at hv0
    simp only at hv0
    split at hv0
    · cases hv0
    · cases hv0; rfl
  have hvs : (vRun E v0 cs).aggregator.verifiers = pubs := by
    rw [(vRun_ext E v0 cs).verifiers, hagg0]; rfl
  have hchk : ((vRun E v0 cs).aggregator.remember dl).checkDeal E.suite dl = .ok () := by
    have hv2 : ((vRun E v0 cs).aggregator.remember dl).verifiers = pubs := by
      rw [(remember_ext _ _).verifiers, hvs]
    have hst' : ((vRun E v0 cs).aggregator.remember dl).sid = d0.sessionId ∧
        ((vRun E v0 cs).aggregator.remember dl).t = t := by
      cases hx : (vRun E v0 cs).aggregator.deal with
      | none => unfold Aggregator.remember; rw [hx, hdl']; exact ⟨rfl, rfl⟩
      | some y =>
        have := held_deal E v0 (by rw [hagg0]; rfl) cs hc y hx
        unfold Aggregator.remember
        rw [hx]
        exact ⟨this.1.trans (hd y hx).1, this.2.trans (hd y hx).2⟩
    have := checkDeal_honest (F := F) (S := E.suite) hB (a := (vRun E v0 cs).aggregator.remember dl)
      (cs := secret :: draws.take (t - 1)) (by simp) (sid := d0.sessionId) (t := t) (i := r.index)
      (by rw [hv2]; exact hval) hst'.2 hst'.1 (by rw [hv2]; exact hl)
    rw [← hpoly, ← hcom, ← hdl'] at this
    exact this
  have hfp : findPub (vRun E v0 cs).aggregator.verifiers r.index = some Q := by
    rw [hvs]; exact hQ
  have hbad : ((vRun E v0 cs).aggregator.remember dl).badDealer = (vRun E v0 cs).aggregator.badDealer := by
    unfold Aggregator.remember; split <;> rfl
  unfold Verifier.processJustification Aggregator.verifyJustification Aggregator.verifyDeal
  simp [hfp, hr', hst, hchk, hbad, statusComplaint]

/-- The justification is signed with the dealer's key. -/
theorem C110_pedersen_signed (E : VssP.Env F G) (hS : E.suite.Lawful) (x secret : F) (pubs : List G)
    (t : Nat) (draws : List F) (d0 : Dealer F G)
    (h0 : newDealer E.suite x secret pubs t draws = .ok d0)
    (hsid : d0.sessionId ≠ []) (cs : List (DlCall F)) (r : Response) (k : F)
    (j : Justification F G) (hk : Usable E.suite (k • E.suite.base))
    (hx : Usable E.suite (x • E.suite.base))
    (hj : ((dlRun E d0 cs).processResponse E r k).2 = .ok (some j)) :
    Schnorr.verify E.suite (x • E.suite.base) (j.hash E) j.signature = .ok () := by
  obtain ⟨-, -, -, dl, -, rfl⟩ := (C110_pedersen_vss E x secret pubs t draws d0 h0 hsid cs r k j).1 hj
  exact C11_sign_verify E.suite hS k x _ hk.1 hk.2 hx.1 hx.2

open VssPExample in
set_option maxRecDepth 100000 in
/-- The complaint of verifier 1 is justified with its deal after the approval of verifier 2; sent a
second time, or about another session, it is not. -/
example : newDealer Toy.envP.suite 4 7 pubs 2 [5] = .ok dealer ∧ dealer.sessionId ≠ [] ∧
    ((dlRun Toy.envP dealer [.response (resp (encDeal dealer 2) 2) 5]).processResponse Toy.envP
      complaint 5).2 = .ok (some honestJust) ∧ honestJust.deal = dealAt 1 ∧
    ((dlRun Toy.envP dealer [.response complaint 5]).processResponse Toy.envP
      complaint 5).2 = .err .responseAlreadyExisting ∧
    ((vRun Toy.envP (ver 0) withComplaint).processJustification Toy.envP.suite honestJust).2 = .ok () ∧
    (vRun Toy.envP (ver 0) withComplaint).aggregator.deal = some (dealAt 0) := by
  refine ⟨by rfl, by decide +kernel, by decide +kernel, by decide +kernel, by decide +kernel,
    by decide +kernel, by decide +kernel⟩

open VssPExample in
set_option maxRecDepth 100000 in
/-- `C110_pedersen_vss` and `C110_pedersen_accepted` for the complaint of verifier 1: the dealer was asked by that
verifier, and verifier 0 takes the justification. -/
example : complaint.status = false ∧ Signed Toy.envP.suite pubs dealer.sessionId complaint ∧
    ((vRun Toy.envP (ver 0) withComplaint).processJustification Toy.envP.suite honestJust).2 = .ok () := by
  have hj : ((dlRun Toy.envP dealer [.response (resp (encDeal dealer 2) 2) 5]).processResponse Toy.envP
    complaint 5).2 = .ok (some honestJust) := by decide +kernel
  have h := (C110_pedersen_vss Toy.envP 4 7 pubs 2 [5] dealer rfl (by decide +kernel) _ _ _ _).1 hj
  refine ⟨h.1, h.2.1, (C110_pedersen_accepted Toy.envP (Lin.of_module _) 4 7 pubs 2 [5] dealer rfl _ _ _ _ hj
    (by decide +kernel) 3 _ (ver 0) rfl withComplaint (by decide +kernel) ?_ complaint (by decide +kernel) rfl).1⟩
  intro dl hdl
  have h0 : (vRun Toy.envP (ver 0) withComplaint).aggregator.deal = some (dealAt 0) := by decide +kernel
  obtain rfl := Option.some.inj (hdl.symm.trans h0)
  decide +kernel

end pedersen

/-! ## Rabin VSS -/

section rabin

open Kyber.VssR
open Kyber.VssP (Response)

theorem dealerR_processResponse (E : VssR.Env F G) (dl : Dealer F G) (r : Response) (k : F) :
    (dl.processResponse E r k).1 =
      { dl with aggregator := (dl.aggregator.verifyResponse E.suite r).1 } := by
  unfold Dealer.processResponse
  simp only
  split
  · rfl
  · rfl
  · split
    · rfl
    · split <;> rfl

theorem dlRunR_const (E : VssR.Env F G) (d : Dealer F G) (cs : List (DlCall F)) :
    { dlRunR E d cs with aggregator := d.aggregator } = d := by
  induction cs using List.reverseRecOn with
  | nil => rfl
  | append_singleton cs c ih =>
    have hrun : dlRunR E d (cs ++ [c]) = dlStepR E (dlRunR E d cs) c := by simp [dlRunR]
    rw [hrun]
    cases c with
    | response r k =>
      show { (Dealer.processResponse E (dlRunR E d cs) r k).1 with aggregator := d.aggregator } = d
      rw [dealerR_processResponse]; exact ih
    | timeout => exact ih

theorem verifyResponseR_agg (S : Suite F G) (a : Aggregator F G) (r : Response) :
    (a.verifyResponse S r).1.sid = a.sid ∧ (a.verifyResponse S r).1.verifiers = a.verifiers := by
  rcases verifyResponse_cases S a r with ⟨e, h⟩ | h | ⟨_, -, -, -, h⟩ <;> rw [h]
  · exact ⟨rfl, rfl⟩
  · exact ⟨rfl, rfl⟩
  · rcases addResponse_cases a r with ⟨e, h'⟩ | ⟨-, -, h'⟩ <;> rw [h'] <;> exact ⟨rfl, rfl⟩

/-- When `verify_response` accepts. -/
theorem verifyResponseR_ok_iff (S : Suite F G) (a : Aggregator F G) (r : Response) :
    (a.verifyResponse S r).2 = .ok () ↔
      Signed S a.verifiers a.sid r ∧ a.responses.get r.index = none := by
  constructor
  · intro h
    rcases verifyResponse_cases S a r with ⟨e, h'⟩ | h' | ⟨pub, h1, h2, h3, h'⟩
    · rw [h'] at h; cases h
    · rw [h'] at h; cases h
    · rw [h'] at h
      rcases addResponse_cases a r with ⟨e, h''⟩ | ⟨-, h4, -⟩
      · rw [h''] at h; cases h
      · exact ⟨⟨h1, pub, h2, h3⟩, h4⟩
  · rintro ⟨⟨h1, pub, h2, h3⟩, h4⟩
    unfold Aggregator.verifyResponse VssP.findPub
    rw [if_neg (by simpa using h1)]
    simp only [h2, h3]
    unfold Aggregator.addResponse VssP.findPub
    simp [h2, h4]

/-- The responses a dealer knows: delivered, signed ones of its session, and after a timeout one
for every verifier. -/
theorem dlRunR_agg (E : VssR.Env F G) (d : Dealer F G)
    (hr : d.aggregator.responses = []) (cs : List (DlCall F)) :
    (dlRunR E d cs).aggregator.sid = d.aggregator.sid ∧
    (dlRunR E d cs).aggregator.verifiers = d.aggregator.verifiers ∧
    ∀ i, i < d.aggregator.verifiers.length → ((dlRunR E d cs).aggregator.responses.get i ≠ none ↔
      DlCall.timeout ∈ cs ∨
      ∃ r k, DlCall.response r k ∈ cs ∧ Signed E.suite d.aggregator.verifiers d.aggregator.sid r ∧
        r.index = i) := by
  induction cs using List.reverseRecOn with
  | nil => exact ⟨rfl, rfl, fun i _ => by simp [dlRunR, hr, AMap.get_nil]⟩
  | append_singleton cs c ih =>
    have hrun : dlRunR E d (cs ++ [c]) = dlStepR E (dlRunR E d cs) c := by simp [dlRunR]
    rw [hrun]
    obtain ⟨i1, i2, i3⟩ := ih
    cases c with
    | timeout =>
      refine ⟨i1, i2, fun i hi => ?_⟩
      show (dlRunR E d cs).aggregator.cleanVerifiers.responses.get i ≠ none ↔ _
      rw [cleanVerifiers_get, i2]
      cases h : (dlRunR E d cs).aggregator.responses.get i <;> simp [hi]
    | response r k =>
      simp only [dlStepR]
      rw [dealerR_processResponse]
      simp only
      obtain ⟨v1, v2⟩ := verifyResponseR_agg E.suite (dlRunR E d cs).aggregator r
      refine ⟨v1.trans i1, v2.trans i2, fun i hi => ?_⟩
      have hok := verifyResponseR_ok_iff E.suite (dlRunR E d cs).aggregator r
      rw [i1, i2] at hok
      have hmem : (DlCall.timeout ∈ cs ++ [DlCall.response r k] ∨
          ∃ r' k', DlCall.response r' k' ∈ cs ++ [DlCall.response r k] ∧
          Signed E.suite d.aggregator.verifiers d.aggregator.sid r' ∧ r'.index = i) ↔
          (dlRunR E d cs).aggregator.responses.get i ≠ none ∨
          Signed E.suite d.aggregator.verifiers d.aggregator.sid r ∧ r.index = i := by
        rw [i3 i hi]
        constructor
        · rintro (hm | ⟨r', k', hm, h⟩)
          · rcases List.mem_append.1 hm with hm | hm
            · exact Or.inl (Or.inl hm)
            · simp at hm
          · rcases List.mem_append.1 hm with hm | hm
            · exact Or.inl (Or.inr ⟨r', k', hm, h⟩)
            · rw [List.mem_singleton] at hm; cases hm; exact Or.inr h
        · rintro ((hm | ⟨r', k', hm, h⟩) | h)
          · exact Or.inl (List.mem_append_left _ hm)
          · exact Or.inr ⟨r', k', List.mem_append_left _ hm, h⟩
          · exact Or.inr ⟨r, k, by simp, h⟩
      rw [hmem]
      have hbad : (dlRunR E d cs).aggregator.verifyResponse E.suite r =
          ((dlRunR E d cs).aggregator, ((dlRunR E d cs).aggregator.verifyResponse E.suite r).2) →
          ((dlRunR E d cs).aggregator.verifyResponse E.suite r).2 ≠ .ok () →
          (((dlRunR E d cs).aggregator.verifyResponse E.suite r).1.responses.get i ≠ none ↔
            (dlRunR E d cs).aggregator.responses.get i ≠ none ∨
            Signed E.suite d.aggregator.verifiers d.aggregator.sid r ∧ r.index = i) := by
        intro h1 h2
        rw [h1]
        refine ⟨Or.inl, ?_⟩
        rintro (h | ⟨h, rfl⟩)
        · exact h
        · intro hn; exact h2 (hok.2 ⟨h, hn⟩)
      rcases verifyResponse_cases E.suite (dlRunR E d cs).aggregator r with
        ⟨e, h⟩ | h | ⟨pub, h1, h2, h3, h⟩
      · exact hbad (by rw [h]) (by rw [h]; simp)
      · exact hbad (by rw [h]) (by rw [h]; simp)
      · rcases addResponse_cases (dlRunR E d cs).aggregator r with ⟨e, h'⟩ | ⟨-, -, h'⟩
        · exact hbad (by rw [h, h']) (by rw [h, h']; simp)
        · rw [h, h']
          simp only [AMap.get_insert]
          have hsg : Signed E.suite d.aggregator.verifiers d.aggregator.sid r :=
            ⟨by rw [← i1]; exact h1, pub, by rw [← i2]; exact h2, h3⟩
          by_cases hi : i = r.index
          · subst hi; simp [hsg]
          · rw [if_neg hi]
            constructor
            · exact Or.inl
            · rintro (h | ⟨-, h⟩)
              · exact h
              · exact absurd h.symm hi

/-- C110 for the Rabin VSS: as for the Pedersen VSS; after a timeout nothing is opened any more. -/
theorem C110_rabin_vss (E : VssR.Env F G) (x secret : F) (pubs : List G) (t : Nat) (fD gD : List F)
    (d0 : Dealer F G) (h0 : newDealer E x secret pubs t fD gD = .ok d0)
    (cs : List (DlCall F)) (r : Response) (k : F) (j : Justification F G) :
    ((dlRunR E d0 cs).processResponse E r k).2 = .ok (some j) ↔
      r.status = false ∧ Signed E.suite pubs d0.sessionId r ∧ DlCall.timeout ∉ cs ∧
      (∀ r' k', DlCall.response r' k' ∈ cs → Signed E.suite pubs d0.sessionId r' →
        r'.index ≠ r.index) ∧
      ∃ dl, d0.deals[r.index]? = some dl ∧ j = ⟨d0.sessionId, r.index, dl,
        Schnorr.sign E.suite k x
          (Justification.hash E ⟨d0.sessionId, r.index, dl, []⟩)⟩ := by
  obtain ⟨f, g, -, -, -, -, -, -, hlong, -, -, hvers, -, -, -, -, hdeals, hagg⟩ := newDealer_ok h0
  have ha1 : d0.aggregator.sid = d0.sessionId := by rw [hagg]; rfl
  have ha2 : d0.aggregator.verifiers = pubs := by rw [hagg]; rfl
  have ha3 : d0.aggregator.responses = [] := by rw [hagg]; rfl
  obtain ⟨i1, i2, i3⟩ := dlRunR_agg E d0 ha3 cs
  have hc := dlRunR_const E d0 cs
  have hc1 : (dlRunR E d0 cs).deals = d0.deals := by have := congrArg Dealer.deals hc; exact this
  have hc2 : (dlRunR E d0 cs).sessionId = d0.sessionId := by
    have := congrArg Dealer.sessionId hc; exact this
  have hc3 : (dlRunR E d0 cs).long = d0.long := by have := congrArg Dealer.long hc; exact this
  rw [ha1] at i1 i3
  rw [ha2] at i2 i3
  have hok := verifyResponseR_ok_iff E.suite (dlRunR E d0 cs).aggregator r
  rw [i1, i2] at hok
  have hok' : ((dlRunR E d0 cs).aggregator.verifyResponse E.suite r).2 = .ok () ↔
      Signed E.suite pubs d0.sessionId r ∧ DlCall.timeout ∉ cs ∧
      (∀ r' k', DlCall.response r' k' ∈ cs → Signed E.suite pubs d0.sessionId r' →
        r'.index ≠ r.index) := by
    rw [hok]
    refine and_congr_right (fun hs => ?_)
    obtain ⟨-, P, hP, -⟩ := hs
    obtain ⟨hl, -⟩ := List.getElem?_eq_some_iff.1 hP
    rw [← not_iff_not, ← ne_eq, i3 _ hl, not_and_or, not_not]
    push Not
    rfl
  have hcomp : ((dlRunR E d0 cs).processResponse E r k).2 =
      match ((dlRunR E d0 cs).aggregator.verifyResponse E.suite r).2 with
      | .err e => .err e
      | .panic => .panic
      | .ok () => if r.status = true then .ok none else
        match d0.deals[r.index]? with
        | none => .panic
        | some dl => .ok (some ⟨d0.sessionId, r.index, dl,
          Schnorr.sign E.suite k x (Justification.hash E ⟨d0.sessionId, r.index, dl, []⟩)⟩) := by
    unfold Dealer.processResponse
    simp only [hc1, hc2, hc3, hlong]
    cases ((dlRunR E d0 cs).aggregator.verifyResponse E.suite r).2 with
    | err e => rfl
    | panic => rfl
    | ok u =>
      cases r.status with
      | true => rfl
      | false =>
        cases d0.deals[r.index]? <;> rfl
  rw [hcomp]
  constructor
  · intro h
    split at h
    · cases h
    · cases h
    · rename_i hv
      obtain ⟨g1, g2, g3⟩ := hok'.1 hv
      split at h
      · cases h
      · rename_i hst
        split at h
        · cases h
        · rename_i dl hdl
          cases h
          exact ⟨by simpa using hst, g1, g2, g3, dl, hdl, rfl⟩
  · rintro ⟨h1, h2, h2', h3, dl, h4, rfl⟩
    rw [hok'.2 ⟨h2, h2', h3⟩]
    simp [h1, h4]

/-- C110, second half, for the Rabin VSS: a verifier that knows of the complaint and works on the
session of the dealer accepts the justification; the complaint becomes an approval and the dealer is
not marked as bad. -/
theorem C110_rabin_accepted {F G : Type} [Field F] [AddCommGroup G] [DistribSMul F G]
    [DecidableEq G] (E : VssR.Env F G) (hB : Lin F E.suite.base)
    (hH : ∀ b, Lin F (E.pickFrom b)) (x secret : F)
    (pubs : List G) (t : Nat) (fD gD : List F) (d0 : Dealer F G)
    (h0 : newDealer E x secret pubs t fD gD = .ok d0)
    (ds : List (DlCall F)) (r : Response) (k : F) (j : Justification F G)
    (hj : ((dlRunR E d0 ds).processResponse E r k).2 = .ok (some j))
    (v : Verifier F G) (a : Aggregator F G) (ha : v.aggregator = some a)
    (hvs : a.verifiers = pubs) (hs : a.sid = d0.sessionId) (hd : a.deal.isSome)
    (r' : Response) (hr' : a.responses.get r.index = some r') (hst : r'.status = false) :
    (v.processJustification E j).2 = .ok () ∧
    ∃ a', (v.processJustification E j).1.aggregator = some a' ∧ a'.badDealer = a.badDealer ∧
      a'.responses.get r.index = some { r' with status := true } := by
  obtain ⟨-, ⟨-, Q, hQ, -⟩, -, -, dl, hdl, rfl⟩ := (C110_rabin_vss E x secret pubs t fD gD d0 h0 ds r k j).1 hj
  obtain ⟨f, g, hf, hg, hf0, -, -, hval, -, -, -, -, -, -, -, -, hdeals, -⟩ := newDealer_ok h0
  obtain ⟨hl, -⟩ := List.getElem?_eq_some_iff.1 hQ
  have hrem : a.remember dl = a := by
    unfold Aggregator.remember
    cases hx : a.deal with
    | none => rw [hx] at hd; cases hd
    | some y => rfl
  have hdl' : dl = ⟨d0.sessionId, (⟨f⟩ : Poly.PriPoly F).eval r.index, (⟨g⟩ : Poly.PriPoly F).eval r.index, t,
      commitsOf E.suite.base (deriveH E pubs) f g⟩ := by
    rw [hdeals] at hdl
    simp [hl] at hdl
    exact hdl.symm
  have hchk : a.checkDeal E dl = .ok () := by
    have := checkDeal_honest (E := E) hB hH (a := a) (f := f) (g := g)
      (by rintro rfl; cases hf0) (hf.trans hg.symm)
      (sid := d0.sessionId) (t := t) (i := r.index) (by rw [hvs]; exact hval) hs (by rw [hvs]; exact hl)
    rw [hvs] at this
    rw [hdl']; exact this
  have hfp : VssP.findPub a.verifiers r.index = some Q := by
    rw [hvs]; exact hQ
  unfold Verifier.processJustification Aggregator.verifyJustification Aggregator.verifyDeal
  simp [ha, hfp, hr', hst, hchk, hrem, AMap.get_insert]

open VssRExample in
set_option maxRecDepth 100000 in
/-- The Rabin dealer justifies a complaint of verifier 1 once, and not after the timeout. -/
example :
    let r0 : Response := ⟨dealer.sessionId, 1, false, []⟩
    let r : Response := { r0 with signature := Schnorr.sign Toy.suite 5 5 (r0.hash Toy.suite) }
    newDealer Toy.envR 4 7 pubs 2 [5] [9, 3] = .ok dealer ∧
    (match ((dlRunR Toy.envR dealer []).processResponse Toy.envR r 5).2 with
      | .ok (some j) => decide (j.deal = dealAt 1) &&
          decide (((rRun Toy.envR (ver 0) [.encDeal (encDeal dealer 0) 5,
            .response r]).processJustification Toy.envR j).2 = .ok ())
      | _ => false) = true ∧
    ((dlRunR Toy.envR dealer [.response r 5]).processResponse Toy.envR r 5).2 =
      .err .responseAlreadyExisting ∧
    ((dlRunR Toy.envR dealer [.timeout]).processResponse Toy.envR r 5).2 =
      .err .responseAlreadyExisting := by
  refine ⟨by rfl, by decide +kernel, by decide +kernel, by decide +kernel⟩

open VssRExample in
set_option maxRecDepth 100000 in
/-- `C110_rabin_vss`: the Rabin dealer answers because verifier 1 complained, in time and only once. -/
example :
    let r0 : Response := ⟨dealer.sessionId, 1, false, []⟩
    let r : Response := { r0 with signature := Schnorr.sign Toy.suite 5 5 (r0.hash Toy.suite) }
    ∃ j, ((dlRunR Toy.envR dealer []).processResponse Toy.envR r 5).2 = .ok (some j) ∧
      Signed Toy.suite pubs dealer.sessionId r ∧ dealer.deals[1]? = some j.deal := by
  intro r0 r
  have hj : (match ((dlRunR Toy.envR dealer []).processResponse Toy.envR r 5).2 with
      | .ok (some _) => true
      | _ => false) = true := by decide +kernel
  split at hj
  · rename_i j hj'
    obtain ⟨-, h1, -, -, dl, h2, h3⟩ := (C110_rabin_vss Toy.envR 4 7 pubs 2 [5] [9, 3] dealer rfl _ _ _ _).1 hj'
    exact ⟨j, hj', h1, by rw [h3]; exact h2⟩
  · cases hj

end rabin

/-! ## Pedersen DKG -/

section dkgPedersen

open Kyber.DkgP

theorem processDeal_dealerP (E : DkgEnv F G) (d : Dkg F G) (dd : Deal G) (k k' : F) :
    (d.processDeal E dd k k').1.dealer = d.dealer := by
  unfold Dkg.processDeal
  split; · rfl
  split; · rfl
  split; · rfl
  · rfl
  split; · rfl
  split; · rfl
  · rfl
  simp only
  split
  · split
    · split <;> rfl
    · rfl
  · rfl

/-- The dealer part of a participant only ever processes responses. -/
theorem dStep_dealer (E : DkgEnv F G) (d : Dkg F G) (c : DCall F G) :
    (dStep E d c).dealer = d.dealer ∨
    ∃ r k, (dStep E d c).dealer = (d.dealer.processResponse E.toEnv r k).1 := by
  cases c with
  | deals dh k rnd vk vk' =>
    left
    exact deals_ind (E := E) (P := fun d' => d'.dealer = d.dealer) dh k rnd vk vk'
      (fun _ h => h) (fun d' e _ h _ => (processDeal_dealerP E d' _ vk vk').trans h) d
      (Evolves.refl E d) rfl
  | deal dd k k' => exact Or.inl (processDeal_dealerP E d dd k k')
  | justification j =>
    left
    show (d.processJustification E j).1.dealer = d.dealer
    unfold Dkg.processJustification
    split <;> rfl
  | timeout => exact Or.inl rfl
  | response r k =>
    show (d.processResponse E r k).1.dealer = d.dealer ∨ ∃ r' k', (d.processResponse E r k).1.dealer = _
    unfold Dkg.processResponse
    split
    · left
      unfold Dkg.processResharingResponse
      simp only
      split
      · rfl
      · rfl
      · split
        · rfl
        · split
          · rfl
          · split <;> rfl
    · split
      · exact Or.inl rfl
      split
      · exact Or.inl rfl
      · exact Or.inl rfl
      · simp only
        split
        · exact Or.inl rfl
        · right
          refine ⟨r.response, k, ?_⟩
          rename_i v' _ _
          split
          all_goals
            rename_i h
            first
            | (change _ = _ at h
               have := congrArg Prod.fst h
               simp only at this
               first
               | exact this.symm
               | (split <;> exact this.symm))

theorem dRun_dealer (E : DkgEnv F G) (d : Dkg F G) (cs : List (DCall F G)) :
    (dRun E d cs).dealer.aggregator.sid = d.dealer.aggregator.sid ∧
    (dRun E d cs).dealer.aggregator.verifiers = d.dealer.aggregator.verifiers := by
  induction cs using List.reverseRecOn with
  | nil => exact ⟨rfl, rfl⟩
  | append_singleton cs c ih =>
    have hrun : dRun E d (cs ++ [c]) = dStep E (dRun E d cs) c := by simp [dRun]
    rw [hrun]
    rcases dStep_dealer E (dRun E d cs) c with h | ⟨r, k, h⟩
    · rw [h]; exact ih
    · rw [h, dealer_processResponse]
      obtain ⟨h1, h2⟩ := verifyResponse_agg E.suite (dRun E d cs).dealer.aggregator r
      exact ⟨h1.trans ih.1, h2.trans ih.2⟩

/-- What a justification returned by `process_response` should mean. -/
structure Deserved (E : DkgEnv F G) (c : Config F G) (d0 : Dkg F G) (r : Response) (k : F)
    (j : Justification F G) : Prop where
  /-- the response is a complaint -/
  complaint : r.response.status = false
  /-- about the deals of this dealer, signed by the share holder it names -/
  signed : Signed E.suite c.newNodes d0.dealer.sessionId r.response
  dealer : j.index = d0.oidx
  holder : j.justification.index = r.response.index
  session : j.justification.sessionId = d0.dealer.sessionId
  deal : d0.dealer.deals[r.response.index]? = some j.justification.deal
  /-- the justification is signed by the dealer -/
  signature : j.justification.signature =
    Schnorr.sign E.suite k c.longterm (j.justification.hash E.toEnv)

/-- C110, the intended property for every participant of a Pedersen DKG or resharing: a share is
opened only if its holder complained about this very deal. -/
def C110_statement : Prop :=
  ∀ (F G : Type) (_ : Field F) (_ : AddCommGroup G) (_ : Module F G) (_ : DecidableEq G)
    (E : DkgEnv F G) (_ : E.suite.Lawful) (_ : Function.Injective E.suite.hash) (c : Config F G)
    (secret : F) (draws : List F) (d0 : Dkg F G)
    (_ : newDistKeyHandler E.suite c secret draws = .ok d0) (_ : d0.dealer.sessionId ≠ [])
    (cs : List (DCall F G)) (r : Response) (k : F) (j : Justification F G),
    ((dRun E d0 cs).processResponse E r k).2 = .ok (some j) → Deserved E c d0 r k j

/-- C110 holds for every participant of a fresh DKG and for every node of a resharing that is also a
new node (what is missing: the old nodes that leave, see `C110_violated`). -/
theorem C110_dkg_partial (E : DkgEnv F G) (c : Config F G) (secret : F) (draws : List F)
    (d0 : Dkg F G) (h0 : newDistKeyHandler E.suite c secret draws = .ok d0)
    (hsid : d0.dealer.sessionId ≠ []) (hnew : d0.newPresent = true)
    (cs : List (DCall F G)) (r : Response) (k : F) (j : Justification F G)
    (h : ((dRun E d0 cs).processResponse E r k).2 = .ok (some j)) : Deserved E c d0 r k j := by
  have hst := newDistKeyHandler_ok h0
  have hev := dRun_evolves E d0 cs
  obtain ⟨g1, g2⟩ := dRun_dealer E d0 cs
  generalize hd : dRun E d0 cs = d at *
  have hc1 : d.dealer.deals = d0.dealer.deals := by
    have := congrArg VssP.Dealer.deals hev.dealer; exact this
  have hc2 : d.dealer.sessionId = d0.dealer.sessionId := by
    have := congrArg VssP.Dealer.sessionId hev.dealer; exact this
  have hc3 : d.dealer.long = d0.dealer.long := by
    have := congrArg VssP.Dealer.long hev.dealer; exact this
  unfold Dkg.processResponse at h
  rw [if_neg (by rintro ⟨-, -, hn⟩; rw [hev.newPresent, hnew] at hn; cases hn)] at h
  split at h
  · cases h
  split at h
  · cases h
  · cases h
  rename_i v' hv'
  simp only at h
  split at h
  · cases h
  rename_i hci
  push Not at hci
  have hci' : d0.canIssue = true := by
    have := hci.1
    rw [show (d.setVerifier r.index v').canIssue = d.canIssue from rfl, hev.canIssue] at this
    simpa using this
  have hnd : ∃ sec, VssP.newDealer E.suite c.longterm sec c.newNodes d0.newT draws = .ok d0.dealer := by
    cases hre : d0.isResharing with
    | false => exact ⟨_, (hst.fresh hre hnew).2.2⟩
    | true =>
      have := (hst.reshare hre).2.2.2
      rw [hci'] at this
      obtain ⟨sh, hsh⟩ := Option.isSome_iff_exists.1 this.symm
      exact ⟨_, hst.issue sh hsh⟩
  obtain ⟨sec, hnd⟩ := hnd
  obtain ⟨-, -, hlong, -, -, -, -, -, -, -, -, -, hagg⟩ := VssP.newDealer_ok hnd
  have ha1 : d.dealer.aggregator.sid = d0.dealer.sessionId := by rw [g1, hagg]; rfl
  have ha2 : d.dealer.aggregator.verifiers = c.newNodes := by rw [g2, hagg]; rfl
  split at h
  · cases h
  · cases h
  · cases h
  rename_i dl j' hp
  change d.dealer.processResponse E.toEnv r.response k = (dl, .ok (some j')) at hp
  have hj : j = ⟨d0.oidx, j'⟩ := by
    split at h
    · cases h
    · cases h
    · cases h; rw [← hev.oidx]; rfl
  have hok := verifyResponse_ok_iff E.suite d.dealer.aggregator (by rw [ha1]; exact hsid) r.response
  rw [ha1, ha2] at hok
  have hp2 := congrArg Prod.snd hp
  unfold VssP.Dealer.processResponse at hp2
  simp only [hc1, hc2, hc3, hlong] at hp2
  split at hp2
  · cases hp2
  · cases hp2
  · rename_i hv
    split at hp2
    · cases hp2
    · rename_i hs
      split at hp2
      · cases hp2
      · rename_i dl' hdl
        cases hp2
        subst hj
        exact ⟨by simpa [VssP.statusApproval] using hs, (hok.1 hv).1, rfl, rfl, rfl, hdl, rfl⟩

/-- What a leaving node guarantees: the response is a signed complaint of the share holder, about
some deal of some session, and what is opened is the deal of that holder; the justification is not
signed. -/
theorem C110_leaving_partial (E : DkgEnv F G) (c : Config F G) (secret : F) (draws : List F)
    (d0 : Dkg F G) (h0 : newDistKeyHandler E.suite c secret draws = .ok d0)
    (hl : d0.isResharing = true ∧ d0.canIssue = true ∧ d0.newPresent = false)
    (cs : List (DCall F G)) (r : Response) (k : F) (j : Justification F G)
    (h : ((dRun E d0 cs).processResponse E r k).2 = .ok (some j)) :
    r.response.status = false ∧ Signed E.suite c.newNodes r.response.sessionId r.response ∧
    r.index = d0.oidx ∧ j.index = d0.oidx ∧ j.justification.index = r.response.index ∧
    j.justification.sessionId = d0.dealer.sessionId ∧
    d0.dealer.deals[r.response.index]? = some j.justification.deal ∧
    j.justification.signature = [] := by
  have hst := newDistKeyHandler_ok h0
  have hev := dRun_evolves E d0 cs
  obtain ⟨hok, -, -⟩ := old_responses E d0 hl.1 hl.2.1 hl.2.2 hst.start.1 cs r.index
  generalize dRun E d0 cs = d at *
  have hc1 : d.dealer.deals = d0.dealer.deals := by
    have := congrArg VssP.Dealer.deals hev.dealer; exact this
  have hc2 : d.dealer.sessionId = d0.dealer.sessionId := by
    have := congrArg VssP.Dealer.sessionId hev.dealer; exact this
  rw [hst.newNodes] at hok
  unfold Dkg.processResponse at h
  rw [if_pos ⟨hev.isResharing.trans hl.1, hev.canIssue.trans hl.2.1, hev.newPresent.trans hl.2.2⟩] at h
  unfold Dkg.processResharingResponse at h
  change OldOk _ ((d.oldAggregators.get r.index).getD (VssP.newEmptyAggregator d.c.newNodes)) at hok
  generalize (d.oldAggregators.get r.index).getD (VssP.newEmptyAggregator d.c.newNodes) = a at *
  simp only [hev.oidx] at h
  split at h
  · cases h
  · cases h
  rename_i hv
  split at h
  · cases h
  rename_i hi
  split at h
  · cases h
  rename_i hs
  have hsg : Signed E.suite c.newNodes r.response.sessionId r.response := by
    rcases VssP.verifyResponse_cases E.suite a r.response with ⟨e, h'⟩ | h' | ⟨pub, -, h2, h3, -⟩
    · rw [h'] at hv; cases hv
    · rw [h'] at hv; cases hv
    · exact ⟨rfl, pub, by rw [← hok.verifiers]; exact h2, h3⟩
  unfold VssP.Dealer.plaintextDeal at h
  rw [hc1, hc2] at h
  cases hdl : d0.dealer.deals[r.response.index]? with
  | none => rw [hdl] at h; cases h
  | some dl =>
    rw [hdl] at h
    cases h
    exact ⟨by simpa [VssP.statusApproval] using hs, hsg, by simpa using hi, rfl, rfl, rfl, rfl, rfl⟩

namespace DkgPExample

open Kyber.Toy

/-- A complaint by share holder `l`, who has key `x`, about a deal of session `sid`, sent under the
dealer number `j`. -/
def complaintOf (sid : Bytes) (x : ZMod 11) (j l : Nat) : DkgP.Response :=
  let r : VssP.Response := ⟨sid, l, false, []⟩
  ⟨j, { r with signature := Schnorr.sign envDI.suite 5 x (r.hash envDI.suite) }⟩

/-- A genuine complaint of new node 1 (key 2) about the deal with session id 1, 2, 3, which is not
one of the leaving node's deals, sent under the number of the leaving node. -/
def stray : DkgP.Response := complaintOf [1, 2, 3] 2 0 1

/-- The leaving node opens the share of new node 1, which never complained about it. -/
theorem stray_opens : leaver.dealer.sessionId ≠ [] ∧
    stray.response.sessionId ≠ leaver.dealer.sessionId ∧
    ∃ j, ((dRun envDI leaver []).processResponse envDI stray 1).2 = .ok (some j) ∧
      j.justification.index = 1 ∧ leaver.dealer.deals[1]? = some j.justification.deal := by
  refine ⟨by decide +kernel, by decide +kernel, ?_⟩
  have : (match ((dRun envDI leaver []).processResponse envDI stray 1).2 with
      | .ok (some j) => decide (j.justification.index = 1) &&
          decide (leaver.dealer.deals[1]? = some j.justification.deal)
      | _ => false) = true := by decide +kernel
  split at this
  · rename_i j hj
    rw [Bool.and_eq_true, decide_eq_true_eq, decide_eq_true_eq] at this
    exact ⟨j, hj, this⟩
  · cases this

set_option maxRecDepth 100000 in
/-- The hypotheses of `C110_dkg_partial`: participant 0 of a fresh DKG opens the share of
participant 1 (key 5) after its complaint. -/
example : newDistKeyGenerator envDI.suite 3 [6, 10, 4] 2 7 [5] = .ok ((net envDI).D 0) ∧
    ((net envDI).D 0).dealer.sessionId ≠ [] ∧ ((net envDI).D 0).newPresent = true ∧
    (match ((dRun envDI ((net envDI).D 0) [.deals ((net envDI).dh 0) ((net envDI).k 0)
        ((net envDI).rnd 0) 5 1]).processResponse envDI
        (complaintOf ((net envDI).D 0).dealer.sessionId 5 0 1) 1).2 with
      | .ok (some j) => decide (some j.justification.deal = ((net envDI).D 0).dealer.deals[1]?)
      | _ => false) = true := by
  refine ⟨by rfl, by decide +kernel, by decide +kernel, by decide +kernel⟩

end DkgPExample

open DkgPExample in
/-- C110 does not hold for a leaving node: it keeps no session id for its own deals, so a complaint
about another dealer or another session, sent again under its number, makes it publish the
plaintext share of a holder that never complained about it. -/
theorem C110_violated : ¬ C110_statement := by
  intro h
  obtain ⟨h1, h2, j, h3, -⟩ := stray_opens
  exact h2 (h (ZMod 11) (ZMod 11) _ _ _ _ Toy.envDI Toy.envDI_lawful (fun _ _ h => h) _ _ _ leaver
    leaver_ok.1 h1 [] stray 1 j h3).signed.1

open DkgPExample in
/-- `C110_leaving_partial` for the complaint `stray`: what the leaving node opens is the deal of the node that signed
the complaint. -/
example : ∃ j, ((dRun Toy.envDI leaver []).processResponse Toy.envDI stray 1).2 = .ok (some j) ∧
    leaver.dealer.deals[stray.response.index]? = some j.justification.deal ∧ j.justification.signature = [] := by
  obtain ⟨-, -, j, hj, -⟩ := stray_opens
  have h := C110_leaving_partial Toy.envDI _ _ _ leaver leaver_ok.1 leaver_ok.2 [] stray 1 j hj
  exact ⟨j, hj, h.2.2.2.2.2.2.1, h.2.2.2.2.2.2.2⟩

end dkgPedersen

/-! ## Rabin DKG -/

section dkgRabin

open Kyber.DkgR
open Kyber.VssP (EncryptedDeal)

theorem dealsLoop_sid (E : VssR.Env F G) (encs : List (EncryptedDeal G)) (vk : F) (l : List Nat)
    (d : Dkg F G) (dd : AMap (Deal G)) :
    (Dkg.dealsLoop E encs vk l d dd).1.dealer.aggregator.sid = d.dealer.aggregator.sid := by
  induction l generalizing d dd with
  | nil => rfl
  | cons i l ih =>
    unfold Dkg.dealsLoop
    split
    · rfl
    · rename_i e he
      split
      · split
        · exact ih d dd
        · have hdl := processDeal_dealer E d ⟨d.index, e⟩ vk
          split
          · rename_i d' r hd'
            rw [hd'] at hdl
            simp only at hdl
            split
            · rw [hdl]
            · rw [ih]
              show (d'.dealer.aggregator.unsafeSetResponseDkg d'.index true).sid = _
              rw [← hdl]
              unfold VssR.Aggregator.unsafeSetResponseDkg
              rcases VssR.addResponse_cases d'.dealer.aggregator
                ⟨d'.dealer.aggregator.sid, d'.index, true, []⟩ with ⟨e, h⟩ | ⟨-, -, h⟩ <;> rw [h]
          · rename_i d' r hd'; rw [hd'] at hdl; simp only at hdl; rw [hdl]
          · rename_i d' hd'; rw [hd'] at hdl; simp only at hdl; rw [hdl]
      · exact ih d _

/-- The dealer part of a participant keeps its session. -/
theorem qStep_sid (E : VssR.Env F G) (d : Dkg F G) (c : QCall F G) :
    (qStep E d c).dealer.aggregator.sid = d.dealer.aggregator.sid := by
  cases c with
  | deals dh k vk =>
    show (d.deals E dh k vk).1.dealer.aggregator.sid = _
    unfold Dkg.deals
    split
    · rfl
    · rfl
    · exact dealsLoop_sid E _ _ _ _ _
  | deal dd k =>
    show (d.processDeal E dd k).1.dealer.aggregator.sid = _
    rw [processDeal_dealer E d dd k]
  | response r k =>
    show (d.processResponse E r k).1.dealer.aggregator.sid = _
    have key : ∀ dl, (d.dealer.processResponse E r.response k).1 = dl →
        dl.aggregator.sid = d.dealer.aggregator.sid := by
      rintro dl rfl
      rw [dealerR_processResponse]
      exact (verifyResponseR_agg E.suite d.dealer.aggregator r.response).1
    unfold Dkg.processResponse
    split
    · rfl
    · split
      · rfl
      · rfl
      · simp only
        split
        · rfl
        · split
          · rename_i dl e hdl; exact key dl (congrArg Prod.fst hdl)
          · rename_i dl hdl; exact key dl (congrArg Prod.fst hdl)
          · rename_i dl hdl; exact key dl (congrArg Prod.fst hdl)
          · rename_i dl jj hdl
            split
            · exact key dl (congrArg Prod.fst hdl)
            · exact key dl (congrArg Prod.fst hdl)
            · exact key dl (congrArg Prod.fst hdl)
  | justification jj =>
    show (d.processJustification E jj).1.dealer.aggregator.sid = _
    unfold Dkg.processJustification
    split <;> rfl
  | timeout => rfl
  | ownCommits k =>
    show (d.secretCommits E.suite k).1.dealer.aggregator.sid = _
    unfold Dkg.secretCommits
    split
    · rfl
    · split <;> rfl
  | commits ord sc k =>
    show (d.processSecretCommits E ord sc k).1.dealer.aggregator.sid = _
    rcases processSecretCommits_cases E ord d sc k with ⟨h, -⟩ | ⟨_, _, _, -, -, -, -, -, -, -, h⟩ <;>
      rw [h]
  | complaint ord cc k =>
    show (d.processComplaintCommits E ord cc k).1.dealer.aggregator.sid = _
    rcases processComplaintCommits_cases E ord d cc k with ⟨h | ⟨v, hv, h⟩, -⟩ |
      ⟨_, v, _, _, _, -, -, -, hv, -, -, -, -, -, rc, -, -, -, -, -, h⟩ <;> rw [h] <;> rfl
  | reconstruct ord rc =>
    show (d.processReconstructCommits E ord rc).1.dealer.aggregator.sid = _
    rcases processReconstructCommits_cases E ord d rc with (h | ⟨arr, h, -⟩) |
      ⟨_, _, _, -, -, -, -, -, -, -, -, h⟩ <;> rw [h]

theorem qRun_sid (E : VssR.Env F G) (d : Dkg F G) (cs : List (QCall F G)) :
    (qRun E d cs).dealer.aggregator.sid = d.dealer.aggregator.sid := by
  induction cs generalizing d with
  | nil => rfl
  | cons c cs ih => exact (ih (qStep E d c)).trans (qStep_sid E d c)

/-- C110 for the Rabin DKG: a participant opens a share only if its holder signed a complaint about
this very deal. -/
theorem C110_rabin_dkg (E : VssR.Env F G) (x : F) (pubs : List G) (t : Nat) (secret : F)
    (fD gD : List F) (d0 : Dkg F G) (h0 : newDistKeyGenerator E x pubs t secret fD gD = .ok d0)
    (cs : List (QCall F G)) (r : Response) (k : F) (j : Justification F G)
    (h : ((qRun E d0 cs).processResponse E r k).2 = .ok (some j)) :
    r.response.status = false ∧ Signed E.suite pubs d0.dealer.sessionId r.response ∧
    r.index = d0.index ∧ j.index = d0.index ∧ j.justification.index = r.response.index ∧
    j.justification.sessionId = d0.dealer.sessionId ∧
    d0.dealer.deals[r.response.index]? = some j.justification.deal ∧
    j.justification.signature = Schnorr.sign E.suite k x (j.justification.hash E) := by
  obtain ⟨-, hnd, -, -, -, -, -, -, -, -⟩ := newDistKeyGenerator_ok h0
  obtain ⟨f, g, -, -, -, -, -, -, hlong, -, -, -, -, -, -, -, -, hagg⟩ := VssR.newDealer_ok hnd
  have hev := qRun_evolves E d0 cs
  have hsid : (qRun E d0 cs).dealer.aggregator.sid = d0.dealer.sessionId := by
    rw [qRun_sid, hagg]; rfl
  have hvs : (qRun E d0 cs).dealer.aggregator.verifiers = pubs := by
    rw [hev.dealer.agg.verifiers, hagg]; rfl
  generalize qRun E d0 cs = d at *
  unfold Dkg.processResponse at h
  split at h
  · cases h
  split at h
  · cases h
  · cases h
  simp only at h
  split at h
  · cases h
  rename_i hi
  simp only [hev.index, ne_eq, not_not] at hi
  split at h
  · cases h
  · cases h
  · cases h
  rename_i dl j' hp
  change d.dealer.processResponse E r.response k = (dl, .ok (some j')) at hp
  have hj : j = ⟨d0.index, j'⟩ := by
    split at h
    · cases h
    · cases h
    · cases h; rw [← hev.index]
  have hok := verifyResponseR_ok_iff E.suite d.dealer.aggregator r.response
  rw [hsid, hvs] at hok
  have hp2 := congrArg Prod.snd hp
  unfold VssR.Dealer.processResponse at hp2
  simp only [hev.dealer.deals, hev.dealer.sessionId, hev.dealer.long, hlong] at hp2
  split at hp2
  · cases hp2
  · cases hp2
  · rename_i hv
    split at hp2
    · cases hp2
    · rename_i hs
      split at hp2
      · cases hp2
      · rename_i dl' hdl
        cases hp2
        subst hj
        exact ⟨by simpa using hs, (hok.1 hv).1, hi, rfl, rfl, rfl, hdl, rfl⟩

open Toy in
set_option maxRecDepth 100000 in
/-- The hypotheses of `C110_rabin_dkg`: participant 0 opens the share of participant 1 (key 5) after
its complaint. -/
example :
    let r0 : VssP.Response := ⟨((netR envRI).D 0).dealer.sessionId, 1, false, []⟩
    let r : VssP.Response := { r0 with signature := Schnorr.sign envRI.suite 5 5 (r0.hash envRI.suite) }
    newDistKeyGenerator envRI 3 [6, 10, 4] 2 7 [5] [2, 8] = .ok ((netR envRI).D 0) ∧
    (match ((qRun envRI ((netR envRI).D 0) [.deals ((netR envRI).dh 0) ((netR envRI).k 0)
        5]).processResponse envRI ⟨0, r⟩ 1).2 with
      | .ok (some j) => decide (some j.justification.deal = ((netR envRI).D 0).dealer.deals[1]?)
      | _ => false) = true := by
  refine ⟨by rfl, by decide +kernel⟩

end dkgRabin

end Kyber.Props
