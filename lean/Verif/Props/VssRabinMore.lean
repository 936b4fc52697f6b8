/-
Concrete runs of the Rabin VSS, and the violated properties C29, C64, C65 of that variant.
-/
import Verif.Props.VssRabin
import Verif.Props.VssPedersenMore

set_option linter.unusedSectionVars false

namespace Kyber.Props

open Kyber Kyber.Poly Kyber.Spec Kyber.VssR
open Kyber.VssP (VssError EncryptedDeal Response validT findPub context)

variable {F G : Type} [Field F] [AddCommGroup G] [DecidableEq G]

/-! ## C29 for the Rabin variant -/

section

variable [SMul F G]

/-- C29 for the Rabin variant, the intended property: only a justification signed by the dealer
marks the dealer as bad. -/
def C29_rabin_mark_statement : Prop :=
  ∀ (F G : Type) (_ : Field F) (_ : AddCommGroup G) (_ : Module F G) (_ : DecidableEq G)
    (E : Env F G) (x : F) (dealer : G) (pubs : List G) (v0 : Verifier F G)
    (_ : VssR.newVerifier E.suite x dealer pubs = .ok v0) (cs : List (RCall F G))
    (_ : ∀ c ∈ cs, c.fromNetwork = true) (j : Justification F G) (a a' : Aggregator F G),
    (rRun E v0 cs).aggregator = some a → a.badDealer = false →
    ((rRun E v0 cs).processJustification E j).1.aggregator = some a' → a'.badDealer = true →
    Schnorr.verify E.suite dealer (j.hash E) j.signature = .ok ()

/-- C29 for the Rabin variant, the intended property: an accepted justification is signed by the
dealer and reveals the complainer's share. -/
def C29_rabin_accept_statement : Prop :=
  ∀ (F G : Type) (_ : Field F) (_ : AddCommGroup G) (_ : Module F G) (_ : DecidableEq G)
    (E : Env F G) (x : F) (dealer : G) (pubs : List G) (v0 : Verifier F G)
    (_ : VssR.newVerifier E.suite x dealer pubs = .ok v0) (cs : List (RCall F G))
    (_ : ∀ c ∈ cs, c.fromNetwork = true) (j : Justification F G),
    ((rRun E v0 cs).processJustification E j).2 = .ok () →
    Schnorr.verify E.suite dealer (j.hash E) j.signature = .ok () ∧ j.deal.secShare.i = j.index

/-! ## C64: `deal` only returns a deal that passed the check -/

/-- C64 for the Rabin variant, the intended property: what `deal` returns passed the verifier's
check. -/
def C64_rabin_statement : Prop :=
  ∀ (F G : Type) (_ : Field F) (_ : AddCommGroup G) (_ : Module F G) (_ : DecidableEq G)
    (E : Env F G) (x : F) (dealer : G) (pubs : List G) (v0 : Verifier F G)
    (_ : VssR.newVerifier E.suite x dealer pubs = .ok v0) (cs : List (RCall F G))
    (_ : ∀ c ∈ cs, c.fromNetwork = true) (d : Deal F G),
    pubs.length < 2 ^ 32 → (rRun E v0 cs).deal = some d →
    GoodDealR E.suite.base (deriveH E pubs) pubs.length d ∧ d.secShare.i = v0.index

/-- A call that may turn the verifier's own response into an approval without a check of the
deal that it received. -/
def RCall.aboutSelf (i : Nat) : RCall F G → Prop
  | .response r => r.index = i
  | .justification j => j.index = i
  | _ => False

/-- What holds for the Rabin variant: if the stored response of the verifier itself is an approval
and no response or justification with its own index was processed, then the stored deal passed
the check and is for its index. Missing for the full claim: a verifier that complained, or whose
complaint was justified, gets its bad deal from `deal` all the same. -/
theorem C64_rabin_own_approval_partial (E : Env F G) (x : F) (dealer : G) (pubs : List G)
    (v0 : Verifier F G) (hv : VssR.newVerifier E.suite x dealer pubs = .ok v0)
    (hn : pubs.length < 2 ^ 32) (cs : List (RCall F G)) (hnet : ∀ c ∈ cs, c.fromNetwork = true)
    (hself : ∀ c ∈ cs, ¬ RCall.aboutSelf v0.index c) (a : Aggregator F G) (r : Response)
    (ha : (rRun E v0 cs).aggregator = some a) (hr : a.responses.get v0.index = some r)
    (hs : r.status = true) :
    ∃ d, a.deal = some d ∧ GoodDealR E.suite.base (deriveH E pubs) pubs.length d ∧
      d.secShare.i = v0.index := by
  obtain ⟨h0, hp, -⟩ := newVerifier_fields hv
  have key : ∀ a, (rRun E v0 cs).aggregator = some a → a.deal.isSome ∧ a.verifiers = pubs ∧
      ∀ d, a.deal = some d →
        (GoodDealR E.suite.base (deriveH E pubs) pubs.length d ∧ d.secShare.i = v0.index) ∨
        ¬ ∃ r, a.responses.get v0.index = some r ∧ r.status = true := by
    clear ha hr
    induction cs using List.reverseRecOn with
    | nil => intro a ha; rw [show (rRun E v0 []).aggregator = v0.aggregator from rfl, h0] at ha; cases ha
    | append_singleton cs c ih =>
      have hrun : rRun E v0 (cs ++ [c]) = rStep E (rRun E v0 cs) c := by simp [rRun]
      have ih := ih (fun c hc => hnet c (by simp [hc])) (fun c hc => hself c (by simp [hc]))
      have hc1 := hnet c (by simp)
      have hc2 := hself c (by simp)
      rw [hrun]
      intro a ha
      obtain ⟨hi1, hi2, hi3, -⟩ := VssR.rRun_ident E v0 cs
      cases c with
      | encDeal e k =>
        change ((rRun E v0 cs).processEncryptedDeal E e k).1.aggregator = some a at ha
        rcases VssR.processEncryptedDeal_cases E (rRun E v0 cs) e k with
          (⟨_, h⟩ | h) | ⟨d, -, hidx, hnone, h⟩
        · rw [h] at ha; exact ih a ha
        · rw [h] at ha; exact ih a ha
        · have hagg : (rRun E v0 cs).aggregator = none := by
            cases hx : (rRun E v0 cs).aggregator with
            | none => rfl
            | some y =>
              rw [VssR.aggregatorFor_of_some hx] at hnone
              have := (ih y hx).1
              rw [hnone] at this; cases this
          have hfor : (rRun E v0 cs).aggregatorFor d =
              newAggregator pubs d.commitments d.t d.sessionId := by
            unfold Verifier.aggregatorFor; rw [hagg, hi1, hp]; rfl
          rw [hfor] at h
          rcases h with ⟨-, h⟩ | ⟨st, hst, h, -⟩
          · rw [h] at ha
            cases ha
            refine ⟨rfl, rfl, fun d' hd' => Or.inr ?_⟩
            rintro ⟨r, hr, -⟩
            cases hr
          · rw [h] at ha
            cases ha
            rcases VssR.addResponse_cases
              ((newAggregator pubs d.commitments d.t d.sessionId).remember d)
              (VssR.mkReply E (rRun E v0 cs) d k st) with ⟨e', h'⟩ | ⟨-, -, h'⟩ <;> rw [h']
            · refine ⟨rfl, rfl, fun d' hd' => Or.inr ?_⟩
              rintro ⟨r, hr, -⟩
              cases hr
            · refine ⟨rfl, rfl, fun d' hd' => ?_⟩
              have hdd : d = d' := Option.some.inj hd'
              subst hdd
              cases st with
              | true =>
                left
                refine ⟨((VssR.checkDeal_ok_iff E _ d hn).1 (hst.2 rfl)).2, by rw [hidx, hi3]⟩
              | false =>
                right
                rintro ⟨r, hr, hrs⟩
                change (AMap.insert [] _ _).get v0.index = some r at hr
                rw [AMap.get_insert] at hr
                split at hr
                · cases hr; cases hrs
                · cases hr
      | response r =>
        simp only [rStep, Verifier.processResponse] at ha
        split at ha
        · rename_i y hy
          cases ha
          obtain ⟨g1, g2, g3⟩ := ih y hy
          rcases VssR.verifyResponse_cases E.suite y r with ⟨e, h⟩ | h | ⟨_, -, -, -, h⟩
          · rw [h]; exact ⟨g1, g2, g3⟩
          · rw [h]; exact ⟨g1, g2, g3⟩
          · rw [h]
            rcases VssR.addResponse_cases y r with ⟨e', h'⟩ | ⟨-, -, h'⟩ <;> rw [h']
            · exact ⟨g1, g2, g3⟩
            · refine ⟨g1, g2, fun d hd => (g3 d hd).imp id ?_⟩
              rintro g ⟨r', hr', hs'⟩
              change (y.responses.insert r.index r).get v0.index = some r' at hr'
              rw [AMap.get_insert, if_neg (fun h => hc2 h.symm)] at hr'
              exact g ⟨r', hr', hs'⟩
        · exact ih a ha
      | justification j =>
        simp only [rStep, Verifier.processJustification] at ha
        split at ha
        · rename_i y hy
          cases ha
          obtain ⟨g1, g2, g3⟩ := ih y hy
          obtain ⟨d0, hd0⟩ := Option.isSome_iff_exists.1 g1
          have hrem : y.remember j.deal = y := by unfold Aggregator.remember; rw [hd0]
          rcases VssR.verifyJustification_cases E y j with
            ⟨e, h⟩ | ⟨r, -, -, -, ⟨-, h⟩ | ⟨e, -, h⟩ | ⟨-, h⟩⟩ <;> rw [h]
          · exact ⟨g1, g2, g3⟩
          · rw [hrem]; exact ⟨g1, g2, g3⟩
          · rw [hrem]
            refine ⟨g1, g2, fun d hd => (g3 d hd).imp id ?_⟩
            rintro g ⟨r', hr', hs'⟩
            change (y.responses.insert j.index r).get v0.index = some r' at hr'
            rw [AMap.get_insert, if_neg (fun h => hc2 h.symm)] at hr'
            exact g ⟨r', hr', hs'⟩
          · rw [hrem]
            refine ⟨g1, g2, fun d hd => (g3 d hd).imp id ?_⟩
            rintro g ⟨r', hr', hs'⟩
            change (y.responses.insert j.index _).get v0.index = some r' at hr'
            rw [AMap.get_insert, if_neg (fun h => hc2 h.symm)] at hr'
            exact g ⟨r', hr', hs'⟩
        · exact ih a ha
      | timeout =>
        simp only [rStep, Verifier.setTimeout, Option.map_eq_some_iff] at ha
        obtain ⟨y, hy, rfl⟩ := ha
        obtain ⟨g1, g2, g3⟩ := ih y hy
        refine ⟨g1, g2, fun d hd => (g3 d hd).imp id ?_⟩
        rintro g ⟨r', hr', hs'⟩
        rw [VssR.cleanVerifiers_get] at hr'
        cases hy' : y.responses.get v0.index with
        | some r0 => rw [hy'] at hr'; exact g ⟨r', by rw [hy', ← hr'], hs'⟩
        | none =>
          rw [hy'] at hr'
          simp only at hr'
          split at hr'
          · cases hr'; cases hs'
          · cases hr'
      | unsafeSet i b => cases hc1
      | verifyDeal d b => cases hc1
      | addResponse r => cases hc1
  obtain ⟨g1, -, g3⟩ := key a ha
  obtain ⟨d, hd⟩ := Option.isSome_iff_exists.1 g1
  rcases g3 d hd with h | h
  · exact ⟨d, hd, h⟩
  · exact absurd ⟨r, hr, hs⟩ h

/-! ## C65: a justification is about the polynomial that was dealt -/

/-- C65 for the Rabin variant, the intended property: a complaint only becomes an approval if the
revealed share lies on the committed polynomial that the verifier knows. -/
def C65_rabin_statement : Prop :=
  ∀ (F G : Type) (_ : Field F) (_ : AddCommGroup G) (_ : Module F G) (_ : DecidableEq G)
    (E : Env F G) (x : F) (dealer : G) (pubs : List G) (v0 : Verifier F G)
    (_ : VssR.newVerifier E.suite x dealer pubs = .ok v0) (cs : List (RCall F G))
    (_ : ∀ c ∈ cs, c.fromNetwork = true) (j : Justification F G) (a : Aggregator F G)
    (d0 : Deal F G), (rRun E v0 cs).aggregator = some a → a.deal = some d0 →
    ((rRun E v0 cs).processJustification E j).2 = .ok () →
    j.deal.secShare.v • E.suite.base + j.deal.rndShare.v • deriveH E pubs =
      pointVal d0.commitments ((j.deal.secShare.i + 1 : Nat) : F)

/-- What holds: if the justification repeats the commitments of the stored deal, then the revealed
share lies on them. Missing: nothing compares the commitments. -/
theorem C65_rabin_same_commitments_partial (E : Env F G) (v : Verifier F G) (j : Justification F G)
    (a : Aggregator F G) (ha : v.aggregator = some a) (d0 : Deal F G) (h0 : a.deal = some d0)
    (hn : a.verifiers.length < 2 ^ 32) (hc : j.deal.commitments = d0.commitments)
    (h : (v.processJustification E j).2 = .ok ()) :
    j.deal.secShare.v • E.suite.base + j.deal.rndShare.v • deriveH E a.verifiers =
      pointVal d0.commitments ((j.deal.secShare.i + 1 : Nat) : F) := by
  obtain ⟨-, -, -, -, -, -, -, -, h⟩ := (C27_rabin_accepts_iff E v j a ha d0 h0 hn).1 h
  rw [h, hc]

/-! ## Concrete runs

Three verifiers with keys 3, 5, 2 (public keys 6, 10, 4), dealer key 4 (public key 8), threshold
2, secret 7, blinding polynomial 9 + 3 x, second base point 5, over Z/11. -/

end

namespace VssRExample

open Kyber.Toy

section

variable [SMul F G]

/-- the public keys -/
def pubs : List (ZMod 11) := [6, 10, 4]

/-- an honest dealer -/
def dealer : Dealer (ZMod 11) (ZMod 11) :=
  match VssR.newDealer envR 4 7 pubs 2 [5] [9, 3] with
  | .ok d => d
  | _ => ⟨0, 0, 0, [], [], [], 0, [], [], newAggregator [] [] 0 []⟩

/-- a dealer that gives verifier 0 a wrong share -/
def cheater : Dealer (ZMod 11) (ZMod 11) :=
  { dealer with deals := dealer.deals.map (fun d =>
      if d.secShare.i = 0 then { d with secShare := ⟨0, d.secShare.v + 1⟩ } else d) }

/-- its deals -/
def dealAt (i : Nat) : Deal (ZMod 11) (ZMod 11) := dealer.deals.getD i ⟨[], ⟨0, 0⟩, ⟨0, 0⟩, 0, []⟩

/-- its encrypted deals -/
def encDeal (d : Dealer (ZMod 11) (ZMod 11)) (i : Nat) : EncryptedDeal (ZMod 11) :=
  match d.encryptedDeal envR i 3 2 with
  | .ok e => e
  | _ => ⟨0, [], [], []⟩

/-- the verifiers -/
def ver (i : Nat) : Verifier (ZMod 11) (ZMod 11) :=
  match VssR.newVerifier suite ([3, 5, 2].getD i 0) 8 pubs with
  | .ok v => v
  | _ => ⟨0, 0, 0, 0, [], [], none⟩

/-- the response of verifier `i` to the deal `e` -/
def resp (e : EncryptedDeal (ZMod 11)) (i : Nat) : Response :=
  match ((ver i).processEncryptedDeal envR e 5).2 with
  | .ok r => r
  | _ => ⟨[], 0, false, []⟩

/-- a complaint of verifier 1 about the honest deal -/
def complaint : Response :=
  let r : Response := ⟨dealer.sessionId, 1, false, []⟩
  { r with signature := Schnorr.sign suite 5 5 (r.hash suite) }

/-- The hypotheses of `C30_honest_run` hold for this dealer, and the run ends certified. -/
example : VssR.newDealer envR 4 7 pubs 2 [5] [9, 3] = .ok dealer ∧
    pubs = [3, 5, 2].map (· • suite.base) ∧
    pubs.Nodup ∧ (∀ P ∈ (8 : ZMod 11) :: 4 :: 10 :: pubs, Usable suite P) ∧
    (∀ i < 3, dealer.encryptedDeal envR i 3 2 = .ok (encDeal dealer i)) ∧
    (rRun envR (ver 0) [.encDeal (encDeal dealer 0) 5, .response (resp (encDeal dealer 2) 2),
      .response (resp (encDeal dealer 1) 1)]).deal = dealer.deals[0]? := by
  refine ⟨by rfl, by decide +kernel, by decide +kernel, ?_, ?_, by decide +kernel⟩
  · unfold Usable; decide +kernel
  · intro i hi
    have : i = 0 ∨ i = 1 ∨ i = 2 := by omega
    rcases this with rfl | rfl | rfl <;> rfl

/-- `C30_recover` on deals 2 and 0; `C30_view_hides_secret`: `H = 8 • B`. -/
example : VssR.recoverSecret MapOrder.rev [dealAt 2, dealAt 0] 2 = .ok 7 ∧
    deriveH envR pubs = (8 : ZMod 11) • envR.suite.base := by
  decide +kernel

/-- `C31`: two openings of the same commitments at the same index; here `H = 8 • B` shows. -/
example : GoodDealR (2 : ZMod 11) 5 3 (dealAt 0) ∧
    GoodDealR (2 : ZMod 11) 5 3 { dealAt 0 with
      secShare := ⟨0, (dealAt 0).secShare.v + 8⟩
      rndShare := ⟨0, (dealAt 0).rndShare.v - 1⟩ } := by
  unfold GoodDealR
  decide +kernel

/-- `C32`: two approvals and one missing response: certified only after the timeout. -/
example : (rRun envR (ver 0) [.encDeal (encDeal dealer 0) 5,
      .response (resp (encDeal dealer 2) 2)]).deal = none ∧
    (rRun envR (ver 0) [.encDeal (encDeal dealer 0) 5, .response (resp (encDeal dealer 2) 2),
      .timeout]).deal = some (dealAt 0) := by
  decide +kernel

/-- a verifier that received its honest deal and the complaint of verifier 1 -/
def withComplaint : List (RCall (ZMod 11) (ZMod 11)) :=
  [.encDeal (encDeal dealer 0) 5, .response complaint]

/-- a verifier that received a bad deal and complained, while the other two approved -/
def cheated : List (RCall (ZMod 11) (ZMod 11)) :=
  [.encDeal (encDeal cheater 0) 5, .response (resp (encDeal cheater 1) 1),
   .response (resp (encDeal cheater 2) 2)]

/-- the same verifier, after the dealer has revealed the right deal -/
def cheatedJustified : List (RCall (ZMod 11) (ZMod 11)) :=
  cheated ++ [.justification ⟨dealer.sessionId, 0, dealAt 0, []⟩]

/-- the honest justification, an unsigned garbage one, one revealing the wrong share, and one for
another polynomial -/
def honestJust : Justification (ZMod 11) (ZMod 11) :=
  match (dealer.processResponse envR complaint 5).2 with
  | .ok (some j) => j
  | _ => ⟨[], 0, (dealAt 0), []⟩
@[inherit_doc honestJust] def garbageJust : Justification (ZMod 11) (ZMod 11) :=
  ⟨[], 1, ⟨[], ⟨0, 0⟩, ⟨0, 0⟩, 0, []⟩, []⟩
@[inherit_doc honestJust] def wrongJust : Justification (ZMod 11) (ZMod 11) :=
  ⟨[], 1, dealAt 2, []⟩
@[inherit_doc honestJust] def otherJust : Justification (ZMod 11) (ZMod 11) :=
  ⟨[], 1, { dealAt 1 with secShare := ⟨1, 1⟩, rndShare := ⟨1, 0⟩, commitments := [2] }, []⟩

theorem withComplaint_network : ∀ c ∈ withComplaint, c.fromNetwork = true := by
  intro c hc
  simp only [withComplaint, List.mem_cons, List.not_mem_nil, or_false] at hc
  rcases hc with rfl | rfl <;> rfl

theorem cheated_network : ∀ c ∈ cheated, c.fromNetwork = true := by
  intro c hc
  simp only [cheated, List.mem_cons, List.not_mem_nil, or_false] at hc
  rcases hc with rfl | rfl | rfl <;> rfl

theorem cheatedJustified_network : ∀ c ∈ cheatedJustified, c.fromNetwork = true := by
  intro c hc
  simp only [cheatedJustified, cheated, List.cons_append, List.nil_append, List.mem_cons,
    List.not_mem_nil, or_false] at hc
  rcases hc with rfl | rfl | rfl | rfl <;> rfl

theorem ver0 : VssR.newVerifier envR.suite 3 8 pubs = .ok (ver 0) := rfl

/-- the aggregator after `withComplaint` -/
def aggC : Aggregator (ZMod 11) (ZMod 11) :=
  ((rRun envR (ver 0) withComplaint).aggregator).getD (newAggregator [] [] 0 [])

theorem aggC_eq : (rRun envR (ver 0) withComplaint).aggregator = some aggC := by
  decide +kernel

/-- `C27`: the honest justification is accepted and the complaint becomes an approval. -/
example : ((rRun envR (ver 0) withComplaint).processJustification envR honestJust).2 = .ok () ∧
    Schnorr.verify suite 8 (honestJust.hash envR) honestJust.signature = .ok () ∧
    aggC.responses.get 1 = some complaint ∧
    (((rRun envR (ver 0) withComplaint).processJustification envR honestJust).1.aggregator.bind
      (fun a => a.responses.get 1)) = some { complaint with status := true } := by
  decide +kernel

theorem garbage_marks :
    aggC.badDealer = false ∧
    ((rRun envR (ver 0) withComplaint).processJustification envR garbageJust).1.aggregator.map
      (·.badDealer) = some true ∧
    Schnorr.verify envR.suite 8 (garbageJust.hash envR) garbageJust.signature ≠ .ok () := by
  decide +kernel

theorem wrong_index_accepted :
    ((rRun envR (ver 0) withComplaint).processJustification envR wrongJust).2 = .ok () ∧
    wrongJust.deal.secShare.i ≠ wrongJust.index := by
  decide +kernel

theorem other_polynomial_accepted :
    ((rRun envR (ver 0) withComplaint).processJustification envR otherJust).2 = .ok () ∧
    aggC.deal = some (dealAt 0) ∧
    ¬ (otherJust.deal.secShare.v • envR.suite.base + otherJust.deal.rndShare.v • deriveH envR pubs =
      pointVal (dealAt 0).commitments ((otherJust.deal.secShare.i + 1 : Nat) : ZMod 11)) := by
  decide +kernel

/-- The bad deal that `deal` returns. -/
def badDeal : Deal (ZMod 11) (ZMod 11) := cheater.deals.getD 0 ⟨[], ⟨0, 0⟩, ⟨0, 0⟩, 0, []⟩

/-- The verifier complained about it; with two approvals it is certified and returned. -/
theorem bad_deal_returned :
    (resp (encDeal cheater 0) 0).status = false ∧
    (rRun envR (ver 0) cheated).deal = some badDeal ∧
    ¬ GoodDealR envR.suite.base (deriveH envR pubs) pubs.length badDeal := by
  unfold GoodDealR
  decide +kernel

/-- Also after the dealer has revealed the right deal: the bad one is still returned, and the own
response now says it was approved. -/
theorem bad_deal_returned_after_justification :
    ((rRun envR (ver 0) cheatedJustified).aggregator.bind (fun a => a.responses.get 0)).map
      (·.status) = some true ∧
    (rRun envR (ver 0) cheatedJustified).deal = some badDeal := by
  decide +kernel

/-- `C30_hiding` with `H = 8 • B`: the commitments to `[7, 5]` are also commitments to `[1, 4]`, with one list of
blinding coefficients. -/
example : ∃! g' : List (ZMod 11), g'.length = 2 ∧
    List.zipWith (fun a b : ZMod 11 => a • (2 : ZMod 11) + b • (5 : ZMod 11)) [1, 4] g' =
      List.zipWith (fun a b : ZMod 11 => a • (2 : ZMod 11) + b • (5 : ZMod 11)) [7, 5] [9, 3] :=
  C30_hiding (2 : ZMod 11) 5 (Lin.of_module _) (by decide) 8 (by decide) (by decide) [7, 5] [9, 3] [1, 4] rfl rfl

/-- `C30_view_hides_secret`: verifier 1 alone cannot tell the secret 7 from the secret 0. -/
example : ∃ (fD' gD' : List (ZMod 11)) (d' : Dealer (ZMod 11) (ZMod 11)),
    VssR.newDealer envR 4 0 pubs 2 fD' gD' = .ok d' ∧ d'.sessionId = dealer.sessionId ∧
    d'.deals[1]? = dealer.deals[1]? := by
  obtain ⟨fD', gD', d', h1, h2, -, h3⟩ := C30_view_hides_secret 11 envR (Lin.of_module _) 4 7 pubs 2 [5] [9, 3]
    dealer rfl 8 (by decide) (by decide +kernel) {1} (by decide) (by decide) 0
  exact ⟨fD', gD', d', h1, h2, h3 1 (by decide)⟩

/-- `C28_rabin_bad_justification_marks`, `C28_rabin_bad_forever`: after the wrong deal of the cheater the dealer is marked,
and honest messages do not undo it. -/
example : ((rRun envR (ver 0) withComplaint).processJustification envR
      ⟨dealer.sessionId, 1, badDeal, []⟩).1.aggregator.map (·.badDealer) = some true ∧
    ((rRun envR (ver 0) (withComplaint ++ [.justification ⟨dealer.sessionId, 1, badDeal, []⟩,
      .response (resp (encDeal dealer 2) 2), .justification honestJust, .timeout])).aggregator.map
      (fun a => (a.badDealer, a.dealCertified))) = some (true, false) := by
  decide +kernel

/-- `C64_rabin_own_approval_partial` applies to the honest run. -/
example : ∀ c ∈ withComplaint, ¬ RCall.aboutSelf (ver 0).index c := by
  intro c hc
  simp only [withComplaint, List.mem_cons, List.not_mem_nil, or_false] at hc
  rcases hc with rfl | rfl
  · exact id
  · show ¬ (complaint.index = (ver 0).index); decide +kernel

/-! The theorems of `VssRabin.lean` applied to this dealer and these verifiers. -/

theorem usable (s : ZMod 11) (h : s ≠ 0) : Usable envR.suite (s • envR.suite.base) := by
  revert s; unfold Usable; decide +kernel

theorem newDealer_eq : VssR.newDealer envR 4 7 pubs 2 [5] [9, 3] = .ok dealer := rfl

example : (∃ d, VssR.newDealer envR 4 7 pubs 2 [5] [9, 3] = .ok d) ↔ 2 ≤ 2 ∧ 2 ≤ pubs.length :=
  C30_new_dealer_ok envR 4 7 pubs 2 [5] [9, 3] (by decide) (by decide) (by decide)

set_option maxRecDepth 100000 in
example := C30_honest_approval envR lawful prims_lawful (fun _ => Lin.of_module _) 4 7 pubs (by decide +kernel) 2
  [5] [9, 3] dealer newDealer_eq (fun dl _ => codecR_lawful dl) (usable 4 (by decide)) 1 5 (by decide +kernel) 3 2 5
  (usable 2 (by decide)) (encDeal dealer 1) rfl

set_option maxRecDepth 100000 in
example := C30_honest_run envR lawful prims_lawful (fun _ => Lin.of_module _) 4 7 [3, 5, 2] (by decide +kernel) 2
  [5] [9, 3] dealer rfl (fun dl _ => codecR_lawful dl) (usable 4 (by decide))
  (fun xi hxi => usable xi (by revert xi; decide)) (fun _ => 3) (fun _ => 2) (fun _ => 5)
  (fun _ => usable 2 (by decide)) (fun _ => usable 5 (by decide)) (encDeal dealer)
  (by
    intro i hi
    have : i = 0 ∨ i = 1 ∨ i = 2 := by simp at hi; omega
    rcases this with rfl | rfl | rfl <;> rfl)

example (ord : MapOrder) : VssR.recoverSecret ord [dealAt 2, dealAt 0] 2 = .ok 7 :=
  C30_recover 11 ord envR 4 7 pubs (by decide) 2 [5] [9, 3] dealer newDealer_eq _ (by decide +kernel) (by decide +kernel)

/-- Two openings at index 0: they give `H` as a multiple of the base. -/
example := C31_two_openings (2 : ZMod 11) (5 : ZMod 11) (Lin.of_module _) (Lin.of_module _) (one_smul _ _) (by decide) 3
  (dealAt 0) { dealAt 0 with
    secShare := ⟨0, (dealAt 0).secShare.v + 8⟩
    rndShare := ⟨0, (dealAt 0).rndShare.v - 1⟩ }
  (by unfold GoodDealR; decide +kernel) (by unfold GoodDealR; decide +kernel) rfl (by decide +kernel) (by decide +kernel)

example := C31_share_unique (2 : ZMod 11) (5 : ZMod 11) (Lin.of_module _) (Lin.of_module _) (one_smul _ _) (by decide) 3
  (dealAt 0) { dealAt 0 with sessionId := [1] } (by unfold GoodDealR; decide +kernel) (by unfold GoodDealR; decide +kernel)
  rfl rfl rfl

set_option maxRecDepth 100000 in
example := C31_check_deal envR (ver 0) ((ver 0).processEncryptedDeal envR (encDeal dealer 0) 5).1 (encDeal dealer 0) 5
  (resp (encDeal dealer 0) 0) (by decide +kernel) rfl rfl (by decide +kernel)

example := C32_certified_iff envR 3 8 pubs (ver 0) ver0 withComplaint aggC aggC_eq
example := C32_timeout (rRun envR (ver 0) withComplaint) aggC aggC_eq
example := C32_certified_after_timeout envR 3 8 pubs (ver 0) ver0 withComplaint aggC aggC_eq

/-- the messages of an honest run, and the aggregator after them -/
def certifiedRun : List (RCall (ZMod 11) (ZMod 11)) :=
  [.encDeal (encDeal dealer 0) 5, .response (resp (encDeal dealer 2) 2), .response (resp (encDeal dealer 1) 1)]
@[inherit_doc certifiedRun] def aggH : Aggregator (ZMod 11) (ZMod 11) :=
  ((rRun envR (ver 0) certifiedRun).aggregator).getD (newAggregator [] [] 0 [])

example (later : List (RCall (ZMod 11) (ZMod 11))) := C32_certified_stays envR 3 8 pubs (ver 0) ver0 certifiedRun later aggH
  (by decide +kernel) (by decide +kernel)

example := C27_rabin_complaint_becomes_approval envR (rRun envR (ver 0) withComplaint) honestJust (by decide +kernel)
example := C27_rabin_accepts_iff envR (rRun envR (ver 0) withComplaint) honestJust aggC aggC_eq (dealAt 0)
  (by decide +kernel) (by decide +kernel)
example := C28_rabin_bad_justification_marks envR (rRun envR (ver 0) withComplaint) ⟨dealer.sessionId, 1, badDeal, []⟩
  aggC aggC_eq (dealAt 0) (by decide +kernel) complaint (by decide +kernel) (by decide +kernel) rfl (by decide +kernel)
  (by decide +kernel) (by unfold GoodDealR; decide +kernel)
example := C65_rabin_same_commitments_partial envR (rRun envR (ver 0) withComplaint) honestJust aggC aggC_eq (dealAt 0)
  (by decide +kernel) (by decide +kernel) (by decide +kernel) (by decide +kernel)
example (cs : List (RCall (ZMod 11) (ZMod 11))) := C28_rabin_bad_forever envR
  ((rRun envR (ver 0) withComplaint).processJustification envR ⟨dealer.sessionId, 1, badDeal, []⟩).1
  { aggC with badDealer := true } (by decide +kernel) rfl cs

end

end VssRExample

section

variable [SMul F G]

set_option maxRecDepth 100000 in
open VssRExample in
/-- C29 does not hold for the Rabin variant either: unsigned garbage marks an honest dealer. -/
theorem C29_rabin_violated_unsigned : ¬ C29_rabin_mark_statement := by
  intro h
  obtain ⟨h1, h2, h3⟩ := garbage_marks
  obtain ⟨a', ha', hb⟩ := Option.map_eq_some_iff.1 h2
  exact h3 (h (ZMod 11) (ZMod 11) _ _ _ _
    Toy.envR 3 8 pubs (ver 0) ver0 withComplaint withComplaint_network garbageJust aggC a'
    aggC_eq h1 ha' hb)

open VssRExample in
/-- C29 does not hold for the Rabin variant either: a justification revealing the share of another
verifier turns the complaint into an approval. -/
theorem C29_rabin_violated_index : ¬ C29_rabin_accept_statement := by
  intro h
  obtain ⟨h1, h2⟩ := wrong_index_accepted
  exact h2 (h (ZMod 11) (ZMod 11) _ _ _ _
    Toy.envR 3 8 pubs (ver 0) ver0 withComplaint withComplaint_network wrongJust h1).2

open VssRExample in
/-- C64 does not hold for the Rabin variant: a deal that the verifier complained about is returned
when `t` others approve. -/
theorem C64_rabin_violated : ¬ C64_rabin_statement := by
  intro h
  obtain ⟨-, h1, h2⟩ := bad_deal_returned
  exact h2 (h (ZMod 11) (ZMod 11) _ _ _ _
    Toy.envR 3 8 pubs (ver 0) ver0 cheated cheated_network badDeal (by decide) h1).1

open VssRExample in
/-- C64 does not hold for the Rabin variant, also when the complaint was justified: the revealed
correct deal is thrown away and the bad one returned. -/
theorem C64_rabin_violated_justified : ¬ C64_rabin_statement := by
  intro h
  obtain ⟨-, -, h2⟩ := bad_deal_returned
  exact h2 (h (ZMod 11) (ZMod 11) _ _ _ _
    Toy.envR 3 8 pubs (ver 0) ver0 cheatedJustified cheatedJustified_network badDeal (by decide)
    bad_deal_returned_after_justification.2).1

open VssRExample in
/-- C65 does not hold for the Rabin variant: a share of a different polynomial, sent with its own
commitments, turns a complaint into an approval. -/
theorem C65_rabin_violated : ¬ C65_rabin_statement := by
  intro h
  obtain ⟨h1, h2, h3⟩ := other_polynomial_accepted
  exact h3 (h (ZMod 11) (ZMod 11) _ _ _ _
    Toy.envR 3 8 pubs (ver 0) ver0 withComplaint withComplaint_network otherJust aggC (dealAt 0)
    aggC_eq h2 h1)

end

end Kyber.Props
