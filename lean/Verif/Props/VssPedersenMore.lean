/-
Further properties of the Pedersen VSS: C61 (degree), C62 (expected threshold), C63 (agreement on
the commitments).
-/
import Verif.Props.VssPedersen
import Verif.Spec.Apart

set_option linter.unusedSectionVars false

namespace Kyber.Props

open Kyber Kyber.Poly Kyber.Spec Kyber.VssP

variable {F G : Type} [Field F] [AddCommGroup G] [DecidableEq G]

/-! ## C61: the degree of the committed polynomial -/

section

variable [SMul F G]

/-- C61, the intended property: an approved deal commits to a polynomial with `t` coefficients. -/
def C61_statement : Prop :=
  ∀ (F G : Type) (_ : Field F) (_ : AddCommGroup G) (_ : Module F G) (_ : DecidableEq G)
    (E : Env F G) (x : F) (dealer : G) (pubs : List G) (v0 v : Verifier F G)
    (_ : newVerifier E.suite x dealer pubs = .ok v0) (e : EncryptedDeal G) (k : F) (r : Response)
    (_ : v0.processEncryptedDeal E e k = (v, .ok r)), r.status = true →
    ∃ d, v.aggregator.deal = some d ∧ d.commitments.length = d.t

end

section

variable [Module F G]

/-- What holds: deals approved by their verifiers with the same commitments, not more than the
threshold, always recover the committed secret, whichever `t` verifiers open. -/
theorem C61_recover_partial (q : Nat) [CharP F q] (ord ord' : MapOrder) (E : Env F G)
    (hB : ∀ s : F, s • E.suite.base = 0 → s = 0) (Cs : List G) (t : Nat) (hCs : Cs.length ≤ t)
    (sid : Bytes) (deals deals' : List (Deal F G))
    (happ : ∀ d ∈ deals ++ deals', d.commitments = Cs ∧ d.sessionId = sid ∧ d.secShare.i < q ∧
      ∃ (v v' : Verifier F G) (e : EncryptedDeal G) (k : F) (r : Response),
        v.processEncryptedDeal E e k = (v', .ok r) ∧ r.status = true ∧
        v'.aggregator.deal = some d)
    (hc : t ≤ (deals.map (fun d => d.secShare.i)).toFinset.card)
    (hc' : t ≤ (deals'.map (fun d => d.secShare.i)).toFinset.card) :
    ∃ s, VssP.recoverSecret ord deals t = .ok s ∧ VssP.recoverSecret ord' deals' t = .ok s ∧
      s • E.suite.base = Cs.getD 0 0 := by
  apply C24_recover_committed q ord ord' E.suite hB Cs t hCs sid deals deals' _ hc hc'
  intro d hd
  obtain ⟨h1, h2, h3, v, v', e, k, r, h4, h5, h6⟩ := happ d hd
  obtain ⟨d', -, h7, h8, -, -, -, -, -, h9⟩ := C24_approved_deal E v v' e k r h4 h5
  rw [h6] at h7
  cases h7
  exact ⟨h2, h3, by rw [h9, h1, h8]⟩

end

namespace VssPExample

open Kyber.Toy

section

variable [SMul F G]

/-- A malicious dealer: threshold 2, but three commitments (secret polynomial 7 + 5X + X^2). -/
def degDealer : Dealer (ZMod 11) (ZMod 11) :=
  { dealer with deals := [0, 1, 2].map (fun i =>
      ⟨dealer.sessionId, (⟨[7, 5, 1]⟩ : PriPoly (ZMod 11)).eval i, 2, [3, 10, 2]⟩) }

/-- the deals it sends -/
def degDeal (i : Nat) : Deal (ZMod 11) (ZMod 11) := degDealer.deals.getD i ⟨[], ⟨0, 0⟩, 0, []⟩

/-- verifier `i` after processing its deal -/
def degVer (i : Nat) : Verifier (ZMod 11) (ZMod 11) :=
  ((ver i).processEncryptedDeal envP (encDeal degDealer i) 5).1

theorem pair_eq {α β : Type} {x : α × β} {b : β} (h : x.2 = b) : x = (x.1, b) := by
  subst h; rfl

theorem deg_approved : ∀ i < 3,
    (ver i).processEncryptedDeal envP (encDeal degDealer i) 5 =
      (degVer i, .ok (resp (encDeal degDealer i) i)) ∧
    (resp (encDeal degDealer i) i).status = true ∧
    (degVer i).aggregator.deal = some (degDeal i) ∧
    (degDeal i).commitments.length = 3 ∧ (degDeal i).t = 2 := by
  intro i hi
  have h : i = 0 ∨ i = 1 ∨ i = 2 := by omega
  rcases h with rfl | rfl | rfl <;>
    exact ⟨pair_eq (by decide +kernel), by decide +kernel⟩

end

end VssPExample

section

variable [SMul F G]

open VssPExample in
/-- C61 does not hold: the number of commitments is never compared with the threshold. -/
theorem C61_violated : ¬ C61_statement := by
  intro h
  obtain ⟨h1, h2, h3, h4, h5⟩ := deg_approved 0 (by omega)
  obtain ⟨d, hd, hl⟩ := h (ZMod 11) (ZMod 11) _ _ _ _ Toy.envP 3 8 pubs (ver 0) (degVer 0) ver0 _ _ _
    h1 h2
  rw [h3] at hd
  cases hd
  omega

open VssPExample in
/-- The consequence: all three verifiers approve, with the same commitments, session id and
threshold 2, but different pairs of verifiers recover different secrets, none of them the
committed one. -/
theorem C61_violated_recovery :
    (∀ i < 3, ((ver i).processEncryptedDeal Toy.envP (encDeal degDealer i) 5).2 =
        .ok (resp (encDeal degDealer i) i) ∧ (resp (encDeal degDealer i) i).status = true ∧
        (degDeal i).commitments = [3, 10, 2] ∧ (degDeal i).sessionId = dealer.sessionId) ∧
    VssP.recoverSecret MapOrder.id [degDeal 0, degDeal 1] 2 = .ok 5 ∧
    VssP.recoverSecret MapOrder.id [degDeal 0, degDeal 2] 2 = .ok 4 ∧
    (7 : ZMod 11) • Toy.suite.base = 3 := by
  refine ⟨?_, by decide +kernel, by decide +kernel, by decide +kernel⟩
  intro i hi
  have h : i = 0 ∨ i = 1 ∨ i = 2 := by omega
  rcases h with rfl | rfl | rfl <;> decide +kernel

/-! ## C62: the threshold announced by `set_threshold` -/

/-- C62, the intended property (documentation of `set_threshold`): if the verifier announced the
expected threshold before the deal arrives, it does not approve a deal with another one. -/
def C62_statement : Prop :=
  ∀ (F G : Type) (_ : Field F) (_ : AddCommGroup G) (_ : Module F G) (_ : DecidableEq G)
    (E : Env F G) (x : F) (dealer : G) (pubs : List G) (v0 v : Verifier F G)
    (_ : newVerifier E.suite x dealer pubs = .ok v0) (t : Nat) (e : EncryptedDeal G) (k : F)
    (r : Response)
    (_ : (vStep E v0 (.setThreshold t)).processEncryptedDeal E e k = (v, .ok r)),
    r.status = true → ∃ d, v.aggregator.deal = some d ∧ d.t = t

/-- What happens instead: the first deal overwrites the announced threshold, so `set_threshold`
before the deal has no effect at all on the reply. -/
theorem C62_no_effect_partial (E : Env F G) (v : Verifier F G) (t : Nat)
    (hn : v.aggregator.deal = none) (e : EncryptedDeal G) (k : F) :
    ((vStep E v (.setThreshold t)).processEncryptedDeal E e k).2 =
      (v.processEncryptedDeal E e k).2 := by
  have hr : ∀ d, (v.aggregator.setThreshold t).remember d = v.aggregator.remember d := by
    intro d
    unfold Aggregator.remember Aggregator.setThreshold
    simp only [hn]
  unfold vStep Verifier.processEncryptedDeal Verifier.decryptDeal
  simp only
  split
  · rfl
  · rfl
  · split
    · rfl
    · unfold Verifier.processDeal Aggregator.verifyDeal
      have hn' : (v.aggregator.setThreshold t).deal = none := hn
      simp only [hn, hn', hr, Option.isSome_none, Bool.false_and, Bool.false_eq_true, if_false]

open VssPExample in
/-- C62 does not hold: after `set_threshold(3)` a deal with threshold 2 is approved. -/
theorem C62_violated : ¬ C62_statement := by
  intro h
  have hrun : (vStep Toy.envP (ver 0) (.setThreshold 3)).processEncryptedDeal Toy.envP
      (encDeal dealer 0) 5 = (((vStep Toy.envP (ver 0) (.setThreshold 3)).processEncryptedDeal
        Toy.envP (encDeal dealer 0) 5).1, .ok (resp (encDeal dealer 0) 0)) :=
    pair_eq (by decide +kernel)
  obtain ⟨d, hd, ht⟩ := h (ZMod 11) (ZMod 11) _ _ _ _ Toy.envP 3 8 pubs (ver 0) _ ver0 3 _ _ _ hrun
    (by decide +kernel)
  have h2 : ((vStep Toy.envP (ver 0) (.setThreshold 3)).processEncryptedDeal
        Toy.envP (encDeal dealer 0) 5).1.aggregator.deal = some (dealAt 0) := by decide +kernel
  rw [h2] at hd
  cases hd
  revert ht
  decide +kernel

/-! ## C63: agreement on the commitments -/

/-- What `session_id` hashes. -/
def sessionInput {F G : Type} (S : Suite F G) (dealer : G) (pubs Cs : List G) (t : Nat) : Bytes :=
  S.encG dealer ++ (pubs.map S.encG).flatten ++ (Cs.map S.encG).flatten ++ u32le t

/-- The session id determines the commitments and the threshold, if the hash does not collide and
points have encodings of a fixed positive length. -/
theorem C63_session_id_binds (S : Suite F G) (hS : S.Lawful) (hlen : 0 < S.pointLen)
    (dealer : G) (pubs Cs Cs' : List G) (t t' : Nat)
    (hash_inj : Apart S (sessionInput S dealer pubs Cs t) (sessionInput S dealer pubs Cs' t'))
    (h : VssP.sessionId S dealer pubs Cs t = VssP.sessionId S dealer pubs Cs' t') :
    Cs = Cs' ∧ t % 2 ^ 32 = t' % 2 ^ 32 := by
  have hinj : Function.Injective S.encG := fun a b hab => by
    have := hS.decG_encG a
    rw [hab, hS.decG_encG] at this
    exact (Option.some.inj this).symm
  have h1 := hash_inj h
  unfold sessionInput at h1
  rw [List.append_assoc, List.append_assoc, List.append_assoc, List.append_assoc] at h1
  have h2 := List.append_cancel_left (List.append_cancel_left h1)
  have hfl : ∀ l : List G, (l.map S.encG).flatten.length = l.length * S.pointLen := by
    intro l
    induction l with
    | nil => simp
    | cons a l ih =>
      rw [List.map_cons, List.flatten_cons, List.length_append, ih, hS.encG_length,
        List.length_cons]; ring
  have hu : ∀ n, (u32le n).length = 4 := fun n => rfl
  have hl := congrArg List.length h2
  rw [List.length_append, List.length_append, hfl, hfl, hu, hu] at hl
  have hl' : Cs.length = Cs'.length := Nat.eq_of_mul_eq_mul_right hlen (by omega)
  obtain ⟨h3, h4⟩ := List.append_inj h2 (by rw [hfl, hfl, hl'])
  constructor
  · clear hash_inj h1 h2 hl h4 h
    induction Cs generalizing Cs' with
    | nil => exact (List.length_eq_zero_iff.1 hl'.symm).symm
    | cons a l ih =>
      cases Cs' with
      | nil => simp at hl'
      | cons b l' =>
        simp only [List.map_cons, List.flatten_cons] at h3
        obtain ⟨h5, h6⟩ := List.append_inj h3 (by rw [hS.encG_length, hS.encG_length])
        rw [hinj h5, ih l' (by simpa using hl') h6]
  · unfold u32le at h4
    simp only [List.cons.injEq, and_true] at h4
    obtain ⟨a, b, c, d⟩ := h4
    have a' := congrArg UInt8.toNat a
    have b' := congrArg UInt8.toNat b
    have c' := congrArg UInt8.toNat c
    have d' := congrArg UInt8.toNat d
    simp only [UInt8.toNat_ofNat'] at a' b' c' d'
    omega

/-- C63, the intended property: two verifiers of the same dealer that both end with a certified
deal hold shares of the same polynomial. The hash has no collisions, and all that the verifiers
get are protocol messages. -/
def C63_statement : Prop :=
  ∀ (F G : Type) (_ : Field F) (_ : AddCommGroup G) (_ : Module F G) (_ : DecidableEq G)
    (E : Env F G) (_ : E.suite.Lawful) (_ : 0 < E.suite.pointLen)
    (_ : Function.Injective E.suite.hash)
    (x x' : F) (dealer : G) (pubs : List G) (v v' : Verifier F G)
    (_ : newVerifier E.suite x dealer pubs = .ok v)
    (_ : newVerifier E.suite x' dealer pubs = .ok v')
    (cs cs' : List (VCall F G)) (_ : ∀ c ∈ cs ++ cs', c.fromNetwork = true)
    (d d' : Deal F G), (vRun E v cs).deal = some d → (vRun E v' cs').deal = some d' →
    d.commitments = d'.commitments

/-- What holds: a verifier whose deal carries the right session id, and which accepts the response
of another verifier after having received its deal, holds the same commitments as that other
verifier. -/
theorem C63_agreement_partial (E : Env F G) (hS : E.suite.Lawful) (hlen : 0 < E.suite.pointLen)
    (v w w' : Verifier F G) (d d' : Deal F G) (e' : EncryptedDeal G) (k' : F) (r : Response)
    (hash_inj : Apart E.suite (sessionInput E.suite v.dealer v.verifiers d'.commitments d'.t)
      (sessionInput E.suite v.dealer v.verifiers d.commitments d.t))
    (hdealer : w.dealer = v.dealer) (hpubs : w.verifiers = v.verifiers)
    (_ : v.aggregator.deal = some d) (hsid : v.aggregator.sid = d.sessionId)
    (hds : d.sessionId = VssP.sessionId E.suite v.dealer v.verifiers d.commitments d.t)
    (hw : w.processEncryptedDeal E e' k' = (w', .ok r)) (hd' : w'.aggregator.deal = some d')
    (hne : v.aggregator.sid ≠ [])
    (hr : (v.processResponse E.suite r).2 = .ok ()) :
    d.commitments = d'.commitments := by
  have h1 := ((C26_accepts_iff E.suite v r).1 hr).1 hne
  rcases processEncryptedDeal_cases E w e' k' with
    (⟨_, h'⟩ | h') | ⟨d2, -, -, hn, ⟨-, h'⟩ | ⟨st, -, h2, h3⟩⟩
  · rw [h'] at hw; cases hw
  · rw [h'] at hw; cases hw
  · rw [h'] at hw; cases hw
  · rw [hw] at h2 h3
    simp only at h2 h3
    have hrem : (w.aggregator.remember d2).deal = some d2 := by
      unfold Aggregator.remember; rw [hn]
    have hd2 : d2 = d' := by
      have h4 := (addResponse_ext (w.aggregator.remember d2) (mkReply E w d2 k' st)).deal _ hrem
      rw [h2] at hd'
      simp only at hd'
      rw [h4] at hd'
      exact Option.some.inj hd'
    subst hd2
    have hr' : r = mkReply E w d2 k' st := by
      rcases addResponse_cases (w.aggregator.remember d2) (mkReply E w d2 k' st) with
        ⟨e2, ha⟩ | ⟨-, -, ha⟩ <;> rw [ha] at h3
      · cases h3
      · simpa using h3
    have hrs : r.sessionId = VssP.sessionId E.suite w.dealer w.verifiers d2.commitments d2.t := by
      rw [hr']; rfl
    rw [hrs, hsid, hds, hdealer, hpubs] at h1
    exact ((C63_session_id_binds E.suite hS hlen _ _ _ _ _ _ hash_inj h1).1).symm

end

namespace VssPExample

open Kyber.Toy

section

variable [SMul F G]

/-- The toy suite with a hash without collisions. -/
def suiteInj : Suite (ZMod 11) (ZMod 11) := { suite with hash := fun b => b }
/-- its environment -/
def envInj : Env (ZMod 11) (ZMod 11) := ⟨suiteInj, prims, codecP⟩

/-- two verifiers, keys 3 and 5 -/
def pubs2 : List (ZMod 11) := [6, 10]

/-- A malicious dealer: verifier 0 gets a share of 7 + 5X, verifier 1 a share of 1 + X, and each
deal carries the session id of the other polynomial. -/
def eqDealer : Dealer (ZMod 11) (ZMod 11) :=
  { long := 4, pubb := 8, secret := 7, secretCommits := [], secretPoly := ⟨[]⟩, verifiers := pubs2,
    hkdfContext := context suiteInj 8 pubs2, t := 2, sessionId := [],
    deals := [⟨sessionId suiteInj 8 pubs2 [2, 2] 2, (⟨[7, 5]⟩ : PriPoly (ZMod 11)).eval 0, 2, [3, 10]⟩,
      ⟨sessionId suiteInj 8 pubs2 [3, 10] 2, (⟨[1, 1]⟩ : PriPoly (ZMod 11)).eval 1, 2, [2, 2]⟩],
    aggregator := newEmptyAggregator [] }

/-- the encrypted deals -/
def eqEnc (i : Nat) : EncryptedDeal (ZMod 11) :=
  match eqDealer.encryptedDeal envInj i 3 2 with
  | .ok e => e
  | _ => ⟨0, [], [], []⟩

/-- the two verifiers -/
def eqVer (i : Nat) : Verifier (ZMod 11) (ZMod 11) :=
  match newVerifier suiteInj ([3, 5].getD i 0) 8 pubs2 with
  | .ok v => v
  | _ => ⟨0, 0, 0, 0, [], [], newEmptyAggregator []⟩

/-- their responses -/
def eqResp (i : Nat) : Response :=
  match ((eqVer i).processEncryptedDeal envInj (eqEnc i) 5).2 with
  | .ok r => r
  | _ => ⟨[], 0, false, []⟩

/-- what verifier `i` receives: its deal and the other's response -/
def eqCalls (i : Nat) : List (VCall (ZMod 11) (ZMod 11)) :=
  [.encDeal (eqEnc i) 5, .response (eqResp (1 - i))]

/-- the two deals -/
def eqDeal (i : Nat) : Deal (ZMod 11) (ZMod 11) := eqDealer.deals.getD i ⟨[], ⟨0, 0⟩, 0, []⟩

theorem eq_certified :
    (vRun envInj (eqVer 0) (eqCalls 0)).deal = some (eqDeal 0) ∧
    (vRun envInj (eqVer 1) (eqCalls 1)).deal = some (eqDeal 1) ∧
    (eqDeal 0).commitments ≠ (eqDeal 1).commitments := by
  decide +kernel

theorem suiteInj_lawful : suiteInj.Lawful where
  base_lin := ⟨fun a b => add_smul a b _, fun a b => mul_smul a b _⟩
  encG_length := lawful.encG_length
  encS_length := lawful.encS_length
  decG_encG := lawful.decG_encG
  decS_encS := lawful.decS_encS
  canonS_encS := lawful.canonS_encS
  canonS_unique := lawful.canonS_unique

end

end VssPExample

section

variable [SMul F G]

open VssPExample in
/-- C63 does not hold: the session id inside a deal is never compared with the hash it should be.
Both verifiers certify without timeout, with threshold 2 of 2, and hold shares of different
polynomials. -/
theorem C63_violated_equivocation : ¬ C63_statement := by
  intro h
  obtain ⟨h1, h2, h3⟩ := eq_certified
  refine h3 (h (ZMod 11) (ZMod 11) _ _ _ _ envInj suiteInj_lawful (by decide) (fun _ _ h => h) 3 5 8
    pubs2 (eqVer 0) (eqVer 1) rfl rfl (eqCalls 0) (eqCalls 1) ?_ _ _ h1 h2)
  intro c hc
  simp only [eqCalls, List.cons_append, List.nil_append, List.mem_cons, List.not_mem_nil, or_false] at hc
  rcases hc with rfl | rfl | rfl | rfl <;> rfl

end

/-! ## Cases -/

namespace VssPExample

open Kyber.Toy

/-- `C61_recover_partial`: the deals of the honest dealer have two commitments and are approved; deals 0 and 1 and
deals 2 and 0 recover the same secret. -/
example : ∃ s : ZMod 11, VssP.recoverSecret MapOrder.id [dealAt 0, dealAt 1] 2 = .ok s ∧
    VssP.recoverSecret MapOrder.rev [dealAt 2, dealAt 0] 2 = .ok s ∧ s • envP.suite.base = dealer.secretCommits.getD 0 0 := by
  have key : ∀ i < 3, (dealAt i).commitments = dealer.secretCommits ∧ (dealAt i).sessionId = dealer.sessionId ∧
      (dealAt i).secShare.i < 11 ∧ ∃ (v v' : Verifier (ZMod 11) (ZMod 11)) (e : EncryptedDeal (ZMod 11)) (k : ZMod 11)
        (r : Response), v.processEncryptedDeal envP e k = (v', .ok r) ∧ r.status = true ∧
        v'.aggregator.deal = some (dealAt i) := by
    intro i hi
    have h : (dealAt i).commitments = dealer.secretCommits ∧ (dealAt i).sessionId = dealer.sessionId ∧
        (dealAt i).secShare.i < 11 ∧
        ((ver i).processEncryptedDeal envP (encDeal dealer i) 5).2 = .ok (resp (encDeal dealer i) i) ∧
        (resp (encDeal dealer i) i).status = true ∧
        ((ver i).processEncryptedDeal envP (encDeal dealer i) 5).1.aggregator.deal = some (dealAt i) := by
      have : i = 0 ∨ i = 1 ∨ i = 2 := by omega
      rcases this with rfl | rfl | rfl <;> decide +kernel
    obtain ⟨h1, h2, h3, h4, h5, h6⟩ := h
    exact ⟨h1, h2, h3, ver i, _, encDeal dealer i, 5, _, pair_eq h4, h5, h6⟩
  refine C61_recover_partial 11 MapOrder.id MapOrder.rev envP (by decide) dealer.secretCommits 2 (by decide +kernel)
    dealer.sessionId [dealAt 0, dealAt 1] [dealAt 2, dealAt 0] ?_ (by decide +kernel) (by decide +kernel)
  intro d hd
  have : d = dealAt 0 ∨ d = dealAt 1 ∨ d = dealAt 2 ∨ d = dealAt 0 := by simpa using hd
  rcases this with rfl | rfl | rfl | rfl
  · exact key 0 (by decide)
  · exact key 1 (by decide)
  · exact key 2 (by decide)
  · exact key 0 (by decide)

/-- `C62_no_effect_partial`: a verifier that asks for threshold 3 accepts the deal with threshold 2 like one that does not. -/
example : (ver 0).aggregator.deal = none ∧
    ((vStep envP (ver 0) (.setThreshold 3)).processEncryptedDeal envP (encDeal dealer 0) 5).2 =
      .ok (resp (encDeal dealer 0) 0) ∧ (resp (encDeal dealer 0) 0).status = true := by
  decide +kernel

/-- `C63_session_id_binds`: other commitments or another threshold give another session id when the hash has no
collisions. -/
example : VssP.sessionId suiteInj 8 pubs [3, 10] 2 ≠ VssP.sessionId suiteInj 8 pubs [3, 1] 2 ∧
    VssP.sessionId suiteInj 8 pubs [3, 10] 2 ≠ VssP.sessionId suiteInj 8 pubs [3, 10] 3 := by
  constructor
  · intro h
    exact absurd (C63_session_id_binds suiteInj suiteInj_lawful (by decide) 8 pubs _ _ _ _ (fun h => h) h).1
      (by decide)
  · intro h
    exact absurd (C63_session_id_binds suiteInj suiteInj_lawful (by decide) 8 pubs _ _ _ _ (fun h => h) h).2
      (by decide)

/-- A dealer of 7 + 5X who sends both verifiers the right session id. -/
def fairDealer : Dealer (ZMod 11) (ZMod 11) :=
  let sid := sessionId suiteInj 8 pubs2 [3, 10] 2
  { eqDealer with
    secretCommits := [3, 10], sessionId := sid,
    deals := [0, 1].map (fun i => ⟨sid, (⟨[7, 5]⟩ : PriPoly (ZMod 11)).eval i, 2, [3, 10]⟩) }

/-- what it sends to verifier `i` -/
def fairEnc (i : Nat) : EncryptedDeal (ZMod 11) :=
  match fairDealer.encryptedDeal envInj i 3 2 with
  | .ok e => e
  | _ => ⟨0, [], [], []⟩

/-- verifier `i` and its response after that -/
def fairVer (i : Nat) : Verifier (ZMod 11) (ZMod 11) := ((eqVer i).processEncryptedDeal envInj (fairEnc i) 5).1

def fairResp (i : Nat) : Response :=
  match ((eqVer i).processEncryptedDeal envInj (fairEnc i) 5).2 with
  | .ok r => r
  | _ => ⟨[], 0, false, []⟩

/-- `C63_agreement_partial`: verifier 0 holds the deal of that dealer and accepts the response of verifier 1. -/
example : ∃ d d' : Deal (ZMod 11) (ZMod 11), (fairVer 0).aggregator.deal = some d ∧
    (fairVer 1).aggregator.deal = some d' ∧ ((fairVer 0).processResponse suiteInj (fairResp 1)).2 = .ok () ∧
    d.commitments = d'.commitments := by
  refine ⟨fairDealer.deals.getD 0 ⟨[], ⟨0, 0⟩, 0, []⟩, fairDealer.deals.getD 1 ⟨[], ⟨0, 0⟩, 0, []⟩, by decide +kernel,
    by decide +kernel, by decide +kernel, ?_⟩
  exact C63_agreement_partial envInj suiteInj_lawful (by decide) (fairVer 0) (eqVer 1) (fairVer 1) _ _
    (fairEnc 1) 5 (fairResp 1) (fun h => h) (by decide +kernel) (by decide +kernel) (by decide +kernel) (by decide +kernel)
    (by decide +kernel) (pair_eq (by decide +kernel)) (by decide +kernel) (by decide +kernel) (by decide +kernel)

end VssPExample

end Kyber.Props
