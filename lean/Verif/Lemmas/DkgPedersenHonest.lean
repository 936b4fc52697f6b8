/-
The verifiers of a DKG participant when everybody is honest: what each message does, in any order.
-/
import Verif.Lemmas.DkgPedersenKey

set_option linter.unusedSectionVars false

namespace Kyber.DkgP

open Kyber.Poly Kyber.Spec Kyber.VssP

variable {F G : Type} [Field F] [AddCommGroup G] [DecidableEq G]

section

variable [SMul F G]

/-- The constant part of a verifier: participant `i` with key `x`, dealer `p`. -/
structure VSt (S : Suite F G) (x : F) (pubs : List G) (i : Nat) (p : G) (v : Verifier F G) : Prop where
  longterm : v.longterm = x
  dealer : v.dealer = p
  index : v.index = i
  verifiers : v.verifiers = pubs
  ctx : v.hkdfContext = context S p pubs
  aggv : v.aggregator.verifiers = pubs
  bad : v.aggregator.badDealer = false

/-- The changing part: the deal and the responses received so far. -/
structure VDyn (v : Verifier F G) (od : Option (VssP.Deal F G)) (R : Nat → Option VssP.Response) :
    Prop where
  deal : v.aggregator.deal = od
  sid : v.aggregator.sid = (od.map VssP.Deal.sessionId).getD []
  t : ∀ d, od = some d → v.aggregator.t = d.t
  resp : ∀ l, v.aggregator.responses.get l = R l

theorem startVer_st (S : Suite F G) (x : F) (pubs : List G) (t i : Nat) (p : G) :
    VSt S x pubs i p (startVer S x pubs t i p) := ⟨rfl, rfl, rfl, rfl, rfl, rfl, rfl⟩

theorem startVer_dyn (S : Suite F G) (x : F) (pubs : List G) (t i : Nat) (p : G) :
    VDyn (startVer S x pubs t i p) none (fun _ => none) :=
  ⟨rfl, rfl, by simp, fun _ => rfl⟩

theorem step_timeout {S : Suite F G} {x : F} {pubs : List G} {i : Nat} {p : G} {v : Verifier F G}
    {od : Option (VssP.Deal F G)} {R : Nat → Option VssP.Response}
    (h : VSt S x pubs i p v) (h' : VDyn v od R) :
    VSt S x pubs i p v.setTimeout ∧ VDyn v.setTimeout od R :=
  ⟨⟨h.longterm, h.dealer, h.index, h.verifiers, h.ctx, h.aggv, h.bad⟩,
    ⟨h'.deal, h'.sid, h'.t, h'.resp⟩⟩

/-- `add_response` for a new index. -/
theorem addResponse_new_ok (a : Aggregator F G) (r : VssP.Response)
    (hl : r.index < a.verifiers.length) (hn : a.responses.get r.index = none) :
    a.addResponse r = ({ a with responses := a.responses.insert r.index r }, .ok ()) := by
  rcases addResponse_cases a r with ⟨e, h⟩ | ⟨-, -, h⟩
  · exfalso
    unfold Aggregator.addResponse at h
    rw [if_neg (by simpa [VssP.findPub] using hl), if_neg (by simp [hn])] at h
    exact absurd (congrArg Prod.snd h) (by simp)
  · exact h

/-- `verify_response` accepts a new, correctly signed response of the right session. -/
theorem verifyResponse_new_ok (S : Suite F G) (a : Aggregator F G) (r : VssP.Response) (pub : G)
    (hs : a.sid ≠ [] → r.sessionId = a.sid) (hp : a.verifiers[r.index]? = some pub)
    (hv : Schnorr.verify S pub (r.hash S) r.signature = .ok ())
    (hn : a.responses.get r.index = none) :
    a.verifyResponse S r = ({ a with responses := a.responses.insert r.index r }, .ok ()) := by
  unfold Aggregator.verifyResponse
  rw [if_neg (by rintro ⟨h1, h2⟩; exact h2 (hs h1))]
  simp only [VssP.findPub, hp, hv]
  exact addResponse_new_ok a r (List.getElem?_eq_some_iff.1 hp).1 hn

theorem step_response {S : Suite F G} {x : F} {pubs : List G} {i : Nat} {p : G} {v : Verifier F G}
    {od : Option (VssP.Deal F G)} {R : Nat → Option VssP.Response}
    (h : VSt S x pubs i p v) (h' : VDyn v od R) (r : VssP.Response) (pub : G)
    (hs : ∀ d, od = some d → r.sessionId = d.sessionId) (hp : pubs[r.index]? = some pub)
    (hv : Schnorr.verify S pub (r.hash S) r.signature = .ok ()) (hn : R r.index = none) :
    ∃ v', v.processResponse S r = (v', .ok ()) ∧ VSt S x pubs i p v' ∧
      VDyn v' od (Function.update R r.index (some r)) := by
  have := verifyResponse_new_ok S v.aggregator r pub
    (by
      intro hne
      rw [h'.sid] at hne ⊢
      cases hod : od with
      | none => rw [hod] at hne; exact absurd rfl hne
      | some d => rw [hs d hod]; rfl)
    (by rw [h.aggv]; exact hp) hv (by rw [h'.resp]; exact hn)
  refine ⟨{ v with aggregator := { v.aggregator with
    responses := v.aggregator.responses.insert r.index r } }, ?_, ?_, ?_⟩
  · unfold Verifier.processResponse; rw [this]
  · exact ⟨h.longterm, h.dealer, h.index, h.verifiers, h.ctx, h.aggv, h.bad⟩
  · refine ⟨h'.deal, h'.sid, h'.t, fun l => ?_⟩
    show (v.aggregator.responses.insert r.index r).get l = _
    rw [AMap.get_insert, Function.update_apply]
    split
    · rfl
    · exact h'.resp l

theorem step_unsafe {S : Suite F G} {x : F} {pubs : List G} {i : Nat} {p : G} {v : Verifier F G}
    {od : Option (VssP.Deal F G)} {R : Nat → Option VssP.Response}
    (h : VSt S x pubs i p v) (h' : VDyn v od R) (j : Nat) (b : Bool) (hj : j < pubs.length) :
    VSt S x pubs i p (v.unsafeSetResponseDkg j b) ∧
      VDyn (v.unsafeSetResponseDkg j b) od (if (R j).isSome then R else
        Function.update R j (some ⟨v.aggregator.sid, j, b, []⟩)) := by
  by_cases hR : (R j).isSome
  · have hsame : v.unsafeSetResponseDkg j b = v := by
      unfold Verifier.unsafeSetResponseDkg Aggregator.addResponse
      simp only
      split
      · rfl
      · rw [if_pos (by rw [h'.resp]; exact hR)]
    rw [hsame, if_pos hR]
    exact ⟨h, h'⟩
  · rw [if_neg hR]
    have hadd := addResponse_new_ok v.aggregator ⟨v.aggregator.sid, j, b, []⟩
      (by rw [h.aggv]; exact hj) (by rw [h'.resp]; simpa using hR)
    have hst : v.unsafeSetResponseDkg j b = { v with aggregator := { v.aggregator with
        responses := v.aggregator.responses.insert j ⟨v.aggregator.sid, j, b, []⟩ } } := by
      unfold Verifier.unsafeSetResponseDkg
      rw [hadd]
    rw [hst]
    refine ⟨⟨h.longterm, h.dealer, h.index, h.verifiers, h.ctx, h.aggv, h.bad⟩,
      h'.deal, h'.sid, h'.t, fun l => ?_⟩
    show (v.aggregator.responses.insert j _).get l = _
    rw [AMap.get_insert, Function.update_apply]
    split
    · rfl
    · exact h'.resp l

theorem mkReply_congr (E : Env F G) (v w : Verifier F G) (d : VssP.Deal F G) (k : F) (b : Bool)
    (h1 : v.dealer = w.dealer) (h2 : v.verifiers = w.verifiers) (h3 : v.index = w.index)
    (h4 : v.longterm = w.longterm) : mkReply E v d k b = mkReply E w d k b := by
  unfold mkReply
  rw [h1, h2, h3, h4]

/-- The reply of participant `i` (key `x`) to a deal of dealer `p`. -/
def honestReply (E : Env F G) (x : F) (pubs : List G) (i : Nat) (p : G) (d : VssP.Deal F G) (k : F) :
    VssP.Response :=
  mkReply E (startVer E.suite x pubs 0 i p) d k true

theorem honestReply_verify (E : Env F G) (hS : E.suite.Lawful) (x : F) (pubs : List G) (i : Nat)
    (p : G) (d : VssP.Deal F G) (k : F) (hx : Usable E.suite (x • E.suite.base))
    (hk : Usable E.suite (k • E.suite.base)) :
    Schnorr.verify E.suite (x • E.suite.base) ((honestReply E x pubs i p d k).hash E.suite)
      (honestReply E x pubs i p d k).signature = .ok () :=
  Props.C11_sign_verify E.suite hS k x _ hk.1 hk.2 hx.1 hx.2

/-- A message that decrypts to a deal that passes the checks is approved whatever responses arrived
before it. -/
theorem step_deal_checked (E : Env F G) {pubs : List G} {p : G}
    {i : Nat} {x : F} (hi : pubs[i]? = some (x • E.suite.base)) {vk : F} {e : EncryptedDeal G}
    {v : Verifier F G} {R : Nat → Option VssP.Response}
    (h : VSt E.suite x pubs i p v) (h' : VDyn v none R) (hR : R i = none)
    {deal : VssP.Deal F G} (hdi : deal.secShare.i = i) (hdec : v.decryptDeal E e = .ok deal)
    (hcheck : (v.aggregator.remember deal).checkDeal E.suite deal = .ok ()) :
    ∃ v', v.processEncryptedDeal E e vk =
        (v', .ok (honestReply E x pubs i p deal vk)) ∧
      VSt E.suite x pubs i p v' ∧
      VDyn v' (some deal) (Function.update R i
        (some (honestReply E x pubs i p deal vk))) := by
  have hil : i < pubs.length := (List.getElem?_eq_some_iff.1 hi).1
  have hrem : v.aggregator.remember deal = { v.aggregator with
      commits := deal.commitments, sid := deal.sessionId, deal := some deal, t := deal.t } := by
    unfold Aggregator.remember; rw [h'.deal]
  have hrep : mkReply E v deal vk true = honestReply E x pubs i p deal vk :=
    mkReply_congr E _ _ _ _ _ h.dealer h.verifiers h.index h.longterm
  rcases processEncryptedDeal_cases E v e vk with hbad | ⟨d2, hd2, hi2, -, hcase⟩
  · exfalso
    have hne : v.processEncryptedDeal E e vk = v.processDeal E deal vk := by
      unfold Verifier.processEncryptedDeal
      rw [hdec]
      simp only
      rw [if_neg]
      rw [hdi, h.index]; simp
    have hok : (v.processDeal E deal vk).2 = .ok (mkReply E v deal vk true) := by
      unfold Verifier.processDeal Aggregator.verifyDeal
      rw [if_neg (by rw [h'.deal]; simp)]
      simp only [hcheck]
      show ((v.aggregator.remember deal).addResponse (mkReply E v deal vk true)).2 >>= _ = _
      rw [addResponse_new_ok]
      · rfl
      · rw [hrem]; show v.index < v.aggregator.verifiers.length; rw [h.index, h.aggv]; exact hil
      · rw [hrem]; show v.aggregator.responses.get v.index = none; rw [h.index, h'.resp]; exact hR
    rcases hbad with ⟨err, hb⟩ | hb
    · rw [hne] at hb; rw [hb] at hok; cases hok
    · rw [hne] at hb; rw [hb] at hok; cases hok
  · rw [hdec] at hd2
    cases hd2
    rcases hcase with ⟨hp, -⟩ | ⟨st, hst, g1, g2⟩
    · rw [hcheck] at hp; cases hp
    · have hstt : st = true := hst.1 hcheck
      subst hstt
      have hidx : (mkReply E v deal vk true).index = i := h.index
      have hadd := addResponse_new_ok (v.aggregator.remember deal) (mkReply E v deal vk true)
        (by rw [hrem, hidx]; show i < v.aggregator.verifiers.length; rw [h.aggv]; exact hil)
        (by rw [hrem, hidx]; show v.aggregator.responses.get i = none; rw [h'.resp]; exact hR)
      rw [hadd] at g1 g2
      simp only at g1
      simp only [Res.bind_ok] at g2
      rw [hrep] at g1 g2
      refine ⟨_, Prod.ext g1 g2, ?_, ?_⟩
      · refine ⟨h.longterm, h.dealer, h.index, h.verifiers, h.ctx, ?_, ?_⟩
        · rw [hrem]; exact h.aggv
        · rw [hrem]; exact h.bad
      · refine ⟨?_, ?_, ?_, ?_⟩
        · rw [hrem]
        · rw [hrem]; rfl
        · intro d hd; cases hd; rw [hrem]
        · intro l
          show ((v.aggregator.remember deal).responses.insert _ _).get l = _
          rw [AMap.get_insert, Function.update_apply, hrem,
            show (honestReply E x pubs i p deal vk).index = i from rfl]
          split
          · rfl
          · exact h'.resp l

/-- A message that decrypts to an honest deal is approved whatever responses arrived before it. -/
theorem step_deal_dec (E : Env F G) (hS : E.suite.Lawful)
    {xd secret : F} {pubs : List G} {T : Nat} {draws : List F} {dl : Dealer F G}
    (hd : newDealer E.suite xd secret pubs T draws = .ok dl)
    {i : Nat} {x : F} (hi : pubs[i]? = some (x • E.suite.base)) {vk : F} {e : EncryptedDeal G}
    {v : Verifier F G} {R : Nat → Option VssP.Response}
    (h : VSt E.suite x pubs i (xd • E.suite.base) v) (h' : VDyn v none R) (hR : R i = none)
    {deal : VssP.Deal F G} (hdeal : dl.deals[i]? = some deal) (hdec : v.decryptDeal E e = .ok deal) :
    ∃ v', v.processEncryptedDeal E e vk =
        (v', .ok (honestReply E x pubs i (xd • E.suite.base) deal vk)) ∧
      VSt E.suite x pubs i (xd • E.suite.base) v' ∧
      VDyn v' (some deal) (Function.update R i
        (some (honestReply E x pubs i (xd • E.suite.base) deal vk))) := by
  obtain ⟨hv, -, h1, -, -, h4, -, h6, h7, h8, h9, h10, -⟩ := newDealer_ok hd
  have hil : i < pubs.length := (List.getElem?_eq_some_iff.1 hi).1
  have hdf : deal = ⟨dl.sessionId, dl.secretPoly.eval i, T, dl.secretCommits⟩ := by
    rw [h10, List.getElem?_map, List.getElem?_range hil] at hdeal
    simpa using hdeal.symm
  have hrem : v.aggregator.remember deal = { v.aggregator with
      commits := deal.commitments, sid := deal.sessionId, deal := some deal, t := deal.t } := by
    unfold Aggregator.remember; rw [h'.deal]
  have hcheck : (v.aggregator.remember deal).checkDeal E.suite deal = .ok () := by
    have := checkDeal_honest (S := E.suite) hS.base_lin (a := v.aggregator.remember deal)
      (cs := secret :: draws.take (T - 1)) (by simp) (sid := dl.sessionId) (t := T) (i := i)
      (by rw [hrem]; show validT T v.aggregator.verifiers = true; rw [h.aggv]; exact hv)
      (by rw [hrem, hdf]) (by rw [hrem, hdf])
      (by rw [hrem]; show i < v.aggregator.verifiers.length; rw [h.aggv]; exact hil)
    rw [← h6, ← h7] at this
    rw [hdf] at this ⊢
    exact this
  exact step_deal_checked E hi h h' hR (by rw [hdf]; rfl) hdec hcheck

/-- An honest deal decrypts to what was dealt. -/
theorem decrypt_honest (E : Env F G) (hS : E.suite.Lawful) (hP : E.prims.Lawful)
    {xd secret : F} {pubs : List G} {T : Nat} {draws : List F} {dl : Dealer F G}
    (hC : ∀ q ∈ dl.deals, E.codec.dec (E.codec.enc q) = some q)
    (hd : newDealer E.suite xd secret pubs T draws = .ok dl)
    (hx : Usable E.suite (xd • E.suite.base))
    {i : Nat} {x : F} (hi : pubs[i]? = some (x • E.suite.base))
    {dh k : F} (hk : Usable E.suite (k • E.suite.base))
    {e : EncryptedDeal G} (he : dl.encryptedDeal E i dh k = .ok e) {v : Verifier F G}
    (h : VSt E.suite x pubs i (xd • E.suite.base) v)
    {deal : VssP.Deal F G} (hdeal : dl.deals[i]? = some deal) : v.decryptDeal E e = .ok deal := by
  obtain ⟨-, -, h1, -, -, h4, -, -, -, -, h9, -⟩ := newDealer_ok hd
  obtain ⟨deal', hdeal', hdec⟩ := decrypt_encrypted E hS hP hC (v := v)
    (by rw [h4, h.longterm]; exact hi)
    (by rw [h1]; exact h.dealer) (by rw [h9]; exact h.ctx) (by rw [h1]; exact hx) hk he
  rw [hdeal] at hdeal'
  cases hdeal'
  exact hdec

/-- An honest deal is approved whatever responses arrived before it. -/
theorem step_deal (E : Env F G) (hS : E.suite.Lawful) (hP : E.prims.Lawful)
    {xd secret : F} {pubs : List G} {T : Nat} {draws : List F} {dl : Dealer F G}
    (hC : ∀ q ∈ dl.deals, E.codec.dec (E.codec.enc q) = some q)
    (hd : newDealer E.suite xd secret pubs T draws = .ok dl)
    (hx : Usable E.suite (xd • E.suite.base))
    {i : Nat} {x : F} (hi : pubs[i]? = some (x • E.suite.base))
    {dh k vk : F} (hk : Usable E.suite (k • E.suite.base))
    {e : EncryptedDeal G} (he : dl.encryptedDeal E i dh k = .ok e)
    {v : Verifier F G} {R : Nat → Option VssP.Response}
    (h : VSt E.suite x pubs i (xd • E.suite.base) v) (h' : VDyn v none R) (hR : R i = none)
    {deal : VssP.Deal F G} (hdeal : dl.deals[i]? = some deal) :
    ∃ v', v.processEncryptedDeal E e vk =
        (v', .ok (honestReply E x pubs i (xd • E.suite.base) deal vk)) ∧
      VSt E.suite x pubs i (xd • E.suite.base) v' ∧
      VDyn v' (some deal) (Function.update R i
        (some (honestReply E x pubs i (xd • E.suite.base) deal vk))) :=
  step_deal_dec E hS hd hi h h' hR hdeal (decrypt_honest E hS hP hC hd hx hi hk he h hdeal)

/-- A verifier that has the deal and an approval of everybody certifies. -/
theorem certified_of_dyn {S : Suite F G} {x : F} {pubs : List G} {i : Nat} {p : G} {v : Verifier F G}
    {d : VssP.Deal F G} {R : Nat → Option VssP.Response}
    (h : VSt S x pubs i p v) (h' : VDyn v (some d) R) (ht : d.t ≤ pubs.length)
    (hall : ∀ j < pubs.length, ∃ r, R j = some r ∧ r.status = true) :
    v.aggregator.dealCertified = true := by
  apply certified_of_all h.bad
  · rw [h'.t d rfl, h.aggv]; exact ht
  · intro j hj
    rw [h.aggv] at hj
    rw [h'.resp]; exact hall j hj

end

end Kyber.DkgP
