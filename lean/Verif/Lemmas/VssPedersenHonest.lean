/-
Lemmas about an honest run of the Pedersen VSS.
-/
import Verif.Lemmas.VssPedersen
import Verif.Props.Shamir
import Verif.Props.Signatures

set_option linter.unusedSectionVars false

namespace Kyber.VssP

open Kyber.Poly Kyber.Spec

variable {F G : Type} [Field F] [AddCommGroup G] [DecidableEq G]

section

variable [SMul F G]

/-- What a successful `new_dealer` returns. -/
theorem newDealer_ok {S : Suite F G} {x secret : F} {pubs : List G} {t : Nat} {draws : List F}
    {d : Dealer F G} (h : newDealer S x secret pubs t draws = .ok d) :
    validT t pubs = true ∧ t - 1 ≤ draws.length ∧
    d.long = x ∧ d.pubb = x • S.base ∧ d.secret = secret ∧ d.verifiers = pubs ∧ d.t = t ∧
    d.secretPoly = ⟨secret :: draws.take (t - 1)⟩ ∧
    d.secretCommits = (secret :: draws.take (t - 1)).map (fun c => c • S.base) ∧
    d.sessionId = VssP.sessionId S (x • S.base) pubs d.secretCommits t ∧
    d.hkdfContext = context S (x • S.base) pubs ∧
    d.deals = (List.range pubs.length).map (fun i => (⟨d.sessionId, d.secretPoly.eval i, t,
      d.secretCommits⟩ : Deal F G)) ∧
    d.aggregator = newAggregator pubs d.secretCommits t d.sessionId := by
  unfold newDealer at h
  split at h
  · cases h
  · rename_i hv
    simp only [newPriPoly] at h
    by_cases hl : t - 1 ≤ draws.length
    · rw [if_pos hl] at h
      simp only [Res.unwrap_some, Res.bind_ok, Res.ok.injEq] at h
      subst h
      exact ⟨by simpa using hv, hl, rfl, rfl, rfl, rfl, rfl, rfl, rfl, rfl, rfl, rfl, rfl⟩
    · rw [if_neg hl] at h
      cases h

theorem newVerifier_ok (S : Suite F G) (xi : F) (dealer : G) (pubs : List G) (i : Nat)
    (hnd : pubs.Nodup) (hi : pubs[i]? = some (xi • S.base)) :
    newVerifier S xi dealer pubs = .ok
      { longterm := xi, pubb := xi • S.base, dealer := dealer, index := i, verifiers := pubs,
        hkdfContext := context S dealer pubs, aggregator := newEmptyAggregator pubs } := by
  have hf : pubs.findIdx? (fun v => decide (v = xi • S.base)) = some i := by
    rw [List.findIdx?_eq_some_iff_getElem]
    obtain ⟨hl, he⟩ := List.getElem?_eq_some_iff.1 hi
    refine ⟨hl, by simpa using he, ?_⟩
    intro j hj
    simp only [decide_eq_true_eq]
    intro hje
    have := (List.Nodup.getElem_inj_iff hnd (hi := by omega) (hj := hl)).1 (hje.trans he.symm)
    omega
  unfold newVerifier
  simp only [hf]

/-- The honest share passes the checks of `verify_deal`. -/
theorem checkDeal_honest {S : Suite F G} (hl : Lin F S.base) {a : Aggregator F G} {cs : List F} (hcs : cs ≠ [])
    {sid : Bytes} {t i : Nat} (ht : validT t a.verifiers = true) (hat : a.t = t) (hsid : a.sid = sid)
    (hi : i < a.verifiers.length) :
    a.checkDeal S ⟨sid, (⟨cs⟩ : PriPoly F).eval i, t, cs.map (fun c => c • S.base)⟩ = .ok () := by
  unfold Aggregator.checkDeal
  rw [if_neg (by simp [ht]), if_neg (by simp [hat]), if_neg (by simp [hsid]),
    if_neg (by show ¬ a.verifiers.length ≤ i; omega)]
  have hev := Props.C06_commit_eval (F := F) S.base ⟨cs⟩ none hl hcs i
  have : ((⟨none, cs.map (fun c => c • S.base)⟩ : PubPoly G).eval F i) =
      .ok ⟨i, ((⟨cs⟩ : PriPoly F).eval i).v • S.base⟩ := hev
  simp only []
  rw [show ((⟨cs⟩ : PriPoly F).eval i).i = i from rfl, this]
  simp

/-- What the dealer encrypts, the intended verifier decrypts. -/
theorem decrypt_encrypted (E : Env F G) (hS : E.suite.Lawful) (hP : E.prims.Lawful)
    {d : Dealer F G} (hC : ∀ dl ∈ d.deals, E.codec.dec (E.codec.enc dl) = some dl)
    {i : Nat} {dh k : F}
    {e : EncryptedDeal G} {v : Verifier F G}
    (hpub : d.verifiers[i]? = some (v.longterm • E.suite.base))
    (hdealer : v.dealer = d.long • E.suite.base) (hctx : v.hkdfContext = d.hkdfContext)
    (hx : Usable E.suite (d.long • E.suite.base)) (hk : Usable E.suite (k • E.suite.base))
    (he : d.encryptedDeal E i dh k = .ok e) :
    ∃ deal, d.deals[i]? = some deal ∧ v.decryptDeal E e = .ok deal := by
  unfold Dealer.encryptedDeal at he
  simp only [findPub, hpub, Res.ofOption_some, Res.bind_ok, Res.bind_eq_ok, Res.mapErr_eq_ok,
    Res.unwrap_eq_ok, Res.ok.injEq] at he
  obtain ⟨gcm, hgcm, deal, hdeal, c, hc, rfl⟩ := he
  refine ⟨deal, hdeal, ?_⟩
  unfold Verifier.decryptDeal
  simp only
  rw [hdealer, Props.C11_sign_verify E.suite hS k d.long _ hk.1 hk.2 hx.1 hx.2]
  have hpre : Dh.dhExchange v.longterm (dh • E.suite.base) =
      Dh.dhExchange dh (v.longterm • E.suite.base) := by
    exact hS.base_lin.comm _ _
  rw [hpre, hctx, hgcm]
  simp only [Res.mapErr_ok, Res.bind_ok, List.length_replicate, ne_eq, not_true, if_false]
  unfold Dh.AEAD.seal_ Dh.aesEncrypt Dh.copyOut at hc
  simp only [Res.bind_eq_ok, Res.ite_err_eq_ok, Res.ofOption_eq_ok, Res.ok.injEq] at hc
  obtain ⟨c', ⟨hl, hc'⟩, rfl⟩ := hc
  unfold Dh.AEAD.open_ Dh.aesDecrypt Dh.copyOut
  rw [if_neg hl, hP.open_seal _ _ _ _ _ hc']
  simp [hC deal (List.mem_of_getElem? hdeal)]

/-- Processing valid, new approvals: all succeed and are stored. -/
theorem verifyResponses_run (S : Suite F G) (resp : Nat → Response) (l : List Nat)
    (a : Aggregator F G)
    (hsid : ∀ j ∈ l, (resp j).sessionId = a.sid)
    (hidx : ∀ j ∈ l, (resp j).index = j)
    (hver : ∀ j ∈ l, ∃ pub, a.verifiers[j]? = some pub ∧
      Schnorr.verify S pub ((resp j).hash S) (resp j).signature = .ok ())
    (hnew : ∀ j ∈ l, a.responses.get j = none) (hnd : l.Nodup) :
    let a' := l.foldl (fun a j => (a.verifyResponse S (resp j)).1) a
    a'.verifiers = a.verifiers ∧ a'.deal = a.deal ∧ a'.t = a.t ∧ a'.sid = a.sid ∧
    a'.badDealer = a.badDealer ∧ a'.timeout = a.timeout ∧
    (∀ j, a'.responses.get j = if j ∈ l then some (resp j) else a.responses.get j) ∧
    (∀ pre j post, l = pre ++ j :: post →
      ((pre.foldl (fun a j => (a.verifyResponse S (resp j)).1) a).verifyResponse S (resp j)).2
        = .ok ()) := by
  induction l generalizing a with
  | nil => simp
  | cons j l ih =>
    obtain ⟨pub, hp, hv⟩ := hver j (by simp)
    have hstep : a.verifyResponse S (resp j) =
        ({ a with responses := a.responses.insert j (resp j) }, .ok ()) := by
      unfold Aggregator.verifyResponse
      rw [if_neg (by rintro ⟨-, h⟩; exact h (hsid j (by simp))), hidx j (by simp)]
      simp only [findPub, hp, hv]
      unfold Aggregator.addResponse
      rw [hidx j (by simp)]
      simp [findPub, hp, hnew j (by simp)]
    have hjl : j ∉ l := (List.nodup_cons.1 hnd).1
    have := ih { a with responses := a.responses.insert j (resp j) }
      (fun i hi => hsid i (by simp [hi])) (fun i hi => hidx i (by simp [hi]))
      (fun i hi => hver i (by simp [hi]))
      (fun i hi => by
        show (a.responses.insert j (resp j)).get i = none
        rw [AMap.get_insert, if_neg (by rintro rfl; exact hjl hi)]
        exact hnew i (by simp [hi])) (List.nodup_cons.1 hnd).2
    obtain ⟨h1, h2, h3, h4, h5, h6, h7, h8⟩ := this
    simp only [List.foldl_cons, hstep]
    refine ⟨h1, h2, h3, h4, h5, h6, ?_, ?_⟩
    · intro i
      rw [h7 i]
      by_cases hi : i ∈ l
      · simp [hi]
      · rw [if_neg hi]
        show (a.responses.insert j (resp j)).get i = _
        rw [AMap.get_insert]
        by_cases hij : i = j
        · subst hij; simp
        · simp [hij, hi]
    · intro pre i post hl
      cases pre with
      | nil =>
        simp only [List.nil_append, List.cons.injEq] at hl
        obtain ⟨rfl, -⟩ := hl
        simp [hstep]
      | cons b pre =>
        simp only [List.cons_append, List.cons.injEq] at hl
        obtain ⟨rfl, hl⟩ := hl
        simp only [List.foldl_cons, hstep]
        exact h8 pre i post hl

/-- All `n` approvals and nothing else: certified. -/
theorem certified_of_all {a : Aggregator F G} (hbad : a.badDealer = false)
    (ht : a.t ≤ a.verifiers.length)
    (hall : ∀ j < a.verifiers.length, ∃ r, a.responses.get j = some r ∧ r.status = true) :
    a.dealCertified = true := by
  have h1 : missing a.responses a.verifiers.length = ∅ := by
    unfold missing
    rw [Finset.filter_eq_empty_iff]
    intro j hj h
    obtain ⟨r, hr, -⟩ := hall j (Finset.mem_range.1 hj)
    rw [h] at hr; cases hr
  have h2 : complainedBy a.responses a.verifiers.length = ∅ := by
    unfold complainedBy
    rw [Finset.filter_eq_empty_iff]
    rintro j hj ⟨r', hr', hs'⟩
    obtain ⟨r, hr, hs⟩ := hall j (Finset.mem_range.1 hj)
    rw [hr] at hr'; cases hr'; rw [hs] at hs'; cases hs'
  have h3 : (approvedBy a.responses a.verifiers.length).card = a.verifiers.length := by
    have := partition_card a.responses a.verifiers.length
    rw [h1, h2] at this; simpa using this
  unfold Aggregator.dealCertified
  simp only [count_range, h1, h2, h3, hbad]
  simp [ht]

end

end Kyber.VssP
