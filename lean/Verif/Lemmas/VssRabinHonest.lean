/-
Lemmas about an honest run of the Rabin VSS, and about its commitments.
-/
import Verif.Lemmas.VssRabin

set_option linter.unusedSectionVars false

namespace Kyber.VssR

open Kyber.Poly Kyber.Spec
open Kyber.VssP (VssError EncryptedDeal Response validT findPub context ascii)

variable {F G : Type} [Field F] [AddCommGroup G] [DecidableEq G]

section

variable [SMul F G]

/-- The commitments `f_k • B + g_k • H`. -/
def commitsOf (B H : G) (f g : List F) : List G :=
  List.zipWith (fun a b => a • B + b • H) f g

theorem length_commitsOf (B H : G) {f g : List F} (h : f.length = g.length) :
    (commitsOf B H f g).length = f.length := by
  simp [commitsOf, h]

theorem commitsOf_eq (B H : G) (f g : List F) :
    commitsOf B H f g = List.zipWith (· + ·) (f.map (· • B)) (g.map (· • H)) := by
  rw [List.zipWith_map]; rfl

end

section

variable [DistribSMul F G]

theorem pointVal_commitsOf {B H : G} (hB : Lin F B) (hH : Lin F H) {f g : List F} (h : f.length = g.length) (x : F) :
    pointVal (commitsOf B H f g) x = polyVal f x • B + polyVal g x • H := by
  rw [commitsOf_eq, pointVal_zipWith_add (by simp [h]), pointVal_map_smul _ hB, pointVal_map_smul _ hH]

end

section

variable [SMul F G]

/-- What a successful `new_dealer` returns. -/
theorem newDealer_ok {E : Env F G} {x secret : F} {pubs : List G} {t : Nat} {fD gD : List F}
    {d : Dealer F G} (h : newDealer E x secret pubs t fD gD = .ok d) :
    ∃ f g : List F, f.length = t ∧ g.length = t ∧ f.head? = some secret ∧
    f = secret :: fD.take (t - 1) ∧ g = gD.take t ∧ validT t pubs = true ∧
    d.long = x ∧ d.pubb = x • E.suite.base ∧ d.secret = secret ∧ d.verifiers = pubs ∧ d.t = t ∧
    d.secretCommits = f.map (· • E.suite.base) ∧
    d.hkdfContext = context E.suite (x • E.suite.base) pubs ∧
    d.sessionId = VssP.sessionId E.suite (x • E.suite.base) pubs
      (commitsOf E.suite.base (deriveH E pubs) f g) t ∧
    d.deals = (List.range pubs.length).map (fun i => (⟨d.sessionId, (⟨f⟩ : PriPoly F).eval i,
      (⟨g⟩ : PriPoly F).eval i, t, commitsOf E.suite.base (deriveH E pubs) f g⟩ : Deal F G)) ∧
    d.aggregator = newAggregator pubs (commitsOf E.suite.base (deriveH E pubs) f g) t
      d.sessionId := by
  unfold newDealer at h
  split at h
  · cases h
  · rename_i hv
    have hv' : validT t pubs = true := by simpa using hv
    have ht : 2 ≤ t := by
      simp only [validT, Bool.and_eq_true, decide_eq_true_eq] at hv'; exact hv'.1.1
    simp only [Res.bind_eq_ok, Res.unwrap_eq_ok, Res.mapErr_eq_ok, Res.ok.injEq] at h
    obtain ⟨⟨f⟩, hf, ⟨g⟩, hg, c, hc, rfl⟩ := h
    simp only [newPriPoly] at hf
    split at hf
    · rename_i hfl
      simp only [Option.some.injEq, PriPoly.mk.injEq] at hf
      subst hf
      cases gD with
      | nil => cases hg
      | cons g0 gs =>
        simp only [newPriPoly] at hg
        split at hg
        · rename_i hgl
          simp only [Option.some.injEq, PriPoly.mk.injEq] at hg
          subst hg
          have hc' : c.commits = commitsOf E.suite.base (deriveH E pubs)
              (secret :: fD.take (t - 1)) (g0 :: gs.take (t - 1)) := by
            unfold PubPoly.add at hc
            split at hc
            · cases hc
            · simp only [Res.ok.injEq] at hc
              rw [← hc, commitsOf_eq]
              rfl
          refine ⟨secret :: fD.take (t - 1), g0 :: gs.take (t - 1), ?_, ?_, rfl, rfl, ?_, hv', rfl,
            rfl, rfl, rfl, rfl, rfl, rfl, ?_, ?_, ?_⟩
          · simp only [List.length_cons, List.length_take]; omega
          · simp only [List.length_cons, List.length_take]; omega
          · obtain ⟨s, rfl⟩ : ∃ s, t = s + 1 := ⟨t - 1, by omega⟩
            rfl
          · simp only [hc']
          · simp only [hc']
          · simp only [hc']
        · cases hg
    · cases hf

/-- Given enough random coefficients, `new_dealer` succeeds. -/
theorem newDealer_some (E : Env F G) (x secret : F) (pubs : List G) (t : Nat) (fD gD : List F)
    (hv : validT t pubs = true) (hf : t - 1 ≤ fD.length) (hg : t ≤ gD.length) :
    ∃ d, newDealer E x secret pubs t fD gD = .ok d := by
  have ht : 2 ≤ t := by
    simp only [validT, Bool.and_eq_true, decide_eq_true_eq] at hv; exact hv.1.1
  unfold newDealer
  rw [if_neg (by simp [hv])]
  cases gD with
  | nil => simp at hg; omega
  | cons g0 gs =>
    simp only [List.length_cons] at hg
    have hadd : ∀ P Q : PubPoly G, P.commits.length = Q.commits.length → ∃ c, P.add Q = .ok c := by
      intro P Q h
      unfold PubPoly.add
      exact ⟨_, if_neg (by simpa [PubPoly.threshold] using h)⟩
    obtain ⟨c, hc⟩ := hadd
      (PriPoly.commit E.suite.base ⟨secret :: fD.take (t - 1)⟩ (some E.suite.base))
      (PriPoly.commit E.suite.base ⟨g0 :: gs.take (t - 1)⟩ (some (deriveH E pubs))) (by
        simp only [PriPoly.commit, List.length_map, List.length_cons, List.length_take]; omega)
    simp only [newPriPoly, if_pos hf, if_pos (show t - 1 ≤ gs.length by omega), Res.unwrap_some,
      Res.bind_ok, hc, Res.mapErr_ok]
    exact ⟨_, rfl⟩

theorem newVerifier_ok (S : Suite F G) (xi : F) (dealer : G) (pubs : List G) (i : Nat)
    (hnd : pubs.Nodup) (hi : pubs[i]? = some (xi • S.base)) :
    newVerifier S xi dealer pubs = .ok
      { longterm := xi, pubb := xi • S.base, dealer := dealer, index := i, verifiers := pubs,
        hkdfContext := context S dealer pubs, aggregator := none } := by
  have hf : pubs.findIdx? (fun v => decide (v = xi • S.base)) = some i := by
    rw [List.findIdx?_eq_some_iff_getElem]
    obtain ⟨hl, he⟩ := List.getElem?_eq_some_iff.1 hi
    refine ⟨hl, by simpa using he, ?_⟩
    intro j hj
    simp only [decide_eq_true_eq]
    intro hje
    have := (List.Nodup.getElem_inj_iff hnd (hi := by omega) (hj := hl)).1 (hje.trans he.symm)
    omega
  unfold newVerifier
  simp only [hf]

theorem newVerifier_fields {S : Suite F G} {xi : F} {dealer : G} {pubs : List G}
    {v : Verifier F G} (h : newVerifier S xi dealer pubs = .ok v) :
    v.aggregator = none ∧ v.verifiers = pubs ∧ v.dealer = dealer ∧ v.longterm = xi ∧
    v.index < pubs.length ∧ pubs[v.index]? = some (xi • S.base) := by
  unfold newVerifier at h
  simp only at h
  split at h
  · cases h
  · rename_i i hi
    simp only [Res.ok.injEq] at h
    subst h
    rw [List.findIdx?_eq_some_iff_getElem] at hi
    obtain ⟨hl, he, -⟩ := hi
    simp only [decide_eq_true_eq] at he
    exact ⟨rfl, rfl, rfl, rfl, hl, by rw [List.getElem?_eq_getElem hl, he]⟩

/-- What the dealer encrypts, the intended verifier decrypts. -/
theorem decrypt_encrypted (E : Env F G) (hS : E.suite.Lawful) (hP : E.prims.Lawful)
    {d : Dealer F G} (hC : ∀ dl ∈ d.deals, E.codec.dec (E.codec.enc dl) = some dl)
    {i : Nat} {dh k : F}
    {e : EncryptedDeal G} {v : Verifier F G}
    (hpub : d.verifiers[i]? = some (v.longterm • E.suite.base))
    (hdealer : v.dealer = d.long • E.suite.base) (hctx : v.hkdfContext = d.hkdfContext)
    (hx : Usable E.suite (d.long • E.suite.base)) (hk : Usable E.suite (k • E.suite.base))
    (he : d.encryptedDeal E i dh k = .ok e) :
    ∃ deal, d.deals[i]? = some deal ∧ v.decryptDeal E e = .ok deal := by
  unfold Dealer.encryptedDeal at he
  simp only [findPub, hpub, Res.ofOption_some, Res.bind_ok, Res.bind_eq_ok, Res.mapErr_eq_ok,
    Res.unwrap_eq_ok, Res.ok.injEq] at he
  obtain ⟨gcm, hgcm, deal, hdeal, c, hc, rfl⟩ := he
  refine ⟨deal, hdeal, ?_⟩
  unfold Verifier.decryptDeal
  simp only
  rw [hdealer, Props.C11_sign_verify E.suite hS k d.long _ hk.1 hk.2 hx.1 hx.2]
  have hpre : Dh.dhExchange v.longterm (dh • E.suite.base) =
      Dh.dhExchange dh (v.longterm • E.suite.base) := by
    exact hS.base_lin.comm _ _
  rw [hpre, hctx, hgcm]
  simp only [Res.mapErr_ok, Res.bind_ok, List.length_replicate, ne_eq, not_true, if_false]
  unfold Dh.AEAD.seal_ Dh.aesEncrypt Dh.copyOut at hc
  simp only [Res.bind_eq_ok, Res.ite_err_eq_ok, Res.ofOption_eq_ok, Res.ok.injEq] at hc
  obtain ⟨c', ⟨hl, hc'⟩, rfl⟩ := hc
  unfold Dh.AEAD.open_ Dh.aesDecrypt Dh.copyOut
  rw [if_neg hl, hP.open_seal _ _ _ _ _ hc']
  simp [hC deal (List.mem_of_getElem? hdeal)]

end

section

variable [DistribSMul F G]

/-- The honest pair of shares passes the checks of `verify_deal`. -/
theorem checkDeal_honest {E : Env F G} (hB : Lin F E.suite.base) (hH : ∀ b, Lin F (E.pickFrom b)) {a : Aggregator F G} {f g : List F} (hf : f ≠ [])
    (hl : f.length = g.length)
    {sid : Bytes} {t i : Nat} (ht : validT t a.verifiers = true) (hsid : a.sid = sid)
    (hi : i < a.verifiers.length) :
    a.checkDeal E ⟨sid, (⟨f⟩ : PriPoly F).eval i, (⟨g⟩ : PriPoly F).eval i, t,
      commitsOf E.suite.base (deriveH E a.verifiers) f g⟩ = .ok () := by
  unfold Aggregator.checkDeal
  rw [if_neg (by simp [ht]), if_neg (by simp [hsid]), if_neg (by simp [PriPoly.eval]),
    if_neg (by show ¬ a.verifiers.length ≤ i; omega)]
  simp only
  have hne : commitsOf E.suite.base (deriveH E a.verifiers) f g ≠ [] := by
    rw [← List.length_pos_iff_ne_nil, length_commitsOf _ _ hl]
    exact List.length_pos_iff_ne_nil.2 hf
  rw [Props.C06_pub_eval, if_neg hne, pointVal_commitsOf hB (show Lin F (deriveH E a.verifiers) from hH _) hl, eval_v, eval_v]
  simp [PriPoly.eval]

end

section

variable [SMul F G]

/-- Processing valid, new approvals: all succeed and are stored. -/
theorem verifyResponses_run (S : Suite F G) (resp : Nat → Response) (l : List Nat)
    (a : Aggregator F G)
    (hsid : ∀ j ∈ l, (resp j).sessionId = a.sid)
    (hidx : ∀ j ∈ l, (resp j).index = j)
    (hver : ∀ j ∈ l, ∃ pub, a.verifiers[j]? = some pub ∧
      Schnorr.verify S pub ((resp j).hash S) (resp j).signature = .ok ())
    (hnew : ∀ j ∈ l, a.responses.get j = none) (hnd : l.Nodup) :
    let a' := l.foldl (fun a j => (a.verifyResponse S (resp j)).1) a
    a'.verifiers = a.verifiers ∧ a'.deal = a.deal ∧ a'.t = a.t ∧ a'.sid = a.sid ∧
    a'.badDealer = a.badDealer ∧ (a.responses.keys.Nodup → a'.responses.keys.Nodup) ∧
    (∀ j, a'.responses.get j = if j ∈ l then some (resp j) else a.responses.get j) ∧
    (∀ pre j post, l = pre ++ j :: post →
      ((pre.foldl (fun a j => (a.verifyResponse S (resp j)).1) a).verifyResponse S (resp j)).2
        = .ok ()) := by
  induction l generalizing a with
  | nil => simp
  | cons j l ih =>
    obtain ⟨pub, hp, hv⟩ := hver j (by simp)
    have hstep : a.verifyResponse S (resp j) =
        ({ a with responses := a.responses.insert j (resp j) }, .ok ()) := by
      unfold Aggregator.verifyResponse
      rw [if_neg (by intro h; exact h (hsid j (by simp))), hidx j (by simp)]
      simp only [findPub, hp, hv]
      unfold Aggregator.addResponse
      rw [hidx j (by simp)]
      simp [findPub, hp, hnew j (by simp)]
    have hjl : j ∉ l := (List.nodup_cons.1 hnd).1
    have := ih { a with responses := a.responses.insert j (resp j) }
      (fun i hi => hsid i (by simp [hi])) (fun i hi => hidx i (by simp [hi]))
      (fun i hi => hver i (by simp [hi]))
      (fun i hi => by
        show (a.responses.insert j (resp j)).get i = none
        rw [AMap.get_insert, if_neg (by rintro rfl; exact hjl hi)]
        exact hnew i (by simp [hi])) (List.nodup_cons.1 hnd).2
    obtain ⟨h1, h2, h3, h4, h5, h6, h7, h8⟩ := this
    simp only [List.foldl_cons, hstep]
    refine ⟨h1, h2, h3, h4, h5, fun h => h6 (AMap.nodup_insert h _ _), ?_, ?_⟩
    · intro i
      rw [h7 i]
      by_cases hi : i ∈ l
      · simp [hi]
      · rw [if_neg hi]
        show (a.responses.insert j (resp j)).get i = _
        rw [AMap.get_insert]
        by_cases hij : i = j
        · subst hij; simp
        · simp [hij, hi]
    · intro pre i post hl
      cases pre with
      | nil =>
        simp only [List.nil_append, List.cons.injEq] at hl
        obtain ⟨rfl, -⟩ := hl
        simp [hstep]
      | cons b pre =>
        simp only [List.cons_append, List.cons.injEq] at hl
        obtain ⟨rfl, hl⟩ := hl
        simp only [List.foldl_cons, hstep]
        exact h8 pre i post hl

/-- `deal_certified` on a well-formed aggregator. -/
theorem certified_iff {pubs : List G} {a : Aggregator F G} (h : Wf pubs a) :
    a.dealCertified = true ↔ a.badDealer = false ∧ missing a.responses pubs.length = ∅ ∧
      a.t ≤ (approvedBy a.responses pubs.length).card := by
  unfold Aggregator.dealCertified Aggregator.enoughApprovals
  rw [approvals_card h, h.verifiers]
  have hm : ((List.range pubs.length).filter (fun i => !a.responses.contains i)).length = 0 ↔
      missing a.responses pubs.length = ∅ := by
    rw [List.length_eq_zero_iff, List.filter_eq_nil_iff, missing, Finset.filter_eq_empty_iff]
    simp only [List.mem_range, Finset.mem_range, Bool.not_eq_true', Bool.not_eq_false]
    refine forall₂_congr fun i _ => ?_
    unfold AMap.contains
    rw [Option.isSome_iff_ne_none]
  simp only [Bool.and_eq_true, decide_eq_true_eq, Bool.not_eq_true', Bool.or_eq_false_iff,
    decide_eq_false_iff_not, not_lt, Nat.le_zero, hm]
  tauto

/-- All `n` approvals and nothing else: certified. -/
theorem certified_of_all {pubs : List G} {a : Aggregator F G} (h : Wf pubs a)
    (hbad : a.badDealer = false) (ht : a.t ≤ pubs.length)
    (hall : ∀ j < pubs.length, ∃ r, a.responses.get j = some r ∧ r.status = true) :
    a.dealCertified = true := by
  rw [certified_iff h]
  have h1 : approvedBy a.responses pubs.length = Finset.range pubs.length := by
    unfold approvedBy
    rw [Finset.filter_eq_self]
    intro j hj
    exact hall j (Finset.mem_range.1 hj)
  refine ⟨hbad, ?_, by rw [h1]; simpa using ht⟩
  unfold missing
  rw [Finset.filter_eq_empty_iff]
  intro j hj h
  obtain ⟨r, hr, -⟩ := hall j (Finset.mem_range.1 hj)
  rw [h] at hr; cases hr

theorem dealCertified_enough {a : Aggregator F G} (h : a.dealCertified = true) :
    a.enoughApprovals = true := by
  unfold Aggregator.dealCertified at h
  simp only [Bool.and_eq_true] at h
  exact h.1

end

end Kyber.VssR
