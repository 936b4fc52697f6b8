/-
Properties C22-C29 for the Pedersen VSS (`src/share/vss/pedersen/vss.rs`).
-/
import Verif.Lemmas.VssPedersenHonest
import Verif.Spec.ToyVss

set_option linter.unusedSectionVars false

namespace Kyber.Props

open Kyber Kyber.Poly Kyber.Spec Kyber.VssP

variable {F G : Type} [Field F] [AddCommGroup G] [DecidableEq G]

/-! ## C22: an honest dealer is approved by every verifier -/

section

variable [SMul F G]

/-- C22: an honest dealer's encrypted deal makes the intended verifier approve, with the dealer's
session id, its own index and a signature that verifies under its key. `dh`, `k`, `vk` are the
ephemeral key and the signature nonces. -/
theorem C22_honest_approval (E : Env F G) (hS : E.suite.Lawful) (hP : E.prims.Lawful)
    (x secret : F) (pubs : List G) (hnd : pubs.Nodup) (t : Nat) (draws : List F) (d : Dealer F G)
    (hd : newDealer E.suite x secret pubs t draws = .ok d)
    (hC : ∀ dl ∈ d.deals, E.codec.dec (E.codec.enc dl) = some dl)
    (hx : Usable E.suite (x • E.suite.base))
    (i : Nat) (xi : F) (hi : pubs[i]? = some (xi • E.suite.base))
    (dh k vk : F) (hk : Usable E.suite (k • E.suite.base))
    (e : EncryptedDeal G) (he : d.encryptedDeal E i dh k = .ok e) :
    ∃ v v' r, newVerifier E.suite xi (x • E.suite.base) pubs = .ok v ∧
      v.processEncryptedDeal E e vk = (v', .ok r) ∧
      r.status = true ∧ r.index = i ∧ r.sessionId = d.sessionId ∧
      v'.aggregator.deal = d.deals[i]? ∧ v'.aggregator.deal.isSome ∧
      v'.aggregator.sid = d.sessionId ∧ v'.aggregator.t = t ∧
      v'.aggregator.verifiers = pubs ∧ v'.aggregator.badDealer = false ∧
      v'.aggregator.timeout = false ∧
      (∀ j, v'.aggregator.responses.get j = if j = i then some r else none) ∧
      (Usable E.suite (vk • E.suite.base) → Usable E.suite (xi • E.suite.base) →
        Schnorr.verify E.suite (xi • E.suite.base) (r.hash E.suite) r.signature = .ok ()) := by
  obtain ⟨hv, -, h1, -, -, h4, -, h6, h7, h8, h9, h10, -⟩ := newDealer_ok hd
  have hil : i < pubs.length := (List.getElem?_eq_some_iff.1 hi).1
  have hnv := newVerifier_ok E.suite xi (x • E.suite.base) pubs i hnd hi
  set v : Verifier F G :=
    { longterm := xi, pubb := xi • E.suite.base, dealer := x • E.suite.base, index := i,
      verifiers := pubs, hkdfContext := context E.suite (x • E.suite.base) pubs,
      aggregator := newEmptyAggregator pubs } with hvdef
  obtain ⟨deal, hdeal, hdec⟩ := decrypt_encrypted E hS hP hC (v := v) (by rw [h4]; exact hi)
    (by rw [h1]) h9.symm (by rw [h1]; exact hx) hk he
  have hdeal' : deal = ⟨d.sessionId, d.secretPoly.eval i, t, d.secretCommits⟩ := by
    rw [h10, List.getElem?_map, List.getElem?_range hil] at hdeal
    simpa using hdeal.symm
  have hcheck : (v.aggregator.remember deal).checkDeal E.suite deal = .ok () := by
    have := checkDeal_honest (S := E.suite) hS.base_lin (a := v.aggregator.remember deal)
      (cs := secret :: draws.take (t - 1)) (by simp) (sid := d.sessionId) (t := t) (i := i)
      hv (by subst hdeal'; rfl) (by subst hdeal'; rfl) hil
    rw [← h6, ← h7] at this
    rw [hdeal'] at this ⊢
    exact this
  have hrep : ∃ r, mkReply E v deal vk true = r := ⟨_, rfl⟩
  obtain ⟨r, hr⟩ := hrep
  have hproc : v.processEncryptedDeal E e vk =
      ({ v with aggregator := { v.aggregator.remember deal with
          responses := [(i, r)] } }, .ok r) := by
    unfold Verifier.processEncryptedDeal
    rw [hdec]
    simp only
    rw [if_neg (by rw [hdeal']; simp [v, PriPoly.eval])]
    unfold Verifier.processDeal Aggregator.verifyDeal
    rw [if_neg (by simp [v, newEmptyAggregator])]
    simp only [hcheck]
    have hadd : (v.aggregator.remember deal).addResponse r =
        ({ v.aggregator.remember deal with responses := [(i, r)] }, .ok ()) := by
      have hri : r.index = i := by rw [← hr]; rfl
      unfold Aggregator.addResponse
      rw [hri, if_neg (by simpa [findPub, Aggregator.remember, v, newEmptyAggregator] using hil),
        if_neg (by simp [Aggregator.remember, v, newEmptyAggregator])]
      rfl
    have : (⟨VssP.sessionId E.suite v.dealer v.verifiers deal.commitments deal.t, v.index,
        statusApproval, Schnorr.sign E.suite vk v.longterm
          ((⟨VssP.sessionId E.suite v.dealer v.verifiers deal.commitments deal.t, v.index,
            statusApproval, []⟩ : Response).hash E.suite)⟩ : Response) = r := hr
    rw [this, hadd]
    rfl
  refine ⟨v, _, r, hnv, hproc, by rw [← hr]; rfl, by rw [← hr]; rfl, ?_, by rw [hdeal]; rfl, rfl,
    by rw [hdeal']; rfl, by rw [hdeal']; rfl, rfl, rfl, rfl, ?_, ?_⟩
  · rw [← hr, h8]
    show VssP.sessionId E.suite (x • E.suite.base) pubs deal.commitments deal.t = _
    rw [hdeal']
  · intro j
    show AMap.get [(i, r)] j = _
    rw [AMap.get_cons]
    rfl
  · intro hvk hxi
    have := C11_sign_verify E.suite hS vk xi (r.hash E.suite) hvk.1 hvk.2 hxi.1 hxi.2
    have hsig : r.signature = Schnorr.sign E.suite vk xi (r.hash E.suite) := by
      rw [← hr]; rfl
    rw [hsig]; exact this

/-- C22: `encrypted_deal` succeeds for every verifier index unless HKDF or AES-GCM fails. -/
theorem C22_encrypted_deal_ok (E : Env F G) (hP : E.prims.Lawful) (x secret : F) (pubs : List G)
    (t : Nat) (draws : List F) (d : Dealer F G)
    (hd : newDealer E.suite x secret pubs t draws = .ok d) (i : Nat) (hi : i < pubs.length)
    (hk : ∀ ikm info, (E.prims.hkdf ikm info 32).isSome)
    (hs : ∀ key nonce m aad, (E.prims.gcmSeal key nonce m aad).isSome) (dh k : F) :
    ∃ e, d.encryptedDeal E i dh k = .ok e := by
  obtain ⟨-, -, -, -, -, h4, -, -, -, -, -, h10, -⟩ := newDealer_ok hd
  have hp : d.verifiers[i]? = some pubs[i] := by rw [h4]; exact List.getElem?_eq_getElem hi
  have hdl : ∃ deal, d.deals[i]? = some deal := by
    rw [h10, List.getElem?_map, List.getElem?_range hi]; exact ⟨_, rfl⟩
  obtain ⟨deal, hdeal⟩ := hdl
  obtain ⟨key, hkey⟩ := Option.isSome_iff_exists.1
    (hk (E.suite.encG (Dh.dhExchange dh pubs[i])) d.hkdfContext)
  obtain ⟨c, hc⟩ := Option.isSome_iff_exists.1 (hs key (List.replicate Dh.nonceSize 0)
    (E.codec.enc deal) d.hkdfContext)
  unfold Dealer.encryptedDeal
  simp only [findPub, hp, Res.ofOption_some, Res.bind_ok, Dh.AEAD.new_ok hP hkey, Res.mapErr_ok,
    hdeal, Res.unwrap_some, Dh.AEAD.seal_, Dh.aesEncrypt, Dh.copyOut]
  rw [if_neg (by simpa using hP.hkdf_length _ _ _ _ hkey)]
  simp [hc]

/-- C22: `new_dealer` succeeds exactly for a valid threshold `2 ≤ t ≤ n` (given enough random
coefficients, and `n` below 2^32). -/
theorem C22_new_dealer_ok (S : Suite F G) (x secret : F) (pubs : List G) (t : Nat) (draws : List F)
    (hdr : t - 1 ≤ draws.length) (hn : pubs.length < 2 ^ 32) :
    (∃ d, newDealer S x secret pubs t draws = .ok d) ↔ 2 ≤ t ∧ t ≤ pubs.length := by
  unfold newDealer validT
  by_cases h : 2 ≤ t ∧ t ≤ pubs.length
  · have : t % 4294967296 = t := Nat.mod_eq_of_lt (by omega)
    simp [h, this, newPriPoly, hdr]
  · simp only [h, iff_false, not_exists]
    intro d
    rw [if_pos (by rw [← Bool.not_eq_true]; simp; omega)]
    simp

/-- C22: the whole honest run. Every verifier approves; whatever the order in which a verifier
receives the other responses, every call succeeds and its deal ends up certified; the same for
the dealer, in any order, who then gives out the commitment of the secret. -/
theorem C22_honest_run (E : Env F G) (hS : E.suite.Lawful) (hP : E.prims.Lawful)
    (x secret : F) (xs : List F) (hnd : (xs.map (· • E.suite.base)).Nodup) (t : Nat) (draws : List F)
    (d : Dealer F G)
    (hd : newDealer E.suite x secret (xs.map (· • E.suite.base)) t draws = .ok d)
    (hC : ∀ dl ∈ d.deals, E.codec.dec (E.codec.enc dl) = some dl)
    (hx : Usable E.suite (x • E.suite.base))
    (hxs : ∀ xi ∈ xs, Usable E.suite (xi • E.suite.base))
    (dh k vk : Nat → F)
    (hk : ∀ i, Usable E.suite (k i • E.suite.base)) (hvk : ∀ i, Usable E.suite (vk i • E.suite.base))
    (e : Nat → EncryptedDeal G) (he : ∀ i < xs.length, d.encryptedDeal E i (dh i) (k i) = .ok (e i)) :
    ∃ (v : Nat → Verifier F G) (resp : Nat → Response),
      (∀ i (hi : i < xs.length), ∃ v0,
        newVerifier E.suite xs[i] (x • E.suite.base) (xs.map (· • E.suite.base)) = .ok v0 ∧
        v0.processEncryptedDeal E (e i) (vk i) = (v i, .ok (resp i)) ∧ (resp i).status = true ∧
        (resp i).index = i ∧ (resp i).sessionId = d.sessionId) ∧
      (∀ i < xs.length, ∀ order : List Nat, (i :: order).Perm (List.range xs.length) →
        (∀ pre j post, order = pre ++ j :: post →
          ((pre.foldl (fun v j => (v.processResponse E.suite (resp j)).1) (v i)).processResponse
            E.suite (resp j)).2 = .ok ()) ∧
        (order.foldl (fun v j => (v.processResponse E.suite (resp j)).1) (v i)).deal = d.deals[i]? ∧
        d.deals[i]?.isSome) ∧
      (∀ (order : List Nat) (dk : F), order.Perm (List.range xs.length) →
        (∀ pre j post, order = pre ++ j :: post →
          ((pre.foldl (fun d j => (d.processResponse E (resp j) dk).1) d).processResponse
            E (resp j) dk).2 = .ok none) ∧
        (order.foldl (fun d j => (d.processResponse E (resp j) dk).1) d).secretCommit E.suite =
          some (secret • E.suite.base)) := by
  have happ : ∀ i, ∃ (v' : Verifier F G) (r : Response), ∀ (hi : i < xs.length), ∃ v,
      newVerifier E.suite xs[i] (x • E.suite.base) (xs.map (· • E.suite.base)) = .ok v ∧
      v.processEncryptedDeal E (e i) (vk i) = (v', .ok r) ∧
      r.status = true ∧ r.index = i ∧ r.sessionId = d.sessionId ∧
      v'.aggregator.deal = d.deals[i]? ∧ v'.aggregator.deal.isSome ∧
      v'.aggregator.sid = d.sessionId ∧ v'.aggregator.t = t ∧
      v'.aggregator.verifiers = xs.map (· • E.suite.base) ∧ v'.aggregator.badDealer = false ∧
      v'.aggregator.timeout = false ∧
      (∀ j, v'.aggregator.responses.get j = if j = i then some r else none) ∧
      Schnorr.verify E.suite (xs[i] • E.suite.base) (r.hash E.suite) r.signature = .ok () := by
    intro i
    by_cases hi : i < xs.length
    · obtain ⟨v, v', r, h1, h2, h3, h4, h5, h6, h7, h8, h9, h10, h11, h12, h13, h14⟩ :=
        C22_honest_approval E hS hP x secret _ hnd t draws d hd hC hx i xs[i]
          (by rw [List.getElem?_map, List.getElem?_eq_getElem hi]; rfl) (dh i) (k i) (vk i) (hk i)
          (e i) (he i hi)
      exact ⟨v', r, fun _ => ⟨v, h1, h2, h3, h4, h5, h6, h7, h8, h9, h10, h11, h12, h13,
        h14 (hvk i) (hxs _ (List.getElem_mem hi))⟩⟩
    · exact ⟨⟨0, 0, 0, 0, [], [], newEmptyAggregator []⟩, ⟨[], 0, true, []⟩, fun h => absurd h hi⟩
  choose v resp hvr using happ
  obtain ⟨hvt, -, -, -, hsec, -, -, -, -, -, -, hdeals, hagg⟩ := newDealer_ok hd
  have htn : t ≤ xs.length := by
    simp only [validT, Bool.and_eq_true, decide_eq_true_eq, List.length_map] at hvt
    exact hvt.1.2
  have hver : ∀ j < xs.length, ∃ pub, (xs.map (· • E.suite.base))[j]? = some pub ∧
      Schnorr.verify E.suite pub ((resp j).hash E.suite) (resp j).signature = .ok () := by
    intro j hj
    obtain ⟨_, -, -, -, -, -, -, -, -, -, -, -, -, -, h14⟩ := hvr j hj
    exact ⟨_, by rw [List.getElem?_map, List.getElem?_eq_getElem hj]; rfl, h14⟩
  refine ⟨v, resp, ?_, ?_, ?_⟩
  · intro i hi
    obtain ⟨v0, h1, h2, h3, h4, h5, -⟩ := hvr i hi
    exact ⟨v0, h1, h2, h3, h4, h5⟩
  · intro i hi order hperm
    obtain ⟨v0, h1, h2, h3, h4, h5, h6, h7, h8, h9, h10, h11, h12, h13, h14⟩ := hvr i hi
    have hmem : ∀ j ∈ order, j < xs.length := fun j hj =>
      List.mem_range.1 (hperm.subset (List.mem_cons_of_mem _ hj))
    have hnd' : (i :: order).Nodup := hperm.nodup_iff.2 List.nodup_range
    have hio : i ∉ order := (List.nodup_cons.1 hnd').1
    have hrun := verifyResponses_run E.suite resp order (v i).aggregator
      (fun j hj => by rw [h8]; exact (hvr j (hmem j hj)).choose_spec.2.2.2.2.1)
      (fun j hj => (hvr j (hmem j hj)).choose_spec.2.2.2.1)
      (fun j hj => by rw [h10]; exact hver j (hmem j hj))
      (fun j hj => by rw [h13, if_neg (by rintro rfl; exact hio hj)])
      (List.nodup_cons.1 hnd').2
    have hfold : ∀ (l : List Nat) (w : Verifier F G),
        (l.foldl (fun v j => (v.processResponse E.suite (resp j)).1) w).aggregator =
          l.foldl (fun a j => (a.verifyResponse E.suite (resp j)).1) w.aggregator := by
      intro l
      induction l with
      | nil => intro w; rfl
      | cons j l ih => intro w; exact ih _
    obtain ⟨g1, g2, g3, g4, g5, g6, g7, g8⟩ := hrun
    refine ⟨?_, ?_, by rw [← h6]; exact h7⟩
    · intro pre j post hl
      have := g8 pre j post hl
      rw [← hfold] at this
      exact this
    · unfold Verifier.deal
      rw [hfold]
      have hcert : (order.foldl (fun a j => (a.verifyResponse E.suite (resp j)).1)
          (v i).aggregator).dealCertified = true := by
        apply certified_of_all
        · rw [g5]; exact h11
        · rw [g3, g1, h9, h10]; simpa using htn
        · intro j hj
          rw [g1, h10, List.length_map] at hj
          rw [g7]
          by_cases hjo : j ∈ order
          · exact ⟨resp j, by rw [if_pos hjo], (hvr j hj).choose_spec.2.2.1⟩
          · rw [if_neg hjo, h13]
            have hji : j = i := by
              have := hperm.symm.subset (List.mem_range.2 hj)
              rcases List.mem_cons.1 this with h | h
              · exact h
              · exact absurd h hjo
            exact ⟨resp i, by rw [if_pos hji], h3⟩
      rw [hcert, if_neg (by simp), g2, h6]
  · intro order dk hperm
    have hmem : ∀ j ∈ order, j < xs.length := fun j hj => List.mem_range.1 (hperm.subset hj)
    have hnd' : order.Nodup := hperm.nodup_iff.2 List.nodup_range
    have hrun := verifyResponses_run E.suite resp order d.aggregator
      (fun j hj => by rw [hagg]; exact (hvr j (hmem j hj)).choose_spec.2.2.2.2.1)
      (fun j hj => (hvr j (hmem j hj)).choose_spec.2.2.2.1)
      (fun j hj => by rw [hagg]; exact hver j (hmem j hj))
      (fun j hj => by rw [hagg]; rfl) hnd'
    obtain ⟨g1, g2, g3, g4, g5, g6, g7, g8⟩ := hrun
    have hfst : ∀ (w : Dealer F G) (j : Nat),
        (w.processResponse E (resp j) dk).1 =
          { w with aggregator := (w.aggregator.verifyResponse E.suite (resp j)).1 } := by
      intro w j
      unfold Dealer.processResponse
      simp only
      split
      · rfl
      · rfl
      · split
        · rfl
        · split <;> rfl
    have hfold : ∀ (l : List Nat) (w : Dealer F G),
        (l.foldl (fun d j => (d.processResponse E (resp j) dk).1) w) =
          { w with aggregator := l.foldl (fun a j => (a.verifyResponse E.suite (resp j)).1) w.aggregator } := by
      intro l
      induction l with
      | nil => intro w; rfl
      | cons j l ih => intro w; rw [List.foldl_cons, ih, hfst]; rfl
    constructor
    · intro pre j post hl
      have := g8 pre j post hl
      rw [hfold]
      unfold Dealer.processResponse
      simp only [this]
      rw [if_pos (show (resp j).status = statusApproval from
        (hvr j (hmem j (by rw [hl]; simp))).choose_spec.2.2.1)]
    · rw [hfold]
      unfold Dealer.secretCommit
      have hcert : (order.foldl (fun a j => (a.verifyResponse E.suite (resp j)).1)
          d.aggregator).dealCertified = true := by
        apply certified_of_all
        · rw [g5, hagg]; rfl
        · rw [g3, g1, hagg]
          show t ≤ (xs.map (· • E.suite.base)).length
          simpa using htn
        · intro j hj
          have hj' : j < xs.length := by
            rw [g1, hagg] at hj
            have : j < (xs.map (· • E.suite.base)).length := hj
            simpa using this
          rw [g7, if_pos (hperm.symm.subset (List.mem_range.2 hj'))]
          exact ⟨resp j, rfl, (hvr j hj').choose_spec.2.2.1⟩
      simp only [hcert, hsec]
      simp

/-- C22: any selection of deals of an honest dealer with at least `t` different indices, in any
order, recovers the secret. -/
theorem C22_recover (q : Nat) [CharP F q] (ord : MapOrder) (S : Suite F G) (x secret : F)
    (pubs : List G) (hn : pubs.length ≤ q) (t : Nat) (draws : List F) (d : Dealer F G)
    (hd : newDealer S x secret pubs t draws = .ok d) (sel : List (Deal F G))
    (hsel : ∀ deal ∈ sel, deal ∈ d.deals)
    (hcount : t ≤ (sel.map (fun deal => deal.secShare.i)).toFinset.card) :
    VssP.recoverSecret ord sel t = .ok secret := by
  obtain ⟨hvt, hdr, -, -, -, -, -, h6, h7, -, -, h10, -⟩ := newDealer_ok hd
  have ht2 : 2 ≤ t := by
    simp only [validT, Bool.and_eq_true, decide_eq_true_eq] at hvt; exact hvt.1.1
  have hform : ∀ deal ∈ sel, ∃ i < pubs.length, deal.secShare = d.secretPoly.eval i ∧
      deal.sessionId = d.sessionId := by
    intro deal hdl
    have := hsel deal hdl
    rw [h10, List.mem_map] at this
    obtain ⟨i, hi, rfl⟩ := this
    exact ⟨i, List.mem_range.1 hi, rfl, rfl⟩
  cases sel with
  | nil => simp at hcount; omega
  | cons d0 rest =>
    unfold VssP.recoverSecret
    simp only
    rw [if_pos]
    · rw [C01_recover_secret q ord secret (draws.take (t - 1))]
      · rfl
      · intro s hs
        simp only [List.mem_map, Option.some.injEq] at hs
        obtain ⟨deal, hdl, rfl⟩ := hs
        obtain ⟨i, hi, he, -⟩ := hform deal hdl
        rw [he, h6, C01_eval_genuine]
      · intro i hi
        obtain ⟨s, hs, rfl⟩ := mem_indices.1 hi
        simp only [List.mem_map, Option.some.injEq] at hs
        obtain ⟨deal, hdl, rfl⟩ := hs
        obtain ⟨i, hi, he, -⟩ := hform deal hdl
        rw [he]; show i < q; omega
      · simp only [List.length_cons, List.length_take]; omega
      · refine hcount.trans (le_of_eq ?_)
        congr 1
        exact (indices_map_some _ _).symm
    · rw [List.all_eq_true]
      intro deal hdl
      obtain ⟨_, _, -, h1⟩ := hform deal hdl
      obtain ⟨_, _, -, h2⟩ := hform d0 (by simp)
      simp [h1, h2]

/-! ## C23: certification rule -/

/-- C23: `deal_certified` holds exactly when the dealer was not caught, at least `t` verifiers
have a stored approval, nobody has a stored complaint, and before the timeout nobody is missing,
after it at most `n - t` verifiers are missing. This holds in every state whatsoever. -/
theorem C23_certified_iff (a : Aggregator F G) :
    a.dealCertified = true ↔
      a.badDealer = false ∧ a.t ≤ (approvedBy a.responses a.verifiers.length).card ∧
      complainedBy a.responses a.verifiers.length = ∅ ∧
      (if a.timeout then (missing a.responses a.verifiers.length).card + a.t ≤ a.verifiers.length
        else missing a.responses a.verifiers.length = ∅) := by
  have hp := partition_card a.responses a.verifiers.length
  unfold Aggregator.dealCertified
  simp only [count_range]
  cases htm : a.timeout
  · simp only [Bool.false_eq_true, if_false, Bool.and_eq_true, Bool.not_eq_true',
      decide_eq_true_eq, decide_eq_false_iff_not, not_not, Finset.card_eq_zero]
    tauto
  · simp only [if_true, Bool.and_eq_true, Bool.not_eq_true', decide_eq_true_eq,
      decide_eq_false_iff_not, not_not, Bool.and_eq_false_iff]
    constructor
    · rintro ⟨⟨⟨h1, h2⟩, h3⟩, h4⟩
      refine ⟨h1, h2, h3, ?_⟩
      rw [h3] at hp
      simp only [Finset.card_empty] at hp
      omega
    · rintro ⟨h1, h2, h3, h4⟩
      refine ⟨⟨⟨h1, h2⟩, h3⟩, ?_⟩
      right; omega

/-- C23: approvals, complaints and missing verifiers partition the `n` verifiers, so a certified
deal has at least `t` approvals out of `n`, in particular `t ≤ n`. -/
theorem C23_certified_threshold (a : Aggregator F G) (h : a.dealCertified = true) :
    a.t ≤ a.verifiers.length := by
  have hp := partition_card a.responses a.verifiers.length
  have := (C23_certified_iff a).1 h
  omega

/-- C23: `missing_responses` lists exactly the indices without a response, in order. -/
theorem C23_missing_responses (a : Aggregator F G) (i : Nat) :
    i ∈ a.missingResponses ↔ i ∈ missing a.responses a.verifiers.length := by
  simp [Aggregator.missingResponses, missing]

/-- C23: without complaints the timeout can only help: what is certified before is certified
after. -/
theorem C23_timeout_monotone (a : Aggregator F G) (h : a.dealCertified = true) :
    a.setTimeout.dealCertified = true := by
  have ht := C23_certified_threshold a h
  rw [C23_certified_iff] at h ⊢
  obtain ⟨h1, h2, h3, h4⟩ := h
  refine ⟨h1, h2, h3, ?_⟩
  show (missing a.responses a.verifiers.length).card + a.t ≤ a.verifiers.length
  cases htm : a.timeout
  · rw [htm] at h4
    simp only [Bool.false_eq_true, if_false] at h4
    rw [h4]; simpa using ht
  · rw [htm] at h4; simpa using h4

/-! ## C24: approved shares lie on the committed polynomial -/

/-- C24: a verifier approves only a deal for its own index, with a valid threshold, whose share
value times the base point is the committed polynomial evaluated at its index; and this deal is
the one it keeps. -/
theorem C24_approved_deal (E : Env F G) (v v' : Verifier F G) (e : EncryptedDeal G) (k : F)
    (r : Response) (h : v.processEncryptedDeal E e k = (v', .ok r)) (hr : r.status = true) :
    ∃ d, v.decryptDeal E e = .ok d ∧ v'.aggregator.deal = some d ∧
      d.secShare.i = v.index ∧ v.index < v.aggregator.verifiers.length ∧
      2 ≤ d.t ∧ d.t ≤ v.aggregator.verifiers.length ∧ v'.aggregator.t = d.t ∧
      d.commitments ≠ [] ∧
      d.secShare.v • E.suite.base = pointVal d.commitments ((v.index + 1 : Nat) : F) := by
  rcases processEncryptedDeal_cases E v e k with
    (⟨_, h'⟩ | h') | ⟨d, hd, hi, hn, ⟨-, h'⟩ | ⟨st, hst, h1, h2⟩⟩
  · rw [h'] at h; cases h
  · rw [h'] at h; cases h
  · rw [h'] at h; cases h
  · rw [h] at h1 h2
    simp only at h1 h2
    rcases addResponse_cases (v.aggregator.remember d) (mkReply E v d k st) with ⟨e', ha⟩ | ⟨hl, -, ha⟩
    · rw [ha] at h2; cases h2
    · rw [ha] at h1 h2
      simp only [Res.bind_ok, Res.ok.injEq] at h2
      have hst' : st = true := by rw [h2] at hr; exact hr
      have hc := hst.2 hst'
      have hrem : v.aggregator.remember d = { v.aggregator with
          commits := d.commitments, sid := d.sessionId, deal := some d, t := d.t } := by
        unfold Aggregator.remember; rw [hn]
      refine ⟨d, hd, ?_, hi, ?_, ?_⟩
      · rw [h1, hrem]
      · rw [hrem] at hl; exact hl
      · unfold Aggregator.checkDeal at hc
        simp only [hrem, Res.ite_err_eq_ok, Res.bind_eq_ok, Res.mapErr_eq_ok, C06_pub_eval,
          Res.ite_panic_eq_ok, validT, Bool.not_eq_false, Bool.and_eq_true, decide_eq_true_eq,
          Res.ok.injEq, not_not, ne_eq] at hc
        obtain ⟨⟨⟨ht2, htn⟩, -⟩, -, -, -, s, ⟨hne, rfl⟩, heq, -⟩ := hc
        refine ⟨ht2, htn, by rw [h1, hrem], hne, ?_⟩
        rw [heq, hi]

end

section

variable [Module F G]

/-- C24: deals lying on the same `t` (or fewer) commitments: any `t` of them recover a secret
committed to by the first commitment, and any two selections recover the same secret. -/
theorem C24_recover_committed (q : Nat) [CharP F q] (ord ord' : MapOrder) (S : Suite F G)
    (hB : ∀ s : F, s • S.base = 0 → s = 0) (Cs : List G) (t : Nat) (hCs : Cs.length ≤ t) (sid : Bytes)
    (deals deals' : List (Deal F G))
    (hd : ∀ d ∈ deals ++ deals', d.sessionId = sid ∧ d.secShare.i < q ∧
      d.secShare.v • S.base = pointVal Cs ((d.secShare.i + 1 : Nat) : F))
    (hc : t ≤ (deals.map (fun d => d.secShare.i)).toFinset.card)
    (hc' : t ≤ (deals'.map (fun d => d.secShare.i)).toFinset.card) :
    ∃ s, VssP.recoverSecret ord deals t = .ok s ∧ VssP.recoverSecret ord' deals' t = .ok s ∧
      s • S.base = Cs.getD 0 0 := by
  have key : ∀ (o : MapOrder) (ds : List (Deal F G)),
      (∀ d ∈ ds, d.sessionId = sid ∧ d.secShare.i < q ∧
        d.secShare.v • S.base = pointVal Cs ((d.secShare.i + 1 : Nat) : F)) →
      t ≤ (ds.map (fun d => d.secShare.i)).toFinset.card →
      ∃ s, VssP.recoverSecret o ds t = .ok s ∧ s • S.base = Cs.getD 0 0 := by
    intro o ds hds hcd
    have hidx : indices (ds.map (fun d => some d.secShare)) =
        (ds.map (fun d => d.secShare.i)).toFinset := indices_map_some _ _
    obtain ⟨s, h1, h2⟩ := recoverSecret_committed q o (ds.map (fun d => some d.secShare)) t Cs S.base
      (by
        intro s hs
        simp only [List.mem_map, Option.some.injEq] at hs
        obtain ⟨d, hdm, rfl⟩ := hs
        exact (hds d hdm).2.2)
      (by
        intro i hi
        obtain ⟨s, hs, rfl⟩ := mem_indices.1 hi
        simp only [List.mem_map, Option.some.injEq] at hs
        obtain ⟨d, hdm, rfl⟩ := hs
        exact (hds d hdm).2.1)
      hCs (by rw [hidx]; exact hcd)
    refine ⟨s, ?_, h2⟩
    cases ds with
    | nil =>
      simp only [List.map_nil] at h1
      unfold VssP.recoverSecret
      simp [h1]
    | cons d0 rest =>
      unfold VssP.recoverSecret
      simp only
      rw [if_pos, h1]
      · rfl
      · rw [List.all_eq_true]
        intro d hdm
        simp [(hds d hdm).1, (hds d0 (by simp)).1]
  obtain ⟨s, h1, h2⟩ := key ord deals (fun d h => hd d (by simp [h])) hc
  obtain ⟨s', h1', h2'⟩ := key ord' deals' (fun d h => hd d (by simp [h])) hc'
  have : s = s' := Schnorr.smul_base_inj (Lin.of_module _) hB (h2.trans h2'.symm)
  subst this
  exact ⟨s, h1, h1', h2⟩

/-! ## C25: one deal, one response per verifier -/

end

section

variable [SMul F G]

/-- C25: whatever calls follow, a stored response is never changed or removed. -/
theorem C25_response_kept (E : Env F G) (v : Verifier F G) (cs : List (VCall F G)) (i : Nat)
    (r : Response) (h : v.aggregator.responses.get i = some r) :
    (vRun E v cs).aggregator.responses.get i = some r := (vRun_ext E v cs).responses i r h

/-- C25: whatever calls follow, the first stored deal is never replaced. -/
theorem C25_deal_kept (E : Env F G) (v : Verifier F G) (cs : List (VCall F G)) (d : Deal F G)
    (h : v.aggregator.deal = some d) : (vRun E v cs).aggregator.deal = some d :=
  (vRun_ext E v cs).deal d h

/-- C25: once a deal is stored every further encrypted deal is refused without any effect. -/
theorem C25_second_deal_refused (E : Env F G) (v : Verifier F G) (d : Deal F G)
    (h : v.aggregator.deal = some d) (e : EncryptedDeal G) (k : F) :
    (v.processEncryptedDeal E e k).1 = v ∧ ∀ r, (v.processEncryptedDeal E e k).2 ≠ .ok r := by
  rcases processEncryptedDeal_cases E v e k with (⟨_, h'⟩ | h') | ⟨_, -, -, hn, -⟩
  · rw [h']; exact ⟨rfl, by simp⟩
  · rw [h']; exact ⟨rfl, by simp⟩
  · rw [h] at hn; cases hn

/-- C25: if the second deal decrypts and is meant for this verifier the error says so. -/
theorem C25_second_deal_error (E : Env F G) (v : Verifier F G) (d d' : Deal F G)
    (h : v.aggregator.deal = some d) (e : EncryptedDeal G) (k : F)
    (hd : v.decryptDeal E e = .ok d') (hi : d'.secShare.i = v.index) :
    (v.processEncryptedDeal E e k).2 = .err .dealAlreadyProcessed := by
  unfold Verifier.processEncryptedDeal
  rw [hd]
  simp only [hi, ne_eq, not_true, if_false]
  unfold Verifier.processDeal Aggregator.verifyDeal
  simp [h]

/-- C25: after any history from a fresh verifier, every stored response is stored under its own
index, which is below `n`. -/
theorem C25_indices (E : Env F G) (x : F) (dealer : G) (pubs : List G) (v : Verifier F G)
    (hv : newVerifier E.suite x dealer pubs = .ok v) (cs : List (VCall F G)) (i : Nat) (r : Response)
    (h : (vRun E v cs).aggregator.responses.get i = some r) : r.index = i ∧ i < pubs.length := by
  have hempty : v.aggregator = newEmptyAggregator pubs := by
    unfold newVerifier at hv
    simp only at hv
    split at hv
    · cases hv
    · cases hv; rfl
  refine stored_inv (fun i r => r.index = i ∧ i < pubs.length) E v cs ?_ ?_ i r h
  · intro i r h; rw [hempty] at h; simp [newEmptyAggregator] at h
  · intro pre c post _ i r hn hs
    obtain ⟨h1, h2, -⟩ := vStep_new E _ c i r hn hs
    refine ⟨h1, ?_⟩
    rw [(vRun_ext E v pre).verifiers, hempty] at h2
    exact h2

/-- C25: a second response for the same index is refused by `process_response`. -/
theorem C25_second_response_refused (S : Suite F G) (v : Verifier F G) (r r' : Response)
    (h : v.aggregator.responses.get r.index = some r') :
    (v.processResponse S r).1 = v ∧ (v.processResponse S r).2 ≠ .ok () := by
  unfold Verifier.processResponse
  rcases verifyResponse_cases S v.aggregator r with ⟨e, h'⟩ | h' | ⟨_, -, -, -, h'⟩
  · rw [h']; exact ⟨rfl, by simp⟩
  · rw [h']; exact ⟨rfl, by simp⟩
  · rcases addResponse_cases v.aggregator r with ⟨e, ha⟩ | ⟨-, hn, -⟩
    · rw [h', ha]; exact ⟨rfl, by simp⟩
    · rw [h] at hn; cases hn

/-! ## C26: responses are authenticated -/

/-- C26: after any history of protocol messages on a fresh verifier, every stored response either
is the verifier's own reply to its deal, or was received by `process_response` and carries a
signature valid under the public key at its index. -/
theorem C26_authenticated (E : Env F G) (x : F) (dealer : G) (pubs : List G) (v : Verifier F G)
    (hv : newVerifier E.suite x dealer pubs = .ok v) (cs : List (VCall F G))
    (hcs : ∀ c ∈ cs, c.fromNetwork = true) (i : Nat) (r : Response)
    (h : (vRun E v cs).aggregator.responses.get i = some r) :
    (i = v.index ∧ ∃ k, r.signature = Schnorr.sign E.suite k x (r.hash E.suite)) ∨
    (VCall.response r ∈ cs ∧ ∃ pub, pubs[i]? = some pub ∧
      Schnorr.verify E.suite pub (r.hash E.suite) r.signature = .ok ()) := by
  have hfresh : v.aggregator = newEmptyAggregator pubs ∧ v.longterm = x := by
    unfold newVerifier at hv
    simp only at hv
    split at hv
    · cases hv
    · cases hv; exact ⟨rfl, rfl⟩
  refine stored_inv (fun i r => (i = v.index ∧ ∃ k, r.signature =
      Schnorr.sign E.suite k x (r.hash E.suite)) ∨ (VCall.response r ∈ cs ∧ ∃ pub, pubs[i]? = some pub ∧
      Schnorr.verify E.suite pub (r.hash E.suite) r.signature = .ok ())) E v cs ?_ ?_ i r h
  · intro i r h; rw [hfresh.1] at h; simp [newEmptyAggregator] at h
  · intro pre c post hsplit i r hn hs
    have hid : ∀ pre : List (VCall F G), (vRun E v pre).index = v.index ∧
        (vRun E v pre).longterm = v.longterm := by
      intro pre
      induction pre using List.reverseRecOn with
      | nil => exact ⟨rfl, rfl⟩
      | append_singleton p c ih =>
        have h1 := vStep_ident E (vRun E v p) c
        have : vRun E v (p ++ [c]) = vStep E (vRun E v p) c := by simp [vRun]
        rw [this, h1.2.2.1, h1.2.2.2]; exact ih
    obtain ⟨-, -, h3⟩ := vStep_new E _ c i r hn hs
    rcases h3 with ⟨e, k, d, -, -, hi, -, -, hr, -⟩ | ⟨hc, -, pub, hp, hver⟩ | hc | ⟨b, hc⟩
    · left
      refine ⟨by rw [hi, (hid pre).1], k, ?_⟩
      rw [hr, show x = (vRun E v pre).longterm from by rw [(hid pre).2, hfresh.2]]
      rfl
    · right
      refine ⟨by rw [hsplit, hc]; simp, pub, ?_, hver⟩
      rw [(vRun_ext E v pre).verifiers, hfresh.1] at hp
      exact hp
    · have := hcs c (by rw [hsplit]; simp)
      rw [hc] at this; cases this
    · have := hcs c (by rw [hsplit]; simp)
      rw [hc] at this; cases this

/-- C26: exactly when `process_response` accepts. -/
theorem C26_accepts_iff (S : Suite F G) (v : Verifier F G) (r : Response) :
    (v.processResponse S r).2 = .ok () ↔
      (v.aggregator.sid ≠ [] → r.sessionId = v.aggregator.sid) ∧
      (∃ pub, v.aggregator.verifiers[r.index]? = some pub ∧
        Schnorr.verify S pub (r.hash S) r.signature = .ok ()) ∧
      v.aggregator.responses.get r.index = none := by
  unfold Verifier.processResponse
  constructor
  · intro h
    rcases verifyResponse_cases S v.aggregator r with ⟨e, h'⟩ | h' | ⟨pub, h1, h2, h3, h'⟩
    · rw [h'] at h; cases h
    · rw [h'] at h; cases h
    · refine ⟨h1, ⟨pub, h2, h3⟩, ?_⟩
      rw [h'] at h
      rcases addResponse_cases v.aggregator r with ⟨e, ha⟩ | ⟨-, hn, -⟩
      · rw [ha] at h; cases h
      · exact hn
  · rintro ⟨h1, ⟨pub, h2, h3⟩, h4⟩
    simp only
    unfold Aggregator.verifyResponse
    rw [if_neg (by rintro ⟨a, b⟩; exact b (h1 a))]
    simp only [findPub, h2, h3]
    unfold Aggregator.addResponse
    simp [findPub, h2, h4]

/-- C26: a refused response leaves the verifier unchanged; an accepted one changes nothing but
the stored response. -/
theorem C26_effect (S : Suite F G) (v : Verifier F G) (r : Response) :
    ((v.processResponse S r).2 ≠ .ok () → (v.processResponse S r).1 = v) ∧
    ((v.processResponse S r).2 = .ok () → (v.processResponse S r).1 =
      { v with aggregator := { v.aggregator with
          responses := v.aggregator.responses.insert r.index r } }) := by
  unfold Verifier.processResponse
  rcases verifyResponse_cases S v.aggregator r with ⟨e, h'⟩ | h' | ⟨pub, -, -, -, h'⟩
  · rw [h']; simp
  · rw [h']; simp
  · rcases addResponse_cases v.aggregator r with ⟨e, ha⟩ | ⟨-, -, ha⟩
    · rw [h', ha]; simp
    · rw [h', ha]; simp

/-! ## C27: a justified complaint should become an approval -/

/-- C27, the intended property: after an accepted justification the complaint is an approval.
`v` is any verifier reachable by protocol messages. -/
def C27_statement : Prop :=
  ∀ (F G : Type) (_ : Field F) (_ : AddCommGroup G) (_ : Module F G) (_ : DecidableEq G)
    (E : Env F G) (x : F) (dealer : G) (pubs : List G) (v0 : Verifier F G)
    (_ : newVerifier E.suite x dealer pubs = .ok v0) (cs : List (VCall F G))
    (_ : ∀ c ∈ cs, c.fromNetwork = true) (j : Justification F G),
    ((vRun E v0 cs).processJustification E.suite j).2 = .ok () →
    ∃ r, ((vRun E v0 cs).processJustification E.suite j).1.aggregator.responses.get j.index =
      some r ∧ r.status = true

/-- What happens instead: a justification, accepted or not, changes no stored response. -/
theorem C27_responses_unchanged_partial (S : Suite F G) (v : Verifier F G) (j : Justification F G) :
    (v.processJustification S j).1.aggregator.responses = v.aggregator.responses :=
  verifyJustification_responses S v.aggregator j

/-- What happens instead: once a complaint is stored the deal is never certified, whatever calls
follow. -/
theorem C27_complaint_is_permanent_partial (E : Env F G) (v : Verifier F G) (i : Nat) (r : Response)
    (hi : i < v.aggregator.verifiers.length) (h : v.aggregator.responses.get i = some r)
    (hr : r.status = false) (cs : List (VCall F G)) :
    (vRun E v cs).aggregator.dealCertified = false := by
  rw [← Bool.not_eq_true, C23_certified_iff]
  rintro ⟨-, -, h3, -⟩
  have : i ∈ complainedBy (vRun E v cs).aggregator.responses
      (vRun E v cs).aggregator.verifiers.length := by
    unfold complainedBy
    rw [Finset.mem_filter, Finset.mem_range, (vRun_ext E v cs).verifiers]
    exact ⟨hi, r, (vRun_ext E v cs).responses i r h, hr⟩
  rw [h3] at this
  simp at this

/-! ## C28: a caught dealer stays caught -/

/-- C28: a justification whose deal fails the checks marks the dealer, provided there is a
complaint at its index. -/
theorem C28_bad_justification_marks (S : Suite F G) (v : Verifier F G) (j : Justification F G)
    (r : Response) (hi : j.index < v.aggregator.verifiers.length)
    (hr : v.aggregator.responses.get j.index = some r) (hs : r.status = false)
    (err : VssError) (hbad : ((v.aggregator.remember j.deal).checkDeal S j.deal) = .err err) :
    (v.processJustification S j).1.aggregator.badDealer = true ∧
    (v.processJustification S j).2 = .err err := by
  unfold Verifier.processJustification Aggregator.verifyJustification
  have hp : findPub v.aggregator.verifiers j.index = some v.aggregator.verifiers[j.index] :=
    List.getElem?_eq_getElem hi
  simp [hp, hr, hs, statusComplaint, Aggregator.verifyDeal, hbad]

/-- C28: once the dealer is marked, no later history makes the deal certified. -/
theorem C28_bad_forever (E : Env F G) (v : Verifier F G) (h : v.aggregator.badDealer = true)
    (cs : List (VCall F G)) : (vRun E v cs).aggregator.badDealer = true ∧
      (vRun E v cs).aggregator.dealCertified = false ∧ (vRun E v cs).deal = none := by
  have hb := (vRun_ext E v cs).bad h
  have hc : (vRun E v cs).aggregator.dealCertified = false := by
    rw [← Bool.not_eq_true, C23_certified_iff, hb]
    simp
  exact ⟨hb, hc, by simp [Verifier.deal, hc]⟩

/-- C28: the dealer is marked only by a justification that fails. -/
theorem C28_only_justification_marks (E : Env F G) (v : Verifier F G) (c : VCall F G)
    (h0 : v.aggregator.badDealer = false) (h1 : (vStep E v c).aggregator.badDealer = true) :
    ∃ j, c = .justification j ∧ ∃ e, (v.processJustification E.suite j).2 = .err e := by
  have hrem : ∀ (a : Aggregator F G) d, (a.remember d).badDealer = a.badDealer := by
    intro a d; unfold Aggregator.remember; split <;> rfl
  have hadd : ∀ (a : Aggregator F G) r, (a.addResponse r).1.badDealer = a.badDealer := by
    intro a r; rcases addResponse_cases a r with ⟨e, h⟩ | ⟨-, -, h⟩ <;> rw [h]
  cases c with
  | encDeal e k =>
    change (v.processEncryptedDeal E e k).1.aggregator.badDealer = true at h1
    rcases processEncryptedDeal_cases E v e k with
      (⟨_, h'⟩ | h') | ⟨d, -, -, -, ⟨-, h'⟩ | ⟨st, -, h', -⟩⟩ <;> rw [h'] at h1
    · rw [h0] at h1; cases h1
    · rw [h0] at h1; cases h1
    · simp only [hrem, h0] at h1; cases h1
    · simp only [hadd, hrem, h0] at h1; cases h1
  | response r =>
    change (v.aggregator.verifyResponse E.suite r).1.badDealer = true at h1
    rcases verifyResponse_cases E.suite v.aggregator r with ⟨e, h'⟩ | h' | ⟨_, -, -, -, h'⟩ <;>
      rw [h'] at h1
    · rw [h0] at h1; cases h1
    · rw [h0] at h1; cases h1
    · rw [hadd, h0] at h1; cases h1
  | justification j =>
    refine ⟨j, rfl, ?_⟩
    change (v.aggregator.verifyJustification E.suite j).1.badDealer = true at h1
    show ∃ e, (v.aggregator.verifyJustification E.suite j).2 = .err e
    have hvd : (v.aggregator.verifyDeal E.suite j.deal false).1.badDealer = false := by
      rcases verifyDeal_fst E.suite v.aggregator j.deal false with h | h <;> rw [h]
      · exact h0
      · rw [hrem, h0]
    unfold Aggregator.verifyJustification at h1 ⊢
    split at h1
    · rw [h0] at h1; cases h1
    · split at h1
      · rw [h0] at h1; cases h1
      · split at h1
        · rw [h0] at h1; cases h1
        · simp only at h1
          rename_i hf _ r hr hs
          rw [if_neg hf]
          rw [if_neg hs]
          split at h1
          · rw [hvd] at h1; cases h1
          · rename_i e he
            exact ⟨e, by simp only [he]⟩
          · rw [hvd] at h1; cases h1
  | timeout => change v.aggregator.badDealer = true at h1; rw [h0] at h1; cases h1
  | setThreshold t => change v.aggregator.badDealer = true at h1; rw [h0] at h1; cases h1
  | unsafeSet i b =>
    change (v.aggregator.addResponse _).1.badDealer = true at h1
    rw [hadd, h0] at h1; cases h1
  | verifyDeal d b =>
    change (v.aggregator.verifyDeal E.suite d b).1.badDealer = true at h1
    rcases verifyDeal_fst E.suite v.aggregator d b with h | h <;> rw [h] at h1
    · rw [h0] at h1; cases h1
    · rw [hrem, h0] at h1; cases h1
  | addResponse r =>
    change (v.aggregator.addResponse r).1.badDealer = true at h1
    rw [hadd, h0] at h1; cases h1

/-! ## C29: a justification should need the dealer's authority -/

/-- C29, the intended property: only a justification signed by the dealer marks the dealer as
bad. `v` is any verifier reachable by protocol messages. -/
def C29_mark_statement : Prop :=
  ∀ (F G : Type) (_ : Field F) (_ : AddCommGroup G) (_ : Module F G) (_ : DecidableEq G)
    (E : Env F G) (x : F) (dealer : G) (pubs : List G) (v0 : Verifier F G)
    (_ : newVerifier E.suite x dealer pubs = .ok v0) (cs : List (VCall F G))
    (_ : ∀ c ∈ cs, c.fromNetwork = true) (j : Justification F G),
    (vRun E v0 cs).aggregator.badDealer = false →
    ((vRun E v0 cs).processJustification E.suite j).1.aggregator.badDealer = true →
    Schnorr.verify E.suite dealer (j.hash E) j.signature = .ok ()

/-- C29, the intended property: an accepted justification reveals the complainer's share. -/
def C29_index_statement : Prop :=
  ∀ (F G : Type) (_ : Field F) (_ : AddCommGroup G) (_ : Module F G) (_ : DecidableEq G)
    (E : Env F G) (x : F) (dealer : G) (pubs : List G) (v0 : Verifier F G)
    (_ : newVerifier E.suite x dealer pubs = .ok v0) (cs : List (VCall F G))
    (_ : ∀ c ∈ cs, c.fromNetwork = true) (j : Justification F G),
    ((vRun E v0 cs).processJustification E.suite j).2 = .ok () → j.deal.secShare.i = j.index

/-- What holds: a justification is accepted exactly if there is a complaint at its index and its
deal passes the checks against the stored session id and threshold (but against its own
commitments, and for any index below `n`). -/
theorem C29_accepts_iff_partial (S : Suite F G) (v : Verifier F G) (j : Justification F G)
    (d0 : Deal F G) (h0 : v.aggregator.deal = some d0) :
    (v.processJustification S j).2 = .ok () ↔
      j.index < v.aggregator.verifiers.length ∧
      (∃ r, v.aggregator.responses.get j.index = some r ∧ r.status = false) ∧
      validT j.deal.t v.aggregator.verifiers = true ∧ j.deal.t = v.aggregator.t ∧
      j.deal.sessionId = v.aggregator.sid ∧
      j.deal.secShare.i < v.aggregator.verifiers.length ∧ j.deal.commitments ≠ [] ∧
      j.deal.secShare.v • S.base =
        pointVal j.deal.commitments ((j.deal.secShare.i + 1 : Nat) : F) := by
  have hrem : v.aggregator.remember j.deal = v.aggregator := by
    unfold Aggregator.remember; rw [h0]
  have hck : v.aggregator.checkDeal S j.deal = .ok () ↔
      validT j.deal.t v.aggregator.verifiers = true ∧ j.deal.t = v.aggregator.t ∧
      j.deal.sessionId = v.aggregator.sid ∧
      j.deal.secShare.i < v.aggregator.verifiers.length ∧ j.deal.commitments ≠ [] ∧
      j.deal.secShare.v • S.base =
        pointVal j.deal.commitments ((j.deal.secShare.i + 1 : Nat) : F) := by
    unfold Aggregator.checkDeal
    simp only [Res.ite_err_eq_ok, Res.bind_eq_ok, Res.mapErr_eq_ok, C06_pub_eval,
      Res.ite_panic_eq_ok, Bool.not_eq_false, Res.ok.injEq, not_not, ne_eq, not_le]
    constructor
    · rintro ⟨h1, h2, h3, h4, s, ⟨h5, rfl⟩, h6, -⟩
      exact ⟨h1, h2, h3.symm, h4, h5, h6⟩
    · rintro ⟨h1, h2, h3, h4, h5, h6⟩
      exact ⟨h1, h2, h3.symm, h4, _, ⟨h5, rfl⟩, h6, trivial⟩
  rw [← hck]
  unfold Verifier.processJustification Aggregator.verifyJustification Aggregator.verifyDeal
  simp only [Bool.and_false, Bool.false_eq_true, if_false, hrem]
  by_cases hi : j.index < v.aggregator.verifiers.length
  · have hp : findPub v.aggregator.verifiers j.index = some v.aggregator.verifiers[j.index] :=
      List.getElem?_eq_getElem hi
    simp only [hp, Option.isNone_some, Bool.false_eq_true, if_false, hi, true_and]
    cases hr : v.aggregator.responses.get j.index with
    | none => simp
    | some r =>
      cases hs : r.status
      · simp only [statusComplaint, ne_eq, Option.some.injEq]
        cases hc : v.aggregator.checkDeal S j.deal with
        | ok u => cases u; simp [hs]
        | err e => simp [hs]
        | panic => simp [hs]
      · simp [statusComplaint, hs]
  · have hp : findPub v.aggregator.verifiers j.index = none := by
      simp only [findPub, List.getElem?_eq_none_iff]; omega
    simp [hp, hi]

/-! ## Concrete runs

Three verifiers with keys 3, 5, 2 (public keys 6, 10, 4), dealer key 4 (public key 8), threshold
2, secret 7, over Z/11. -/

end

namespace VssPExample

open Kyber.Toy

section

variable [SMul F G]

/-- the public keys -/
def pubs : List (ZMod 11) := [6, 10, 4]

/-- the honest dealer -/
def dealer : Dealer (ZMod 11) (ZMod 11) :=
  match newDealer suite 4 7 pubs 2 [5] with
  | .ok d => d
  | _ => ⟨0, 0, 0, [], ⟨[]⟩, [], [], 0, [], [], newEmptyAggregator []⟩

/-- its deals -/
def dealAt (i : Nat) : Deal (ZMod 11) (ZMod 11) := dealer.deals.getD i ⟨[], ⟨0, 0⟩, 0, []⟩

/-- its encrypted deals -/
def encDeal (d : Dealer (ZMod 11) (ZMod 11)) (i : Nat) : EncryptedDeal (ZMod 11) :=
  match d.encryptedDeal envP i 3 2 with
  | .ok e => e
  | _ => ⟨0, [], [], []⟩

/-- the verifiers -/
def ver (i : Nat) : Verifier (ZMod 11) (ZMod 11) :=
  match newVerifier suite ([3, 5, 2].getD i 0) 8 pubs with
  | .ok v => v
  | _ => ⟨0, 0, 0, 0, [], [], newEmptyAggregator []⟩

/-- the response of verifier `i` to the deal `e` -/
def resp (e : EncryptedDeal (ZMod 11)) (i : Nat) : Response :=
  match ((ver i).processEncryptedDeal envP e 5).2 with
  | .ok r => r
  | _ => ⟨[], 0, false, []⟩

/-- a complaint of verifier 1 about the honest deal -/
def complaint : Response :=
  let r : Response := ⟨dealer.sessionId, 1, false, []⟩
  { r with signature := Schnorr.sign suite 5 5 (r.hash suite) }

/-- The hypotheses of `C22_honest_run` hold for this dealer, and the run ends certified. -/
example : newDealer suite 4 7 pubs 2 [5] = .ok dealer ∧ pubs = [3, 5, 2].map (· • suite.base) ∧
    pubs.Nodup ∧ (∀ P ∈ (8 : ZMod 11) :: 4 :: 10 :: pubs, Usable suite P) ∧
    (∀ i < 3, dealer.encryptedDeal envP i 3 2 = .ok (encDeal dealer i)) ∧
    (vRun envP (ver 0) [.encDeal (encDeal dealer 0) 5, .response (resp (encDeal dealer 2) 2),
      .response (resp (encDeal dealer 1) 1)]).deal = dealer.deals[0]? := by
  refine ⟨by rfl, by decide +kernel, by decide +kernel, ?_, ?_, by decide +kernel⟩
  · unfold Usable; decide +kernel
  · intro i hi
    have : i = 0 ∨ i = 1 ∨ i = 2 := by omega
    rcases this with rfl | rfl | rfl <;> rfl

/-- `C22_recover` on deals 2 and 0. -/
example : VssP.recoverSecret MapOrder.rev [dealAt 2, dealAt 0] 2 = .ok 7 := by
  decide +kernel

/-- `C23`: certified after the timeout with one verifier missing, not before. -/
example : (vRun envP (ver 0) [.encDeal (encDeal dealer 0) 5,
      .response (resp (encDeal dealer 2) 2)]).aggregator.dealCertified = false ∧
    (vRun envP (ver 0) [.encDeal (encDeal dealer 0) 5, .response (resp (encDeal dealer 2) 2),
      .timeout]).aggregator.dealCertified = true := by
  decide +kernel

/-- `C25`, `C26`: the second deal and a forged response are refused. -/
example : ((vRun envP (ver 0) [.encDeal (encDeal dealer 0) 5]).processEncryptedDeal envP
      (encDeal dealer 0) 5).2 = .err .dealAlreadyProcessed ∧
    ((ver 0).processResponse suite { complaint with index := 2 }).2 =
      .err (.signature .invalidSignature) := by
  decide +kernel

/-- a verifier that received its honest deal and the complaint of verifier 1 -/
def withComplaint : List (VCall (ZMod 11) (ZMod 11)) :=
  [.encDeal (encDeal dealer 0) 5, .response complaint]

/-- the honest justification, an unsigned garbage one, and one revealing the wrong share -/
def honestJust : Justification (ZMod 11) (ZMod 11) :=
  match (dealer.processResponse envP complaint 5).2 with
  | .ok (some j) => j
  | _ => ⟨[], 0, (dealAt 0), []⟩
@[inherit_doc honestJust] def garbageJust : Justification (ZMod 11) (ZMod 11) :=
  ⟨[], 1, ⟨[], ⟨0, 0⟩, 0, []⟩, []⟩
@[inherit_doc honestJust] def wrongJust : Justification (ZMod 11) (ZMod 11) :=
  ⟨[], 1, dealAt 2, []⟩

theorem withComplaint_network : ∀ c ∈ withComplaint, c.fromNetwork = true := by
  intro c hc
  simp only [withComplaint, List.mem_cons, List.not_mem_nil, or_false] at hc
  rcases hc with rfl | rfl <;> rfl

theorem ver0 : newVerifier envP.suite 3 8 pubs = .ok (ver 0) := rfl

/-- The complaint is stored, the honest justification is signed and accepted, but the complaint
stays; the hypotheses of `C27_complaint_is_permanent_partial` hold. -/
theorem justified_stays :
    ((vRun envP (ver 0) withComplaint).processJustification envP.suite honestJust).2 = .ok () ∧
    Schnorr.verify envP.suite 8 (honestJust.hash envP) honestJust.signature = .ok () ∧
    ((vRun envP (ver 0) withComplaint).processJustification envP.suite
      honestJust).1.aggregator.responses.get honestJust.index = some complaint ∧
    complaint.status = false := by
  decide +kernel

theorem garbage_marks :
    (vRun envP (ver 0) withComplaint).aggregator.badDealer = false ∧
    ((vRun envP (ver 0) withComplaint).processJustification envP.suite
      garbageJust).1.aggregator.badDealer = true ∧
    Schnorr.verify envP.suite 8 (garbageJust.hash envP) garbageJust.signature ≠ .ok () := by
  decide +kernel

theorem wrong_index_accepted :
    ((vRun envP (ver 0) withComplaint).processJustification envP.suite wrongJust).2 = .ok () ∧
    wrongJust.deal.secShare.i ≠ wrongJust.index := by
  decide +kernel

/-! The theorems above applied to this dealer and these verifiers. -/

theorem usable (s : ZMod 11) (h : s ≠ 0) : Usable envP.suite (s • envP.suite.base) := by
  revert s; unfold Usable; decide +kernel

theorem newDealer_eq : newDealer suite 4 7 pubs 2 [5] = .ok dealer := rfl

/-- the state of verifier 0 after its deal and the complaint -/
abbrev v1 : Verifier (ZMod 11) (ZMod 11) := vRun envP (ver 0) withComplaint

set_option maxRecDepth 100000 in
example := C22_honest_approval envP lawful prims_lawful 4 7 pubs (by decide +kernel) 2 [5] dealer newDealer_eq
  (fun dl _ => codecP_lawful dl) (usable 4 (by decide)) 1 5 (by decide +kernel) 3 2 5 (usable 2 (by decide))
  (encDeal dealer 1) rfl

set_option maxRecDepth 100000 in
example := C22_encrypted_deal_ok envP prims_lawful 4 7 pubs 2 [5] dealer newDealer_eq 2 (by decide)
  (fun _ _ => rfl) (fun _ _ _ _ => rfl) 3 2

example : (∃ d, newDealer suite 4 7 pubs 2 [5] = .ok d) ↔ 2 ≤ 2 ∧ 2 ≤ pubs.length :=
  C22_new_dealer_ok suite 4 7 pubs 2 [5] (by decide) (by decide)

example := C22_honest_run envP lawful prims_lawful 4 7 [3, 5, 2] (by decide +kernel) 2 [5] dealer rfl
  (fun dl _ => codecP_lawful dl) (usable 4 (by decide))
  (fun xi hxi => usable xi (by revert xi; decide)) (fun _ => 3) (fun _ => 2) (fun _ => 5)
  (fun _ => usable 2 (by decide)) (fun _ => usable 5 (by decide)) (encDeal dealer)
  (by
    intro i hi
    have : i = 0 ∨ i = 1 ∨ i = 2 := by simp at hi; omega
    rcases this with rfl | rfl | rfl <;> rfl)

example (ord : MapOrder) : VssP.recoverSecret ord [dealAt 2, dealAt 0] 2 = .ok 7 :=
  C22_recover 11 ord suite 4 7 pubs (by decide) 2 [5] dealer newDealer_eq _ (by decide +kernel) (by decide +kernel)

/-- the history of the second example on C23: the response of verifier 1 is missing -/
def certifiedRun : List (VCall (ZMod 11) (ZMod 11)) :=
  [.encDeal (encDeal dealer 0) 5, .response (resp (encDeal dealer 2) 2), .timeout]

theorem certifiedRun_certified : (vRun envP (ver 0) certifiedRun).aggregator.dealCertified = true := by
  decide +kernel

example := C23_certified_threshold _ certifiedRun_certified
example := C23_timeout_monotone _ certifiedRun_certified

set_option maxRecDepth 100000 in
example := C24_approved_deal envP (ver 0) ((ver 0).processEncryptedDeal envP (encDeal dealer 0) 5).1
  (encDeal dealer 0) 5 (resp (encDeal dealer 0) 0) rfl (by decide +kernel)

/-- Two pairs of approved deals of the same dealer recover the same committed secret. -/
example (ord ord' : MapOrder) := C24_recover_committed 11 ord ord' suite base_inj (dealAt 0).commitments 2
  (by decide +kernel) dealer.sessionId [dealAt 0, dealAt 2] [dealAt 1, dealAt 2]
  (by
    intro d hd
    simp only [List.mem_append, List.mem_cons, List.not_mem_nil, or_false] at hd
    rcases hd with (rfl | rfl) | rfl | rfl <;> decide +kernel)
  (by decide +kernel) (by decide +kernel)

example (cs : List (VCall (ZMod 11) (ZMod 11))) := C25_response_kept envP v1 cs 1 complaint (by decide +kernel)
example (cs : List (VCall (ZMod 11) (ZMod 11))) := C25_deal_kept envP v1 cs (dealAt 0) (by decide +kernel)
example := C25_second_deal_refused envP v1 (dealAt 0) (by decide +kernel)
example : (v1.processEncryptedDeal envP (encDeal dealer 0) 5).2 = .err .dealAlreadyProcessed :=
  C25_second_deal_error envP v1 (dealAt 0) (dealAt 0) (by decide +kernel) (encDeal dealer 0) 5
    (by decide +kernel) (by decide +kernel)
example := C25_indices envP 3 8 pubs (ver 0) ver0 withComplaint 1 complaint (by decide +kernel)
example := C25_second_response_refused suite v1 { complaint with status := true } complaint (by decide +kernel)
example := C26_authenticated envP 3 8 pubs (ver 0) ver0 withComplaint withComplaint_network 1 complaint
  (by decide +kernel)
example (cs : List (VCall (ZMod 11) (ZMod 11))) : (vRun envP v1 cs).aggregator.dealCertified = false :=
  C27_complaint_is_permanent_partial envP v1 1 complaint (by decide +kernel) (by decide +kernel) rfl cs
example : (v1.processJustification suite garbageJust).2 = .err .dealInvalidThreshold :=
  (C28_bad_justification_marks suite v1 garbageJust complaint (by decide +kernel) (by decide +kernel) rfl _
    (by decide +kernel)).2
set_option maxRecDepth 100000 in
example (cs : List (VCall (ZMod 11) (ZMod 11))) :=
  C28_bad_forever envP (vStep envP v1 (.justification garbageJust)) garbage_marks.2.1 cs
set_option maxRecDepth 100000 in
example := C28_only_justification_marks envP v1 (.justification garbageJust) garbage_marks.1 garbage_marks.2.1
example := C29_accepts_iff_partial suite v1 wrongJust (dealAt 0) (by decide +kernel)

end

end VssPExample

section

variable [SMul F G]

set_option maxRecDepth 100000 in
open VssPExample in
/-- C27 does not hold for the Pedersen variant. -/
theorem C27_violated_pedersen : ¬ C27_statement := by
  intro h
  obtain ⟨h1, -, h2, h3⟩ := justified_stays
  obtain ⟨r, hr, hs⟩ := h (ZMod 11) (ZMod 11) _ _ Semiring.toModule _
    Toy.envP 3 8 pubs (ver 0) ver0 withComplaint withComplaint_network honestJust h1
  rw [h2] at hr
  cases hr
  rw [h3] at hs; cases hs

set_option maxRecDepth 100000 in
open VssPExample in
/-- C29 does not hold: an unsigned garbage justification by anyone, about a complaint by any single
verifier, marks an honest dealer as bad. -/
theorem C29_violated_unsigned : ¬ C29_mark_statement := by
  intro h
  obtain ⟨h1, h2, h3⟩ := garbage_marks
  exact h3 (h (ZMod 11) (ZMod 11) _ _ Semiring.toModule _
    Toy.envP 3 8 pubs (ver 0) ver0 withComplaint withComplaint_network garbageJust h1 h2)

open VssPExample in
/-- C29 does not hold: a justification revealing the share of another verifier is accepted. -/
theorem C29_violated_index : ¬ C29_index_statement := by
  intro h
  obtain ⟨h1, h2⟩ := wrong_index_accepted
  exact h2 (h (ZMod 11) (ZMod 11) _ _ Semiring.toModule _
    Toy.envP 3 8 pubs (ver 0) ver0 withComplaint withComplaint_network wrongJust h1)

end

end Kyber.Props
