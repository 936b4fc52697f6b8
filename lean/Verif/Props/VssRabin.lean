/-
Properties C30-C32 and the Rabin part of C27-C29, C64, C65 (`src/share/vss/rabin/vss.rs`).
The concrete runs to which these theorems are applied are in `VssRabinMore.lean`, namespace `VssRExample`.
-/
import Verif.Lemmas.VssRabinHonest
import Verif.Spec.ToyVssR
import Verif.Lemmas.Dss
import Mathlib.Tactic.LinearCombination
import Mathlib.Tactic.FieldSimp

set_option linter.unusedSectionVars false

namespace Kyber.Props

open Kyber Kyber.Poly Kyber.Spec Kyber.VssR
open Kyber.VssP (VssError EncryptedDeal Response validT findPub context indices_map_some)
open Kyber.Schnorr (smul_base_inj)

variable {F G : Type} [Field F] [AddCommGroup G] [DecidableEq G]

/-! ## C30: honest run -/

section

variable [SMul F G]

/-- C30: `new_dealer` succeeds exactly for a valid threshold `2 ≤ t ≤ n` (given enough random
coefficients, and `n` below 2^32). -/
theorem C30_new_dealer_ok (E : Env F G) (x secret : F) (pubs : List G) (t : Nat) (fD gD : List F)
    (hf : t - 1 ≤ fD.length) (hg : t ≤ gD.length) (hn : pubs.length < 2 ^ 32) :
    (∃ d, VssR.newDealer E x secret pubs t fD gD = .ok d) ↔ 2 ≤ t ∧ t ≤ pubs.length := by
  constructor
  · rintro ⟨d, hd⟩
    obtain ⟨f, g, -, -, -, -, -, hv, -⟩ := VssR.newDealer_ok hd
    simp only [validT, Bool.and_eq_true, decide_eq_true_eq] at hv
    exact hv.1
  · intro h
    apply newDealer_some _ _ _ _ _ _ _ _ hf hg
    simp only [validT, Bool.and_eq_true, decide_eq_true_eq]
    exact ⟨h, Nat.mod_eq_of_lt (by omega)⟩

end

section

variable [DistribSMul F G]

/-- C30: an honest dealer's encrypted deal makes the intended verifier approve, with the dealer's
session id, its own index and a signature that verifies under its key. -/
theorem C30_honest_approval (E : Env F G) (hS : E.suite.Lawful) (hP : E.prims.Lawful)
    (hH : ∀ b, Lin F (E.pickFrom b))
    (x secret : F) (pubs : List G) (hnd : pubs.Nodup) (t : Nat) (fD gD : List F) (d : Dealer F G)
    (hd : VssR.newDealer E x secret pubs t fD gD = .ok d)
    (hC : ∀ dl ∈ d.deals, E.codec.dec (E.codec.enc dl) = some dl)
    (hx : Usable E.suite (x • E.suite.base))
    (i : Nat) (xi : F) (hi : pubs[i]? = some (xi • E.suite.base))
    (dh k vk : F) (hk : Usable E.suite (k • E.suite.base))
    (e : EncryptedDeal G) (he : d.encryptedDeal E i dh k = .ok e) :
    ∃ (v v' : Verifier F G) (r : Response) (a : Aggregator F G),
      VssR.newVerifier E.suite xi (x • E.suite.base) pubs = .ok v ∧
      v.processEncryptedDeal E e vk = (v', .ok r) ∧
      r.status = true ∧ r.index = i ∧ r.sessionId = d.sessionId ∧
      v'.aggregator = some a ∧
      a.deal = d.deals[i]? ∧ a.deal.isSome ∧ a.sid = d.sessionId ∧ a.t = t ∧
      a.verifiers = pubs ∧ a.badDealer = false ∧ a.responses = [(i, r)] ∧
      (Usable E.suite (vk • E.suite.base) → Usable E.suite (xi • E.suite.base) →
        Schnorr.verify E.suite (xi • E.suite.base) (r.hash E.suite) r.signature = .ok ()) := by
  obtain ⟨f, g, hfl, hgl, -, hf, -, hv, h1, -, -, h4, -, -, h9, h8, h10, -⟩ := VssR.newDealer_ok hd
  have hil : i < pubs.length := (List.getElem?_eq_some_iff.1 hi).1
  have hnv := VssR.newVerifier_ok E.suite xi (x • E.suite.base) pubs i hnd hi
  set v : Verifier F G :=
    { longterm := xi, pubb := xi • E.suite.base, dealer := x • E.suite.base, index := i,
      verifiers := pubs, hkdfContext := context E.suite (x • E.suite.base) pubs,
      aggregator := none } with hvdef
  obtain ⟨deal, hdeal, hdec⟩ := VssR.decrypt_encrypted E hS hP hC (v := v) (by rw [h4]; exact hi)
    (by rw [h1]) h9.symm (by rw [h1]; exact hx) hk he
  have hdeal' : deal = ⟨d.sessionId, (⟨f⟩ : PriPoly F).eval i, (⟨g⟩ : PriPoly F).eval i, t,
      commitsOf E.suite.base (deriveH E pubs) f g⟩ := by
    rw [h10, List.getElem?_map, List.getElem?_range hil] at hdeal
    simpa using hdeal.symm
  set a0 : Aggregator F G := (v.aggregatorFor deal).remember deal with ha0
  have ha0' : a0 = ⟨pubs, deal.commitments, [], deal.sessionId, some deal, deal.t, false⟩ := rfl
  have hcheck : a0.checkDeal E deal = .ok () := by
    have := VssR.checkDeal_honest (E := E) hS.base_lin hH (a := a0) (f := f) (g := g)
      (by rw [hf]; simp) (by rw [hfl, hgl]) (sid := d.sessionId) (t := t) (i := i)
      hv (by rw [ha0', hdeal']) hil
    rw [hdeal']
    exact this
  obtain ⟨r, hr⟩ : ∃ r, VssR.mkReply E v deal vk true = r := ⟨_, rfl⟩
  have hadd : a0.addResponse r = ({ a0 with responses := [(i, r)] }, .ok ()) := by
    have hri : r.index = i := by rw [← hr]; rfl
    unfold Aggregator.addResponse
    rw [hri, if_neg (by simpa [findPub, ha0'] using hil), if_neg (by simp [ha0'])]
    rfl
  have hproc : v.processEncryptedDeal E e vk =
      ({ v with aggregator := some { a0 with responses := [(i, r)] } }, .ok r) := by
    have hrun : v.processEncryptedDeal E e vk =
        ({ v with aggregator := some (a0.addResponse r).1 },
          (a0.addResponse r).2 >>= fun _ => .ok r) := by
      unfold Verifier.processEncryptedDeal
      rw [hdec]
      simp only
      rw [if_neg (by rw [hdeal']; simp [v, PriPoly.eval])]
      unfold Verifier.processDeal Aggregator.verifyDeal
      rw [if_neg (by simp [v, Verifier.aggregatorFor, newAggregator])]
      rw [← ha0, hcheck, ← hr]
      rfl
    rw [hrun, hadd]
    rfl
  refine ⟨v, _, r, _, hnv, hproc, by rw [← hr]; rfl, by rw [← hr]; rfl, ?_, rfl, by rw [hdeal]; rfl,
    rfl, by rw [ha0', hdeal'], by rw [ha0', hdeal'], rfl, rfl, rfl, ?_⟩
  · rw [← hr, h8]
    show VssP.sessionId E.suite (x • E.suite.base) pubs deal.commitments deal.t = _
    rw [hdeal']
  · intro hvk hxi
    have := C11_sign_verify E.suite hS vk xi (r.hash E.suite) hvk.1 hvk.2 hxi.1 hxi.2
    have hsig : r.signature = Schnorr.sign E.suite vk xi (r.hash E.suite) := by
      rw [← hr]; rfl
    rw [hsig]; exact this

/-- C30: the whole honest run. Every verifier approves; whatever the order in which a verifier
receives the other responses, every call succeeds and `deal` then gives its deal; the same for
the dealer, in any order, who then gives out the commitments of the secret polynomial. -/
theorem C30_honest_run (E : Env F G) (hS : E.suite.Lawful) (hP : E.prims.Lawful)
    (hH : ∀ b, Lin F (E.pickFrom b))
    (x secret : F) (xs : List F) (hnd : (xs.map (· • E.suite.base)).Nodup) (t : Nat)
    (fD gD : List F) (d : Dealer F G)
    (hd : VssR.newDealer E x secret (xs.map (· • E.suite.base)) t fD gD = .ok d)
    (hC : ∀ dl ∈ d.deals, E.codec.dec (E.codec.enc dl) = some dl)
    (hx : Usable E.suite (x • E.suite.base))
    (hxs : ∀ xi ∈ xs, Usable E.suite (xi • E.suite.base))
    (dh k vk : Nat → F)
    (hk : ∀ i, Usable E.suite (k i • E.suite.base)) (hvk : ∀ i, Usable E.suite (vk i • E.suite.base))
    (e : Nat → EncryptedDeal G) (he : ∀ i < xs.length, d.encryptedDeal E i (dh i) (k i) = .ok (e i)) :
    ∃ (v : Nat → Verifier F G) (resp : Nat → Response),
      (∀ i (hi : i < xs.length), ∃ v0,
        VssR.newVerifier E.suite xs[i] (x • E.suite.base) (xs.map (· • E.suite.base)) = .ok v0 ∧
        v0.processEncryptedDeal E (e i) (vk i) = (v i, .ok (resp i)) ∧ (resp i).status = true ∧
        (resp i).index = i ∧ (resp i).sessionId = d.sessionId) ∧
      (∀ i < xs.length, ∀ order : List Nat, (i :: order).Perm (List.range xs.length) →
        (∀ pre j post, order = pre ++ j :: post →
          ((pre.foldl (fun v j => (v.processResponse E.suite (resp j)).1) (v i)).processResponse
            E.suite (resp j)).2 = .ok ()) ∧
        (order.foldl (fun v j => (v.processResponse E.suite (resp j)).1) (v i)).deal = d.deals[i]? ∧
        d.deals[i]?.isSome) ∧
      (∀ (order : List Nat) (dk : F), order.Perm (List.range xs.length) →
        (∀ pre j post, order = pre ++ j :: post →
          ((pre.foldl (fun d j => (d.processResponse E (resp j) dk).1) d).processResponse
            E (resp j) dk).2 = .ok none) ∧
        (order.foldl (fun d j => (d.processResponse E (resp j) dk).1) d).secretCommit E.suite =
          some (secret • E.suite.base) ∧
        (order.foldl (fun d j => (d.processResponse E (resp j) dk).1) d).commits =
          some ((secret :: fD.take (t - 1)).map (· • E.suite.base))) := by
  have happ : ∀ i, ∃ (v' : Verifier F G) (r : Response) (a : Aggregator F G),
      ∀ (hi : i < xs.length), ∃ v,
      VssR.newVerifier E.suite xs[i] (x • E.suite.base) (xs.map (· • E.suite.base)) = .ok v ∧
      v.processEncryptedDeal E (e i) (vk i) = (v', .ok r) ∧
      r.status = true ∧ r.index = i ∧ r.sessionId = d.sessionId ∧
      v'.aggregator = some a ∧
      a.deal = d.deals[i]? ∧ a.deal.isSome ∧ a.sid = d.sessionId ∧ a.t = t ∧
      a.verifiers = xs.map (· • E.suite.base) ∧ a.badDealer = false ∧ a.responses = [(i, r)] ∧
      Schnorr.verify E.suite (xs[i] • E.suite.base) (r.hash E.suite) r.signature = .ok () := by
    intro i
    by_cases hi : i < xs.length
    · obtain ⟨v, v', r, a, h1, h2, h3, h4, h5, h6, h7, h8, h9, h10, h11, h12, h13, h14⟩ :=
        C30_honest_approval E hS hP hH x secret _ hnd t fD gD d hd hC hx i xs[i]
          (by rw [List.getElem?_map, List.getElem?_eq_getElem hi]; rfl) (dh i) (k i) (vk i) (hk i)
          (e i) (he i hi)
      exact ⟨v', r, a, fun _ => ⟨v, h1, h2, h3, h4, h5, h6, h7, h8, h9, h10, h11, h12, h13,
        h14 (hvk i) (hxs _ (List.getElem_mem hi))⟩⟩
    · exact ⟨⟨0, 0, 0, 0, [], [], none⟩, ⟨[], 0, true, []⟩, newAggregator [] [] 0 [],
        fun h => absurd h hi⟩
  choose v resp agg hvr using happ
  obtain ⟨f, g, hfl, hgl, -, hf, -, hvt, h1, -, hsec, h4, -, hcom, h9, h8, h10, hagg⟩ :=
    VssR.newDealer_ok hd
  have htn : t ≤ xs.length := by
    simp only [validT, Bool.and_eq_true, decide_eq_true_eq, List.length_map] at hvt
    exact hvt.1.2
  have hver : ∀ j < xs.length, ∃ pub, (xs.map (· • E.suite.base))[j]? = some pub ∧
      Schnorr.verify E.suite pub ((resp j).hash E.suite) (resp j).signature = .ok () := by
    intro j hj
    obtain ⟨_, -, -, -, -, -, -, -, -, -, -, -, -, -, h14⟩ := hvr j hj
    exact ⟨_, by rw [List.getElem?_map, List.getElem?_eq_getElem hj]; rfl, h14⟩
  refine ⟨v, resp, ?_, ?_, ?_⟩
  · intro i hi
    obtain ⟨v0, h1, h2, h3, h4, h5, -⟩ := hvr i hi
    exact ⟨v0, h1, h2, h3, h4, h5⟩
  · intro i hi order hperm
    obtain ⟨v0, h1, h2, h3, h4, h5, ha, h6, h7, h8, h9, h10, h11, h13, h14⟩ := hvr i hi
    have hmem : ∀ j ∈ order, j < xs.length := fun j hj =>
      List.mem_range.1 (hperm.subset (List.mem_cons_of_mem _ hj))
    have hnd' : (i :: order).Nodup := hperm.nodup_iff.2 List.nodup_range
    have hio : i ∉ order := (List.nodup_cons.1 hnd').1
    have hget : ∀ j, (agg i).responses.get j = if j = i then some (resp i) else none := by
      intro j; rw [h13, AMap.get_cons]; rfl
    have hrun := VssR.verifyResponses_run E.suite resp order (agg i)
      (fun j hj => by rw [h8]; exact (hvr j (hmem j hj)).choose_spec.2.2.2.2.1)
      (fun j hj => (hvr j (hmem j hj)).choose_spec.2.2.2.1)
      (fun j hj => by rw [h10]; exact hver j (hmem j hj))
      (fun j hj => by rw [hget, if_neg (by rintro rfl; exact hio hj)])
      (List.nodup_cons.1 hnd').2
    have hfold : ∀ (l : List Nat) (w : Verifier F G) (b : Aggregator F G), w.aggregator = some b →
        (l.foldl (fun v j => (v.processResponse E.suite (resp j)).1) w).aggregator =
          some (l.foldl (fun a j => (a.verifyResponse E.suite (resp j)).1) b) := by
      intro l
      induction l with
      | nil => intro w b hb; exact hb
      | cons j l ih =>
        intro w b hb
        rw [List.foldl_cons, List.foldl_cons]
        apply ih
        unfold Verifier.processResponse
        rw [hb]
    obtain ⟨g1, g2, g3, g4, g5, g6, g7, g8⟩ := hrun
    refine ⟨?_, ?_, by rw [← h6]; exact h7⟩
    · intro pre j post hl
      have := g8 pre j post hl
      unfold Verifier.processResponse
      have hx := hfold pre (v i) (agg i) ha
      unfold Verifier.processResponse at hx
      rw [hx]
      exact this
    · unfold Verifier.deal
      rw [hfold order (v i) (agg i) ha]
      have hwf : Wf (xs.map (· • E.suite.base))
          (order.foldl (fun a j => (a.verifyResponse E.suite (resp j)).1) (agg i)) := by
        refine ⟨g1.trans h10, g6 (by rw [h13]; simp [AMap.keys]), ?_⟩
        intro j r hr
        rw [g7] at hr
        split at hr
        · rename_i hjo
          cases hr
          exact ⟨(hvr j (hmem j hjo)).choose_spec.2.2.2.1, by simpa using hmem j hjo⟩
        · rw [hget] at hr
          split at hr
          · rename_i hji
            cases hr; rw [hji]
            exact ⟨h4, by simpa using hi⟩
          · cases hr
      have hcert : (order.foldl (fun a j => (a.verifyResponse E.suite (resp j)).1)
          (agg i)).dealCertified = true := by
        apply VssR.certified_of_all hwf
        · rw [g5]; exact h11
        · rw [g3, h9]; simpa using htn
        · intro j hj
          rw [List.length_map] at hj
          rw [g7]
          by_cases hjo : j ∈ order
          · exact ⟨resp j, by rw [if_pos hjo], (hvr j hj).choose_spec.2.2.1⟩
          · rw [if_neg hjo, hget]
            have hji : j = i := by
              have := hperm.symm.subset (List.mem_range.2 hj)
              rcases List.mem_cons.1 this with h | h
              · exact h
              · exact absurd h hjo
            exact ⟨resp i, by rw [if_pos hji], h3⟩
      simp only [hcert, dealCertified_enough hcert]
      rw [if_neg (by simp), g2, h6]
  · intro order dk hperm
    have hmem : ∀ j ∈ order, j < xs.length := fun j hj => List.mem_range.1 (hperm.subset hj)
    have hnd' : order.Nodup := hperm.nodup_iff.2 List.nodup_range
    have hrun := VssR.verifyResponses_run E.suite resp order d.aggregator
      (fun j hj => by rw [hagg]; exact (hvr j (hmem j hj)).choose_spec.2.2.2.2.1)
      (fun j hj => (hvr j (hmem j hj)).choose_spec.2.2.2.1)
      (fun j hj => by rw [hagg]; exact hver j (hmem j hj))
      (fun j hj => by rw [hagg]; rfl) hnd'
    obtain ⟨g1, g2, g3, g4, g5, g6, g7, g8⟩ := hrun
    have hfst : ∀ (w : Dealer F G) (j : Nat),
        (w.processResponse E (resp j) dk).1 =
          { w with aggregator := (w.aggregator.verifyResponse E.suite (resp j)).1 } := by
      intro w j
      unfold Dealer.processResponse
      simp only
      split
      · rfl
      · rfl
      · split
        · rfl
        · split <;> rfl
    have hfold : ∀ (l : List Nat) (w : Dealer F G),
        (l.foldl (fun d j => (d.processResponse E (resp j) dk).1) w) =
          { w with aggregator := l.foldl (fun a j => (a.verifyResponse E.suite (resp j)).1) w.aggregator } := by
      intro l
      induction l with
      | nil => intro w; rfl
      | cons j l ih => intro w; rw [List.foldl_cons, ih, hfst]; rfl
    have hwf : Wf (xs.map (· • E.suite.base))
        (order.foldl (fun a j => (a.verifyResponse E.suite (resp j)).1) d.aggregator) := by
      refine ⟨g1.trans (by rw [hagg]; rfl), g6 (by rw [hagg]; exact List.nodup_nil), ?_⟩
      intro j r hr
      rw [g7] at hr
      split at hr
      · rename_i hjo
        cases hr
        exact ⟨(hvr j (hmem j hjo)).choose_spec.2.2.2.1, by simpa using hmem j hjo⟩
      · rw [hagg] at hr; cases hr
    have hcert : (order.foldl (fun a j => (a.verifyResponse E.suite (resp j)).1)
        d.aggregator).dealCertified = true := by
      apply VssR.certified_of_all hwf
      · rw [g5, hagg]; rfl
      · rw [g3, hagg]
        show t ≤ (xs.map (· • E.suite.base)).length
        simpa using htn
      · intro j hj
        have hj' : j < xs.length := by simpa using hj
        rw [g7, if_pos (hperm.symm.subset (List.mem_range.2 hj'))]
        exact ⟨resp j, rfl, (hvr j hj').choose_spec.2.2.1⟩
    refine ⟨?_, ?_, ?_⟩
    · intro pre j post hl
      have := g8 pre j post hl
      rw [hfold]
      unfold Dealer.processResponse
      simp only [this]
      rw [if_pos (hvr j (hmem j (by rw [hl]; simp))).choose_spec.2.2.1]
    · rw [hfold]
      unfold Dealer.secretCommit
      simp only [hcert, dealCertified_enough hcert, hsec]
      simp
    · rw [hfold]
      unfold Dealer.commits
      simp only [hcert, dealCertified_enough hcert, hcom, hf]
      simp

end

section

variable [SMul F G]

/-- C30: any selection of deals of an honest dealer with at least `t` different indices, in any
order, recovers the secret. -/
theorem C30_recover (q : Nat) [CharP F q] (ord : MapOrder) (E : Env F G) (x secret : F)
    (pubs : List G) (hn : pubs.length ≤ q) (t : Nat) (fD gD : List F) (d : Dealer F G)
    (hd : VssR.newDealer E x secret pubs t fD gD = .ok d) (sel : List (Deal F G))
    (hsel : ∀ deal ∈ sel, deal ∈ d.deals)
    (hcount : t ≤ (sel.map (fun deal => deal.secShare.i)).toFinset.card) :
    VssR.recoverSecret ord sel t = .ok secret := by
  obtain ⟨f, g, hfl, hgl, -, hf, -, hvt, -, -, -, -, -, -, -, -, h10, -⟩ := VssR.newDealer_ok hd
  have ht2 : 2 ≤ t := by
    simp only [validT, Bool.and_eq_true, decide_eq_true_eq] at hvt; exact hvt.1.1
  have hform : ∀ deal ∈ sel, ∃ i < pubs.length, deal.secShare = (⟨f⟩ : PriPoly F).eval i ∧
      deal.sessionId = d.sessionId := by
    intro deal hdl
    have := hsel deal hdl
    rw [h10, List.mem_map] at this
    obtain ⟨i, hi, rfl⟩ := this
    exact ⟨i, List.mem_range.1 hi, rfl, rfl⟩
  cases sel with
  | nil => simp at hcount; omega
  | cons d0 rest =>
    unfold VssR.recoverSecret
    simp only
    rw [if_pos]
    · rw [C01_recover_secret q ord secret (fD.take (t - 1))]
      · rfl
      · intro s hs
        simp only [List.mem_map, Option.some.injEq] at hs
        obtain ⟨deal, hdl, rfl⟩ := hs
        obtain ⟨i, hi, he, -⟩ := hform deal hdl
        rw [he, hf, C01_eval_genuine]
      · intro i hi
        obtain ⟨s, hs, rfl⟩ := mem_indices.1 hi
        simp only [List.mem_map, Option.some.injEq] at hs
        obtain ⟨deal, hdl, rfl⟩ := hs
        obtain ⟨i, hi, he, -⟩ := hform deal hdl
        rw [he]; show i < q; omega
      · rw [← hf]; omega
      · refine hcount.trans (le_of_eq ?_)
        congr 1
        exact (indices_map_some _ _).symm
    · rw [List.all_eq_true]
      intro deal hdl
      obtain ⟨_, _, -, h1⟩ := hform deal hdl
      obtain ⟨_, _, -, h2⟩ := hform d0 (by simp)
      simp [h1, h2]

/-! ## C30: hiding -/

/-- C30: the published commitments say nothing about the secret polynomial. For every polynomial
`f'` with `t` coefficients there is exactly one blinding polynomial `g'` that gives the same
commitments as `(f, g)`, when `H` is a non-zero multiple of `B`. -/
theorem C30_hiding (B H : G) (hlin : Lin F B) (hB : ∀ s : F, s • B = 0 → s = 0) (h : F) (hh : h ≠ 0)
    (hH : H = h • B)
    (f g f' : List F) (hfg : f.length = g.length) (hff' : f'.length = f.length) :
    ∃! g' : List F, g'.length = g.length ∧
      List.zipWith (fun a b => a • B + b • H) f' g' =
        List.zipWith (fun a b => a • B + b • H) f g := by
  subst hH
  induction f generalizing g f' with
  | nil =>
    cases g with
    | cons _ _ => simp at hfg
    | nil =>
      cases f' with
      | cons _ _ => simp at hff'
      | nil => exact ⟨[], by simp, by rintro y ⟨hy, -⟩; simpa using hy⟩
  | cons a f ih =>
    cases g with
    | nil => simp at hfg
    | cons b g =>
      cases f' with
      | nil => simp at hff'
      | cons a' f' =>
        obtain ⟨g', ⟨hl, he⟩, hu⟩ := ih g f' (by simpa using hfg) (by simpa using hff')
        have key : ∀ b' : F, a' • B + b' • h • B = a • B + b • h • B ↔ b' = b + (a - a') / h := by
          intro b'
          rw [← hlin.mul, ← hlin.mul, ← hlin.add, ← hlin.add]
          constructor
          · intro hx
            have := smul_base_inj hlin hB hx
            field_simp
            linear_combination this
          · rintro rfl
            congr 1
            field_simp
            ring
        refine ⟨(b + (a - a') / h) :: g', ⟨by simp [hl], ?_⟩, ?_⟩
        · simp only [List.zipWith_cons_cons, he, List.cons.injEq, and_true]
          exact (key _).2 rfl
        · rintro (_ | ⟨b', g''⟩) ⟨hl', he'⟩
          · simp at hl'
          · simp only [List.zipWith_cons_cons, List.cons.injEq] at he'
            rw [(key b').1 he'.1, hu g'' ⟨by simpa using hl', he'.2⟩]

/-- C30: what fewer than `t` verifiers see — the session id, the commitments, their own deals —
is compatible with every other secret: some choice of the random coefficients of a dealer with
that secret gives exactly the same view. -/
theorem C30_view_hides_secret (q : Nat) [CharP F q] (E : Env F G) (hl : Lin F E.suite.base) (x secret : F) (pubs : List G)
    (t : Nat) (fD gD : List F) (d : Dealer F G)
    (hd : VssR.newDealer E x secret pubs t fD gD = .ok d)
    (h : F) (hh : h ≠ 0) (hH : deriveH E pubs = h • E.suite.base)
    (coalition : Finset Nat) (hq : ∀ i ∈ coalition, i + 1 < q) (hcard : coalition.card < t)
    (secret' : F) :
    ∃ (fD' gD' : List F) (d' : Dealer F G),
      VssR.newDealer E x secret' pubs t fD' gD' = .ok d' ∧
      d'.sessionId = d.sessionId ∧ d'.aggregator = d.aggregator ∧
      ∀ i ∈ coalition, d'.deals[i]? = d.deals[i]? := by
  obtain ⟨f, g, hfl, hgl, -, hf, hg, hv, -, -, -, -, -, -, -, hsid, hdeals, hagg⟩ :=
    VssR.newDealer_ok hd
  have ht2 : 2 ≤ t := by
    have := hv
    simp only [validT, Bool.and_eq_true, decide_eq_true_eq] at this; exact this.1.1
  obtain ⟨⟨f'⟩, hf'l, hf's, hf'v⟩ := C05_no_secret_excluded q t coalition hq hcard
    (fun i => polyVal f ((i + 1 : Nat) : F)) secret'
  simp only [PriPoly.threshold] at hf'l
  have hf'c : ∃ cs, f' = secret' :: cs := by
    cases f' with
    | nil => simp at hf'l; omega
    | cons a cs =>
      simp only [PriPoly.secret, List.head?_cons, Res.unwrap_some, Res.ok.injEq] at hf's
      exact ⟨cs, by rw [hf's]⟩
  obtain ⟨cs, rfl⟩ := hf'c
  -- the matching blinding polynomial
  let diff : List F := List.zipWith (fun a a' => (a - a') / h) f (secret' :: cs)
  have hdl : diff.length = t := by
    simp only [diff, List.length_zipWith, hfl]
    simp only [List.length_cons] at hf'l
    simp only [List.length_cons]; omega
  let g' : List F := List.zipWith (· + ·) g diff
  have hg'l : g'.length = t := by simp only [g', List.length_zipWith, hgl, hdl, min_self]
  have hcomm : commitsOf E.suite.base (deriveH E pubs) (secret' :: cs) g' =
      commitsOf E.suite.base (deriveH E pubs) f g := by
    have : ∀ (l l' m : List F), l.length = m.length → l'.length = l.length →
        commitsOf E.suite.base (deriveH E pubs) l'
          (List.zipWith (· + ·) m (List.zipWith (fun a a' => (a - a') / h) l l')) =
        commitsOf E.suite.base (deriveH E pubs) l m := by
      intro l
      induction l with
      | nil => intro l' m h1 h2; cases l' with
        | nil => simp [commitsOf]
        | cons _ _ => simp at h2
      | cons a l ih =>
        intro l' m h1 h2
        cases l' with
        | nil => simp at h2
        | cons a' l' => cases m with
          | nil => simp at h1
          | cons b m =>
            have := ih l' m (by simpa using h1) (by simpa using h2)
            unfold commitsOf at this ⊢
            simp only [List.zipWith_cons_cons, this, List.cons.injEq, and_true]
            rw [hH, ← hl.mul, ← hl.mul, ← hl.add, ← hl.add]
            congr 1
            field_simp
            ring
    exact this f (secret' :: cs) g (by rw [hfl, hgl]) (by rw [hfl]; exact hf'l)
  have hfv : ∀ i ∈ coalition, (⟨secret' :: cs⟩ : PriPoly F).eval i = (⟨f⟩ : PriPoly F).eval i := by
    intro i hi
    have := hf'v i hi
    rw [eval_v] at this
    rw [C01_eval_genuine, C01_eval_genuine]
    exact congrArg _ this
  have hpd : ∀ (l l' : List F) (x : F), l.length = l'.length →
      polyVal (List.zipWith (fun a a' => (a - a') / h) l l') x =
        (polyVal l x - polyVal l' x) / h := by
    intro l l' x hl
    have e1 : List.zipWith (fun a a' => (a - a') / h) l l' =
        (List.zipWith (· + ·) l (l'.map ((-1 : F) * ·))).map (h⁻¹ * ·) := by
      rw [List.zipWith_map_right, List.map_zipWith]
      congr 1
      funext a a'
      field_simp
      ring
    rw [e1, Dss.polyVal_map_mul, polyVal_zipWith_add (by simp [hl]), Dss.polyVal_map_mul]
    field_simp
    ring
  have hgv : ∀ i ∈ coalition, (⟨g'⟩ : PriPoly F).eval i = (⟨g⟩ : PriPoly F).eval i := by
    intro i hi
    rw [C01_eval_genuine, C01_eval_genuine]
    have hfe := hf'v i hi
    rw [eval_v] at hfe
    have : polyVal g' ((i + 1 : Nat) : F) = polyVal g ((i + 1 : Nat) : F) := by
      rw [polyVal_zipWith_add (by rw [hgl, hdl]), hpd _ _ _ (by rw [hfl]; exact hf'l.symm), hfe]
      simp
    exact congrArg _ this
  simp only [List.length_cons] at hf'l
  obtain ⟨d', hd'⟩ := newDealer_some E x secret' pubs t cs g' hv (by omega) (by rw [hg'l])
  obtain ⟨f2, g2, -, -, -, hf2, hg2, -, -, -, -, -, -, -, -, hsid', hdeals', hagg'⟩ :=
    VssR.newDealer_ok hd'
  have hf2' : f2 = secret' :: cs := by rw [hf2, List.take_of_length_le (by omega)]
  have hg2' : g2 = g' := by rw [hg2, List.take_of_length_le (by omega)]
  rw [hf2', hg2'] at hsid' hdeals' hagg'
  have hs : d'.sessionId = d.sessionId := by rw [hsid', hcomm, hsid]
  refine ⟨cs, g', d', hd', hs, by rw [hagg', hagg, hcomm, hs], ?_⟩
  intro i hi
  rw [hdeals', hdeals, List.getElem?_map, List.getElem?_map]
  by_cases hil : i < pubs.length
  · rw [List.getElem?_range hil]
    simp only [Option.map_some, hs, hcomm, hfv i hi, hgv i hi]
  · rw [List.getElem?_eq_none (by simpa using hil)]
    rfl

/-! ## C31: binding -/

/-- C31: two deals with the same commitments and index that both pass the verifier's check but
carry different shares give the discrete logarithm of `H` to base `B`. -/
theorem C31_two_openings (B H : G) (hl : Lin F B) (hlH : Lin F H) (h1H : (1 : F) • H = H)
    (hB : ∀ s : F, s • B = 0 → s = 0) (n : Nat) (d d' : Deal F G)
    (hd : GoodDealR B H n d) (hd' : GoodDealR B H n d')
    (hc : d.commitments = d'.commitments) (hi : d.secShare.i = d'.secShare.i)
    (hne : d.secShare.v ≠ d'.secShare.v) :
    d'.rndShare.v ≠ d.rndShare.v ∧
    H = ((d.secShare.v - d'.secShare.v) / (d'.rndShare.v - d.rndShare.v)) • B := by
  obtain ⟨-, -, -, -, -, h1⟩ := hd
  obtain ⟨-, -, -, -, -, h2⟩ := hd'
  rw [hc, hi, ← h2] at h1
  have h3 : (d.secShare.v - d'.secShare.v) • B = (d'.rndShare.v - d.rndShare.v) • H := by
    rw [hl.sub, hlH.sub, sub_eq_sub_iff_add_eq_add]
    rw [h1, add_comm]
  have hr : d'.rndShare.v - d.rndShare.v ≠ 0 := by
    intro h0
    rw [h0, hlH.zero] at h3
    exact hne (sub_eq_zero.1 (hB _ h3))
  refine ⟨fun h => hr (sub_eq_zero.2 h), ?_⟩
  rw [div_eq_inv_mul, hl.mul, h3, ← hlH.mul, inv_mul_cancel₀ hr, h1H]

/-- C31: the share and its blinding determine each other: with the same commitments, index and
blinding value there is only one share. -/
theorem C31_share_unique (B H : G) (hl : Lin F B) (hlH : Lin F H) (h1H : (1 : F) • H = H)
    (hB : ∀ s : F, s • B = 0 → s = 0) (n : Nat) (d d' : Deal F G)
    (hd : GoodDealR B H n d) (hd' : GoodDealR B H n d')
    (hc : d.commitments = d'.commitments) (hi : d.secShare.i = d'.secShare.i)
    (hr : d.rndShare.v = d'.rndShare.v) : d.secShare = d'.secShare := by
  by_contra hne
  have : d.secShare.v ≠ d'.secShare.v := by
    intro h
    apply hne
    cases hs : d.secShare; cases hs' : d'.secShare
    rw [hs, hs'] at h hi
    simp only at h hi
    rw [h, hi]
  exact (C31_two_openings B H hl hlH h1H hB n d d' hd hd' hc hi this).1 hr.symm

/-- C31: the check done by `verify_deal`, in plain terms. -/
theorem C31_check_deal (E : Env F G) (v v' : Verifier F G) (e : EncryptedDeal G) (k : F)
    (r : Response) (hn : v.verifiers.length < 2 ^ 32) (h0 : v.aggregator = none)
    (h : v.processEncryptedDeal E e k = (v', .ok r)) (hr : r.status = true) :
    ∃ d, v.decryptDeal E e = .ok d ∧ d.secShare.i = v.index ∧ v'.aggregator.bind (·.deal) = some d ∧
      GoodDealR E.suite.base (deriveH E v.verifiers) v.verifiers.length d := by
  rcases VssR.processEncryptedDeal_cases E v e k with
    (⟨_, h'⟩ | h') | ⟨d, hdec, hi, hnone, ⟨-, h'⟩ | ⟨st, hst, h1, h2⟩⟩
  · rw [h'] at h; cases h
  · rw [h'] at h; cases h
  · rw [h'] at h; cases h
  · rw [h] at h1 h2
    have hfor : v.aggregatorFor d = newAggregator v.verifiers d.commitments d.t d.sessionId := by
      unfold Verifier.aggregatorFor; rw [h0]; rfl
    rw [hfor] at hst h1 h2
    simp only at h1 h2
    have h2' := h2.symm
    simp only [Res.bind_eq_ok, Res.ok.injEq] at h2'
    obtain ⟨u, hu, hur⟩ := h2'
    have hst' : st = true := by rw [← hur] at hr; exact hr
    refine ⟨d, hdec, hi, ?_, ?_⟩
    · rw [h1]
      have := (VssR.addResponse_ext ((newAggregator v.verifiers d.commitments d.t d.sessionId).remember d)
        (VssR.mkReply E v d k st)).deal d rfl
      exact this
    · have := (VssR.checkDeal_ok_iff E _ d hn).1 (hst.2 hst')
      exact this.2

/-! ## C32: certification -/

/-- C32: `deal_certified` in every reachable state: nobody missing, dealer not caught, at least
`t` approvals. -/
theorem C32_certified_iff (E : Env F G) (x : F) (dealer : G) (pubs : List G) (v : Verifier F G)
    (hv : VssR.newVerifier E.suite x dealer pubs = .ok v) (cs : List (RCall F G))
    (a : Aggregator F G) (ha : (rRun E v cs).aggregator = some a) :
    a.dealCertified = true ↔ a.badDealer = false ∧
      (∀ i < pubs.length, ∃ r, a.responses.get i = some r) ∧
      a.t ≤ ((Finset.range pubs.length).filter
        (fun i => ∃ r, a.responses.get i = some r ∧ r.status = true)).card := by
  obtain ⟨h0, hp, -⟩ := newVerifier_fields hv
  have hwf := reachable_wf E v h0 cs a ha
  rw [hp] at hwf
  rw [VssR.certified_iff hwf]
  have : missing a.responses pubs.length = ∅ ↔ ∀ i < pubs.length, ∃ r, a.responses.get i = some r := by
    unfold missing
    rw [Finset.filter_eq_empty_iff]
    simp only [Finset.mem_range]
    refine forall₂_congr fun i _ => ?_
    rw [← Option.ne_none_iff_exists']
  rw [this]
  rfl

/-- C32: `deal` gives the stored deal exactly if it is certified. -/
theorem C32_deal_iff (v : Verifier F G) (d : Deal F G) :
    v.deal = some d ↔ ∃ a, v.aggregator = some a ∧ a.dealCertified = true ∧ a.deal = some d := by
  unfold Verifier.deal
  cases ha : v.aggregator with
  | none => simp
  | some a =>
    simp only
    by_cases hc : a.dealCertified = true
    · rw [if_neg (by simp [hc, dealCertified_enough hc])]
      simp [hc]
    · rw [if_pos (by right; simpa using hc)]
      simp [hc]

/-- C32: `set_timeout` stores a complaint for each missing index below `n`, nothing else. -/
theorem C32_timeout (v : Verifier F G) (a : Aggregator F G) (ha : v.aggregator = some a) :
    ∃ a', v.setTimeout.aggregator = some a' ∧ a'.badDealer = a.badDealer ∧ a'.t = a.t ∧
      a'.deal = a.deal ∧ ∀ i, a'.responses.get i =
        match a.responses.get i with
        | some r => some r
        | none => if i < a.verifiers.length then
            some { sessionId := a.sid, index := i, status := false, signature := [] } else none := by
  refine ⟨a.cleanVerifiers, by unfold Verifier.setTimeout; rw [ha]; rfl, rfl, rfl, rfl,
    fun i => VssR.cleanVerifiers_get a i⟩

/-- C32: after the timeout, certification only depends on the bad mark and the number of
approvals. -/
theorem C32_certified_after_timeout (E : Env F G) (x : F) (dealer : G) (pubs : List G)
    (v : Verifier F G) (hv : VssR.newVerifier E.suite x dealer pubs = .ok v)
    (cs : List (RCall F G)) (a : Aggregator F G) (ha : (rRun E v cs).aggregator = some a) :
    a.cleanVerifiers.dealCertified = true ↔ a.badDealer = false ∧
      a.t ≤ ((Finset.range pubs.length).filter
        (fun i => ∃ r, a.responses.get i = some r ∧ r.status = true)).card := by
  obtain ⟨h0, hp, -⟩ := newVerifier_fields hv
  have hwf := reachable_wf E v h0 cs a ha
  have ha' : (rRun E v (cs ++ [.timeout])).aggregator = some a.cleanVerifiers := by
    simp only [rRun, List.foldl_append, List.foldl_cons, List.foldl_nil]
    change (rRun E v cs).setTimeout.aggregator = _
    unfold Verifier.setTimeout
    rw [ha]; rfl
  have hget := VssR.cleanVerifiers_get a
  rw [hwf.verifiers, hp] at hget
  rw [C32_certified_iff E x dealer pubs v hv _ _ ha']
  have h1 : ∀ i < pubs.length, ∃ r, a.cleanVerifiers.responses.get i = some r := by
    intro i hi
    rw [hget]
    cases a.responses.get i with
    | some r => exact ⟨r, rfl⟩
    | none => simp [hi]
  have h2 : ((Finset.range pubs.length).filter
        (fun i => ∃ r, a.cleanVerifiers.responses.get i = some r ∧ r.status = true)) =
      ((Finset.range pubs.length).filter
        (fun i => ∃ r, a.responses.get i = some r ∧ r.status = true)) := by
    apply Finset.filter_congr
    intro i hi
    rw [hget]
    cases hr : a.responses.get i with
    | some r => rfl
    | none => simp [Finset.mem_range.1 hi]
  rw [h2]
  constructor
  · rintro ⟨h3, -, h4⟩; exact ⟨h3, h4⟩
  · rintro ⟨h3, h4⟩; exact ⟨h3, h1, h4⟩

/-- C32: a certified deal stays certified unless the dealer is caught later. -/
theorem C32_certified_stays (E : Env F G) (x : F) (dealer : G) (pubs : List G) (v : Verifier F G)
    (hv : VssR.newVerifier E.suite x dealer pubs = .ok v) (cs later : List (RCall F G))
    (a : Aggregator F G) (ha : (rRun E v cs).aggregator = some a) (hc : a.dealCertified = true) :
    ∃ a', (rRun E v (cs ++ later)).aggregator = some a' ∧
      (a'.badDealer = false → a'.dealCertified = true) := by
  have hrun : rRun E v (cs ++ later) = rRun E (rRun E v cs) later := by simp [rRun]
  obtain ⟨a', ha', hext⟩ := VssR.rRun_ext E (rRun E v cs) later a ha
  rw [← hrun] at ha'
  refine ⟨a', ha', fun hb => ?_⟩
  rw [C32_certified_iff E x dealer pubs v hv _ _ ha'] 
  rw [C32_certified_iff E x dealer pubs v hv _ _ ha] at hc
  obtain ⟨-, h1, h2⟩ := hc
  refine ⟨hb, ?_, ?_⟩
  · intro i hi
    obtain ⟨r, hr⟩ := h1 i hi
    obtain ⟨r', hr', -⟩ := hext.responses i r hr
    exact ⟨r', hr'⟩
  · rw [hext.t]
    refine h2.trans (Finset.card_le_card ?_)
    intro i hi
    simp only [Finset.mem_filter] at hi ⊢
    obtain ⟨hi, r, hr, hs⟩ := hi
    obtain ⟨r', hr', -, -, -, h⟩ := hext.responses i r hr
    exact ⟨hi, r', hr', h hs⟩

/-! ## C27, C28 for the Rabin variant -/

/-- C27 for the Rabin variant: after an accepted justification the complaint is stored as an
approval. -/
theorem C27_rabin_complaint_becomes_approval (E : Env F G) (v : Verifier F G)
    (j : Justification F G) (h : (v.processJustification E j).2 = .ok ()) :
    ∃ a a' r, v.aggregator = some a ∧ (v.processJustification E j).1.aggregator = some a' ∧
      a.responses.get j.index = some r ∧ r.status = false ∧
      (∀ i, a'.responses.get i = if i = j.index then some { r with status := true }
        else a.responses.get i) ∧ a'.badDealer = a.badDealer := by
  unfold Verifier.processJustification at h ⊢
  cases ha : v.aggregator with
  | none => rw [ha] at h; cases h
  | some a =>
    rw [ha] at h
    simp only at h ⊢
    rcases VssR.verifyJustification_cases E a j with
      ⟨e, h'⟩ | ⟨r, hl, hr, hs, ⟨-, h'⟩ | ⟨e, -, h'⟩ | ⟨-, h'⟩⟩ <;> rw [h'] at h
    · cases h
    · cases h
    · cases h
    · refine ⟨a, _, r, rfl, rfl, hr, hs, ?_, ?_⟩
      · intro i
        rw [h']
        exact AMap.get_insert _ _ _ _
      · rw [h']; exact VssR.remember_bad a j.deal

/-- C27 for the Rabin variant: exactly which justifications are accepted (once a deal is stored;
`n` below 2^32). The revealed deal is checked against its own commitments. -/
theorem C27_rabin_accepts_iff (E : Env F G) (v : Verifier F G) (j : Justification F G)
    (a : Aggregator F G) (ha : v.aggregator = some a) (d0 : Deal F G) (h0 : a.deal = some d0)
    (hn : a.verifiers.length < 2 ^ 32) :
    (v.processJustification E j).2 = .ok () ↔
      j.index < a.verifiers.length ∧
      (∃ r, a.responses.get j.index = some r ∧ r.status = false) ∧
      a.sid = j.deal.sessionId ∧
      GoodDealR E.suite.base (deriveH E a.verifiers) a.verifiers.length j.deal := by
  have hrem : a.remember j.deal = a := by unfold Aggregator.remember; rw [h0]
  rw [← VssR.checkDeal_ok_iff E a j.deal hn]
  unfold Verifier.processJustification Aggregator.verifyJustification Aggregator.verifyDeal
  simp only [ha, Bool.and_false, Bool.false_eq_true, if_false, hrem]
  by_cases hi : j.index < a.verifiers.length
  · have hp : findPub a.verifiers j.index = some a.verifiers[j.index] :=
      List.getElem?_eq_getElem hi
    simp only [hp, Option.isNone_some, Bool.false_eq_true, if_false, hi, true_and]
    cases hr : a.responses.get j.index with
    | none => simp
    | some r =>
      cases hs : r.status
      · simp only [Option.some.injEq]
        cases hc : a.checkDeal E j.deal with
        | ok u => cases u; simp [hs]
        | err e => simp [hs]
        | panic => simp [hs]
      · simp [hs]
  · have hp : findPub a.verifiers j.index = none := by
      simp only [findPub, List.getElem?_eq_none_iff]; omega
    simp [hp, hi]

/-- C28 for the Rabin variant: a justification whose deal fails the checks marks the dealer,
provided there is a complaint at its index. -/
theorem C28_rabin_bad_justification_marks (E : Env F G) (v : Verifier F G) (j : Justification F G)
    (a : Aggregator F G) (ha : v.aggregator = some a) (d0 : Deal F G) (h0 : a.deal = some d0)
    (r : Response) (hi : j.index < a.verifiers.length)
    (hr : a.responses.get j.index = some r) (hs : r.status = false)
    (hc : j.deal.commitments ≠ []) (hn : a.verifiers.length < 2 ^ 32)
    (hbad : ¬ (a.sid = j.deal.sessionId ∧
      GoodDealR E.suite.base (deriveH E a.verifiers) a.verifiers.length j.deal)) :
    ∃ a', (v.processJustification E j).1.aggregator = some a' ∧ a'.badDealer = true := by
  have hrem : a.remember j.deal = a := by unfold Aggregator.remember; rw [h0]
  unfold Verifier.processJustification
  simp only [ha]
  refine ⟨_, rfl, ?_⟩
  have hp : findPub a.verifiers j.index = some a.verifiers[j.index] :=
    List.getElem?_eq_getElem hi
  unfold Aggregator.verifyJustification Aggregator.verifyDeal
  simp only [hp, hr, hs, hrem, Option.isNone_some, Bool.false_eq_true, if_false, Bool.and_false]
  cases hcd : a.checkDeal E j.deal with
  | ok u => exact absurd ((VssR.checkDeal_ok_iff E a j.deal hn).1 hcd) hbad
  | err e => rfl
  | panic =>
    exfalso
    unfold Aggregator.checkDeal at hcd
    simp only [C06_pub_eval, if_neg hc] at hcd
    split at hcd; · cases hcd
    split at hcd; · cases hcd
    split at hcd; · cases hcd
    split at hcd; · cases hcd
    simp only [Res.mapErr_ok, Res.bind_ok] at hcd
    split at hcd <;> cases hcd

/-- C28 for the Rabin variant: once the dealer is marked, no later history makes the deal
certified. -/
theorem C28_rabin_bad_forever (E : Env F G) (v : Verifier F G) (a : Aggregator F G)
    (ha : v.aggregator = some a) (h : a.badDealer = true) (cs : List (RCall F G)) :
    ∃ a', (rRun E v cs).aggregator = some a' ∧ a'.badDealer = true ∧ a'.dealCertified = false ∧
      (rRun E v cs).deal = none := by
  obtain ⟨a', ha', hext⟩ := VssR.rRun_ext E v cs a ha
  have hb := hext.bad h
  have hc : a'.dealCertified = false := by
    unfold Aggregator.dealCertified; simp [hb]
  exact ⟨a', ha', hb, hc, by unfold Verifier.deal; rw [ha']; simp [hc]⟩

end

end Kyber.Props
