/-
Property C138: participants of a Rabin key generation that have finished hold the same key, however the messages are
delayed.
-/
import Verif.Props.DkgRabinHonest
import Verif.Props.DkgPedersenSilent
import Verif.Lemmas.Orders

set_option linter.unusedSectionVars false

namespace Kyber.Props

open Kyber Kyber.Poly Kyber.Spec Kyber.VssR Kyber.DkgR

/-- C138, full claim: all participants are correct and the messages are only delayed. Two participants that report
`finished()`, each after the part of the messages that has reached it, hold the same public commitments. -/
def C138_statement : Prop :=
  ∀ (F G : Type) [Field F] [AddCommGroup G] [DecidableEq G] [DistribSMul F G] (E : Env F G) (_ : E.suite.Lawful)
    (_ : E.prims.Lawful) (_ : ∀ b, Lin F (E.pickFrom b)) (_ : PrimsOkR E) (N : RNet F G) (_ : N.Honest E)
    (_ : ∀ j < N.n, ∀ dl ∈ (N.D j).dealer.deals, E.codec.dec (E.codec.enc dl) = some dl) (z : F) (ord ord' : MapOrder)
    (i i' : Nat) (s s' : List RMsg) (k k' : DkgR.DistKeyShare F G), i < N.n → i' < N.n →
    RSchedule N.n i s → RSchedule N.n i' s' →
    (qRun E (N.D i) (s.map (RMsg.call E N z ord i))).finished ord' = true →
    (qRun E (N.D i') (s'.map (RMsg.call E N z ord i'))).finished ord' = true →
    (qRun E (N.D i) (s.map (RMsg.call E N z ord i))).distKeyShare ord' = .ok k →
    (qRun E (N.D i') (s'.map (RMsg.call E N z ord i'))).distKeyShare ord' = .ok k' →
    k.commits = k'.commits

/-- The dealers about which participant `i` has heard everything: their deal and the answers of all others to it. -/
def heardAll (n i : Nat) (s : List RMsg) : Finset Nat :=
  (Finset.range n).filter fun j => RMsg.dealOf i j ∈ s ∧ ∀ l < n, l ≠ i → l ≠ j → RMsg.resp j l ∈ s

/-- The message by which participant `i` comes by the commitments of `j`. -/
def commitsOf (i j : Nat) : RMsg := if j = i then .ownCommits else .commits j

variable {F G : Type} [Field F] [AddCommGroup G] [DecidableEq G]

section

variable [SMul F G]

/-- The sum of the secret polynomials of the dealers in `A`. -/
def rSumPolyOn (N : RNet F G) (A : Finset Nat) : List F :=
  (List.range N.t).map (fun c => ∑ j ∈ A, (N.poly j).getD c 0)

theorem rSumPolyOn_val (N : RNet F G) (A : Finset Nat) (hl : ∀ j ∈ A, (N.poly j).length = N.t) (x : F) :
    polyVal (rSumPolyOn N A) x = ∑ j ∈ A, polyVal (N.poly j) x := by
  unfold polyVal
  have h1 : ∀ j ∈ A, (∑ k ∈ Finset.range (N.poly j).length, (N.poly j).getD k 0 * x ^ k) =
      ∑ k ∈ Finset.range N.t, (N.poly j).getD k 0 * x ^ k := by
    intro j hj
    rw [hl j hj]
  rw [Finset.sum_congr rfl h1, Finset.sum_comm]
  unfold rSumPolyOn
  rw [List.length_map, List.length_range]
  refine Finset.sum_congr rfl (fun k hk => ?_)
  rw [List.getD_eq_getElem?_getD, List.getElem?_map, List.getElem?_range (Finset.mem_range.1 hk),
    Option.map_some, Option.getD_some, Finset.sum_mul]

end

section

variable [DistribSMul F G]
variable (E : Env F G) (hS : E.suite.Lawful) (hP : E.prims.Lawful) (hH : ∀ b, Lin F (E.pickFrom b))
  (hO : PrimsOkR E) (N : RNet F G) (h : N.Honest E)
  (hC : ∀ j < N.n, ∀ dl ∈ (N.D j).dealer.deals, E.codec.dec (E.codec.enc dl) = some dl) (z : F) (ord : MapOrder)
  (i : Nat) (hi : i < N.n) (s : List RMsg) (hs : RSchedule N.n i s)

include hS hP hH hO h hC hi hs

/-- C138: which dealers are qualified at a participant after any part of an honest run: exactly those about which it
has heard everything. -/
theorem C138_qualified (j : Nat) :
    QualifiedR (qRun E (N.D i) (s.map (RMsg.call E N z ord i))) j ↔ j ∈ heardAll N.n i s := by
  obtain ⟨hI, -⟩ := inv_run hS hP hH hO h hC hi z ord s hs
  set d := qRun E (N.D i) (s.map (RMsg.call E N z ord i)) with hd
  unfold heardAll
  rw [Finset.mem_filter, Finset.mem_range]
  constructor
  · rintro ⟨v, a, hv, ha, hc⟩
    have hj := hI.keys j v hv
    have hver := hI.ver j hj
    unfold VerSt at hver
    split at hver
    · rename_i hg
      obtain ⟨v', a', h1, h2, h3⟩ := hver
      rw [hv] at h1
      obtain rfl := Option.some.inj h1
      rw [ha] at h2
      obtain rfl := Option.some.inj h2
      refine ⟨hj, hg, fun l hl hli hlj => ?_⟩
      have hwf := h3.wf (stored_index hi hs.wanted hj)
      have hmiss := ((certified_iff hwf).1 hc).2.1
      have hl' : l ∉ missing a.responses (N.pubs E).length := by rw [hmiss]; simp
      have hsome : a.responses.get l ≠ none := by
        intro hn
        apply hl'
        unfold missing
        rw [Finset.mem_filter, Finset.mem_range, pubs_length]
        exact ⟨hl, by simpa using hn⟩
      rw [h3.resp] at hsome
      unfold stored at hsome
      rw [if_neg hli, if_neg hlj] at hsome
      by_contra hno
      rw [if_neg hno] at hsome
      exact hsome rfl
    · rw [hv] at hver; cases hver
  · rintro ⟨hj, hg, hr⟩
    obtain ⟨v, a, h1, h2, h3, -⟩ := cert_of_all h hi hI hs.wanted hj hg hr
    exact ⟨v, a, h1, h2, h3⟩

/-- C138: when a participant reports that it has finished, after any part of an honest run: as soon as it has heard
everything about `t` dealers and the commitments of all dealers about which it has heard everything. -/
theorem C138_finished_iff (ord' : MapOrder) :
    (qRun E (N.D i) (s.map (RMsg.call E N z ord i))).finished ord' = true ↔
      N.t ≤ (heardAll N.n i s).card ∧ ∀ j ∈ heardAll N.n i s, commitsOf i j ∈ s := by
  obtain ⟨hI, -⟩ := inv_run hS hP hH hO h hC hi z ord s hs
  rw [C39_finished_iff E _ _ _ _ _ _ (N.D i) (h.start i hi) _ ord' _ fun j =>
    (C138_qualified E hS hP hH hO N h hC z ord i hi s hs j).symm]
  refine and_congr_right fun _ => forall₂_congr fun j hj => ?_
  have hj' : j < N.n := by
    unfold heardAll at hj
    exact Finset.mem_range.1 (Finset.mem_filter.1 hj).1
  rw [hI.comm j hj']
  have : gotC i s j ↔ commitsOf i j ∈ s := by
    unfold gotC commitsOf
    split <;> rfl
  rw [← this]
  by_cases hg : gotC i s j
  · rw [if_pos hg]; exact ⟨fun _ => hg, fun _ => ⟨_, rfl⟩⟩
  · rw [if_neg hg]; exact ⟨fun ⟨_, e⟩ => (by cases e), fun e => absurd e hg⟩

/-- C138: the key a participant gets, after any part of an honest run: none before it has finished, then the sum over
the dealers about which it has heard everything. -/
theorem C138_key (ord' : MapOrder) (k : DkgR.DistKeyShare F G) :
    (qRun E (N.D i) (s.map (RMsg.call E N z ord i))).distKeyShare ord' = .ok k ↔
      (N.t ≤ (heardAll N.n i s).card ∧ ∀ j ∈ heardAll N.n i s, commitsOf i j ∈ s) ∧
      k = { commits := (rSumPolyOn N (heardAll N.n i s)).map (fun c => c • E.suite.base)
            share := ⟨i, polyVal (rSumPolyOn N (heardAll N.n i s)) ((i + 1 : Nat) : F)⟩ } := by
  obtain ⟨hI, -⟩ := inv_run hS hP hH hO h hC hi z ord s hs
  have hmem : ∀ j ∈ heardAll N.n i s, j < N.n ∧ got i s j ∧ ∀ l < N.n, l ≠ i → l ≠ j → RMsg.resp j l ∈ s := by
    intro j hj
    unfold heardAll at hj
    obtain ⟨h1, h2, h3⟩ := Finset.mem_filter.1 hj
    exact ⟨Finset.mem_range.1 h1, h2, h3⟩
  have hD := fun j hj => honest_dealer h (j := j) hj
  have hcom : ∀ j < N.n, ∀ p, (qRun E (N.D i) (s.map (RMsg.call E N z ord i))).commitments.get j = some p ↔
      commitsOf i j ∈ s ∧ p = ⟨some E.suite.base, (N.poly j).map (· • E.suite.base)⟩ := by
    intro j hj p
    rw [hI.comm j hj]
    have : gotC i s j ↔ commitsOf i j ∈ s := by
      unfold gotC commitsOf
      split <;> rfl
    by_cases hg : gotC i s j
    · rw [if_pos hg, Option.some.injEq, eq_comm, and_iff_right (this.1 hg)]
    · rw [if_neg hg]
      constructor
      · intro e; cases e
      · rintro ⟨e, -⟩; exact absurd (this.2 e) hg
  have hdeal : ∀ j ∈ heardAll N.n i s, ∀ D,
      HoldsDeal (qRun E (N.D i) (s.map (RMsg.call E N z ord i))) j D ↔ D = N.plain E j i := by
    intro j hj D
    obtain ⟨hjn, hg, hr⟩ := hmem j hj
    obtain ⟨v, a, h1, h2, -, h4, -⟩ := cert_of_all h hi hI hs.wanted hjn hg hr
    constructor
    · rintro ⟨v', a', e1, e2, e3⟩
      rw [h1] at e1
      obtain rfl := Option.some.inj e1
      rw [h2] at e2
      obtain rfl := Option.some.inj e2
      rw [h4] at e3
      exact (Option.some.inj e3).symm
    · rintro rfl
      exact ⟨v, a, h1, h2, h4⟩
  have hkey : (⟨(List.range N.t).map (fun c => ∑ j ∈ heardAll N.n i s,
        ((N.poly j).map (· • E.suite.base)).getD c 0),
      ⟨(N.D i).index, ∑ j ∈ heardAll N.n i s, (N.plain E j i).secShare.v⟩⟩ : DkgR.DistKeyShare F G) =
      { commits := (rSumPolyOn N (heardAll N.n i s)).map (fun c => c • E.suite.base)
        share := ⟨i, polyVal (rSumPolyOn N (heardAll N.n i s)) ((i + 1 : Nat) : F)⟩ } := by
    congr 1
    · unfold rSumPolyOn
      rw [List.map_map]
      refine List.map_congr_left (fun c hc => ?_)
      simp only [Function.comp_apply]
      rw [hS.base_lin.sum]
      refine Finset.sum_congr rfl (fun j hj => ?_)
      have hc' : c < (N.poly j).length := by
        rw [(hD j (hmem j hj).1).len]; exact List.mem_range.1 hc
      rw [List.getD_eq_getElem?_getD, List.getD_eq_getElem?_getD, List.getElem?_map, List.getElem?_eq_getElem hc']
      rfl
    · rw [(honest_static h hi).1.index]
      congr 1
      rw [rSumPolyOn_val N _ (fun j hj => (hD j (hmem j hj).1).len)]
      refine Finset.sum_congr rfl (fun j hj => ?_)
      show ((⟨N.poly j⟩ : PriPoly F).eval i).v = _
      rw [C01_eval_genuine]
  have ht := (hD i hi).valid
  rw [C39_dist_key_share_iff E _ _ _ _ _ _ (N.D i) (h.start i hi) _ ord' k _ fun j =>
    (C138_qualified E hS hP hH hO N h hC z ord i hi s hs j).symm]
  constructor
  · rintro ⟨h1, D, P, len, h2, rfl⟩
    refine ⟨⟨h1, fun j hj => ((hcom j (hmem j hj).1 _).1 (h2 j hj).2.1).1⟩, ?_⟩
    have hP' : ∀ j ∈ heardAll N.n i s, P j = ⟨some E.suite.base, (N.poly j).map (· • E.suite.base)⟩ :=
      fun j hj => ((hcom j (hmem j hj).1 _).1 (h2 j hj).2.1).2
    have hD' : ∀ j ∈ heardAll N.n i s, D j = N.plain E j i := fun j hj => (hdeal j hj _).1 (h2 j hj).1
    have hne : (heardAll N.n i s).Nonempty := by
      rw [← Finset.card_pos]
      have := ht.1
      omega
    obtain ⟨j0, hj0⟩ := hne
    have hlen : len = N.t := by
      rw [← (h2 j0 hj0).2.2, hP' j0 hj0, List.length_map, (hD j0 (hmem j0 hj0).1).len]
    rw [← hkey, hlen]
    congr 1
    · refine List.map_congr_left fun c _ => Finset.sum_congr rfl fun j hj => ?_
      rw [hP' j hj]
    · congr 1
      exact Finset.sum_congr rfl fun j hj => by rw [hD' j hj]
  · rintro ⟨⟨h1, h2⟩, rfl⟩
    refine ⟨h1, fun j => N.plain E j i, fun j => ⟨some E.suite.base, (N.poly j).map (· • E.suite.base)⟩, N.t, ?_,
      hkey.symm⟩
    intro j hj
    refine ⟨(hdeal j hj _).2 rfl, (hcom j (hmem j hj).1 _).2 ⟨h2 j hj, rfl⟩, ?_⟩
    rw [List.length_map, (hD j (hmem j hj).1).len]

/-- C138: participants that answer the deals of the others but send none keep nobody from a key. `A` are at least `t`
dealers; all messages about them arrive, and no deal of anybody else. Then the participant, whether in `A` or not, has
finished with the sum over `A`. -/
theorem C138_nondealers (A : Finset Nat) (hA : ∀ j ∈ A, j < N.n) (ht : N.t ≤ A.card)
    (hin : ∀ j ∈ A, RMsg.dealOf i j ∈ s ∧ (∀ l < N.n, l ≠ i → l ≠ j → RMsg.resp j l ∈ s) ∧ commitsOf i j ∈ s)
    (hout : ∀ j ∉ A, RMsg.dealOf i j ∉ s) (ord' : MapOrder) :
    (qRun E (N.D i) (s.map (RMsg.call E N z ord i))).finished ord' = true ∧
    (qRun E (N.D i) (s.map (RMsg.call E N z ord i))).distKeyShare ord' = .ok
      { commits := (rSumPolyOn N A).map (fun c => c • E.suite.base)
        share := ⟨i, polyVal (rSumPolyOn N A) ((i + 1 : Nat) : F)⟩ } := by
  have hA' : heardAll N.n i s = A := by
    ext j
    unfold heardAll
    rw [Finset.mem_filter, Finset.mem_range]
    constructor
    · rintro ⟨-, h1, -⟩
      by_contra hj
      exact hout j hj h1
    · intro hj
      exact ⟨hA j hj, (hin j hj).1, (hin j hj).2.1⟩
  have hboth : N.t ≤ (heardAll N.n i s).card ∧ ∀ j ∈ heardAll N.n i s, commitsOf i j ∈ s := by
    rw [hA']
    exact ⟨ht, fun j hj => (hin j hj).2.2⟩
  refine ⟨(C138_finished_iff E hS hP hH hO N h hC z ord i hi s hs ord').2 hboth,
    (C138_key E hS hP hH hO N h hC z ord i hi s hs ord' _).2 ⟨hboth, by rw [hA']⟩⟩

end

section

variable [SMul F G]

/-- C138: shares of participants that heard of the same dealers `A` fit together: any `t` of them recover the sum of
the secrets of `A`, whose public key is their key. -/
theorem C138_recover (q : Nat) [CharP F q] (S : Suite F G) (ord : MapOrder) (N : RNet F G)
    (hT : 0 < N.t) (hn : N.n ≤ q) (A : Finset Nat)
    (sel : List Nat) (hsel : ∀ i ∈ sel, i < N.n) (hcount : N.t ≤ sel.toFinset.card) :
    Poly.recoverSecret ord (sel.map (fun i => some ⟨i, polyVal (rSumPolyOn N A) ((i + 1 : Nat) : F)⟩))
      N.t = .ok (∑ j ∈ A, N.sec j) ∧
    ((rSumPolyOn N A).map (fun c => c • S.base)).head? = some ((∑ j ∈ A, N.sec j) • S.base) := by
  obtain ⟨T', hT'⟩ : ∃ T', N.t = T' + 1 := ⟨N.t - 1, by omega⟩
  have hcons : rSumPolyOn N A = (∑ j ∈ A, N.sec j) :: (rSumPolyOn N A).tail := by
    unfold rSumPolyOn
    rw [hT', List.range_succ_eq_map, List.map_cons, List.tail_cons]
    rfl
  refine ⟨?_, by rw [hcons]; rfl⟩
  have hind : indices (sel.map (fun i => some
      (⟨i, polyVal (rSumPolyOn N A) ((i + 1 : Nat) : F)⟩ : Share F))) = sel.toFinset := by
    rw [show (fun i : Nat => some (⟨i, polyVal (rSumPolyOn N A) ((i + 1 : Nat) : F)⟩ : Share F)) =
      fun i => some ((fun i => (⟨i, polyVal (rSumPolyOn N A) ((i + 1 : Nat) : F)⟩ : Share F)) i)
      from rfl, VssP.indices_map_some]
    simp
  apply C01_recover_secret q ord _ (rSumPolyOn N A).tail
  · rw [← hcons]
    intro s hs
    obtain ⟨i, hi, he⟩ := List.mem_map.1 hs
    cases he
    rfl
  · intro i hi
    rw [hind, List.mem_toFinset] at hi
    exact lt_of_lt_of_le (hsel i hi) hn
  · rw [← hcons]; unfold rSumPolyOn; simp
  · rw [hind]; exact hcount

end

/-! ## A case

Three participants, threshold 2. Nothing about dealer 2 has reached participant 1 yet. -/

namespace EarlyExample

open Kyber.Toy

theorem early_heard : heardAll 3 1 (rOrderOn 3 {0, 1} 1) = {0, 1} ∧
    (∀ j ∈ ({0, 1} : Finset Nat), commitsOf 1 j ∈ rOrderOn 3 {0, 1} 1) ∧
    heardAll 3 0 (rOrder 3 0) = {0, 1, 2} ∧ ∀ j ∈ ({0, 1, 2} : Finset Nat), commitsOf 0 j ∈ rOrder 3 0 := by
  refine ⟨?_, ?_, ?_, ?_⟩ <;> decide +kernel

/-- `C138_key`, `C138_finished_iff`: what participants 1 and 0 get. -/
theorem early_keys :
    (∀ ord, (qRun envR ((netR envR).D 1)
      ((rOrderOn 3 {0, 1} 1).map (RMsg.call envR (netR envR) 1 MapOrder.id 1))).finished ord = true) ∧
    (∀ ord, (qRun envR ((netR envR).D 1)
      ((rOrderOn 3 {0, 1} 1).map (RMsg.call envR (netR envR) 1 MapOrder.id 1))).distKeyShare ord =
      .ok ⟨[(7 + 1) * 2, (5 + 6) * 2], ⟨1, (7 + 1) + (5 + 6) * 2⟩⟩) ∧
    (∀ ord, (qRun envR ((netR envR).D 0)
      ((rOrder 3 0).map (RMsg.call envR (netR envR) 1 MapOrder.id 0))).finished ord = true) ∧
    (∀ ord, (qRun envR ((netR envR).D 0)
      ((rOrder 3 0).map (RMsg.call envR (netR envR) 1 MapOrder.id 0))).distKeyShare ord =
      .ok ⟨[(7 + 1 + 4) * 2, (5 + 6 + 9) * 2], ⟨0, (7 + 1 + 4) + (5 + 6 + 9) * 1⟩⟩) := by
  obtain ⟨h1, h2, h3, h4⟩ := early_heard
  have hC : ∀ j < (netR envR).n, ∀ dl ∈ ((netR envR).D j).dealer.deals, envR.codec.dec (envR.codec.enc dl) = some dl :=
    fun _ _ d _ => codecR_lawful d
  have hO : PrimsOkR envR := ⟨fun _ _ => rfl, fun _ _ _ _ => rfl⟩
  have hH : ∀ b, Lin (ZMod 11) (envR.pickFrom b) := fun _ => Lin.of_module _
  have c1 : (netR envR).t ≤ (heardAll (netR envR).n 1 (rOrderOn 3 {0, 1} 1)).card ∧
      ∀ j ∈ heardAll (netR envR).n 1 (rOrderOn 3 {0, 1} 1), commitsOf 1 j ∈ rOrderOn 3 {0, 1} 1 := by
    rw [show (netR envR).n = 3 from rfl, h1]
    exact ⟨by decide, h2⟩
  have c0 : (netR envR).t ≤ (heardAll (netR envR).n 0 (rOrder 3 0)).card ∧
      ∀ j ∈ heardAll (netR envR).n 0 (rOrder 3 0), commitsOf 0 j ∈ rOrder 3 0 := by
    rw [show (netR envR).n = 3 from rfl, h3]
    exact ⟨by decide, h4⟩
  refine ⟨fun ord => ?_, fun ord => ?_, fun ord => ?_, fun ord => ?_⟩
  · exact (C138_finished_iff envR lawful prims_lawful hH hO (netR envR) DkgRExample.netR_honest hC 1 MapOrder.id 1
      (by decide) _ (rOrderOn_ok 3 {0, 1} 1 (by decide)) ord).2 c1
  · refine (C138_key envR lawful prims_lawful hH hO (netR envR) DkgRExample.netR_honest hC 1 MapOrder.id 1
      (by decide) _ (rOrderOn_ok 3 {0, 1} 1 (by decide)) ord _).2 ⟨c1, ?_⟩
    rw [show (netR envR).n = 3 from rfl, h1]
    decide +kernel
  · exact (C138_finished_iff envR lawful prims_lawful hH hO (netR envR) DkgRExample.netR_honest hC 1 MapOrder.id 0
      (by decide) _ (rOrder_ok 3 0 (by decide)).1 ord).2 c0
  · refine (C138_key envR lawful prims_lawful hH hO (netR envR) DkgRExample.netR_honest hC 1 MapOrder.id 0
      (by decide) _ (rOrder_ok 3 0 (by decide)).1 ord _).2 ⟨c0, ?_⟩
    rw [show (netR envR).n = 3 from rfl, h3]
    decide +kernel

/-- `C138_nondealers`: participants 0 and 1 deal, participant 2 only answers; participant 2 gets the key as well. -/
example : (qRun envR ((netR envR).D 2)
      ((rOrderOn 3 {0, 1} 2).map (RMsg.call envR (netR envR) 1 MapOrder.id 2))).distKeyShare MapOrder.rev =
      .ok ⟨[(7 + 1) * 2, (5 + 6) * 2], ⟨2, (7 + 1) + (5 + 6) * 3⟩⟩ := by
  refine (C138_nondealers envR lawful prims_lawful (fun _ => Lin.of_module _) ⟨fun _ _ => rfl, fun _ _ _ _ => rfl⟩
    (netR envR) DkgRExample.netR_honest (fun _ _ d _ => codecR_lawful d) 1 MapOrder.id 2 (by decide) _
    (rOrderOn_ok 3 {0, 1} 2 (by decide)) {0, 1} (by decide) (by decide) ?_ ?_ MapOrder.rev).2.trans (by decide +kernel)
  · rw [show (netR envR).n = 3 from rfl]
    decide +kernel
  · intro j hj hm
    rw [mem_rOrderOn] at hm
    apply hj
    have := hm.2.2
    unfold RMsg.dealOf at this
    split at this
    · rename_i e; rw [e]; exact this
    · exact this

/-- `C138_recover`: the shares of participants 2 and 1 of that run. -/
example : Poly.recoverSecret MapOrder.rev ([2, 1].map (fun i => some
    (⟨i, polyVal (rSumPolyOn (netR envR) {0, 1}) ((i + 1 : Nat) : ZMod 11)⟩ : Share (ZMod 11)))) 2 = .ok (7 + 1) :=
  (C138_recover 11 suite MapOrder.rev (netR envR) (by decide) (by decide) {0, 1} [2, 1]
    (by intro i hi; have : i = 2 ∨ i = 1 := by simpa using hi
        show i < 3; omega) (by decide)).1.trans (by decide +kernel)

end EarlyExample

/-- C138 is violated: with all participants correct, participant 1 reports `finished()` before anything about dealer 2
has reached it and holds another key than participant 0, which has everything. -/
theorem C138_violated : ¬ C138_statement := by
  intro hst
  obtain ⟨h1, h2, h3, h4⟩ := EarlyExample.early_keys
  have := hst (ZMod 11) (ZMod 11) Toy.envR Toy.lawful Toy.prims_lawful (fun _ => Lin.of_module _)
    ⟨fun _ _ => rfl, fun _ _ _ _ => rfl⟩ (Toy.netR Toy.envR) DkgRExample.netR_honest
    (fun _ _ d _ => Toy.codecR_lawful d) 1 MapOrder.id MapOrder.id 1 0 _ _ _ _ (by decide) (by decide)
    (rOrderOn_ok 3 {0, 1} 1 (by decide)) (rOrder_ok 3 0 (by decide)).1 (h1 _) (h3 _) (h2 _) (h4 _)
  revert this
  decide +kernel

end Kyber.Props
