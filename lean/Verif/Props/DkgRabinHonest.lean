/-
Property C39 for the Rabin DKG (`src/share/dkg/rabin/dkg.rs`): the honest run.
-/
import Verif.Lemmas.DkgRabinRun
import Verif.Props.DkgRabin
import Verif.Props.Shamir
import Verif.Spec.ToyDkgR
import Mathlib.Tactic.IntervalCases

set_option linter.unusedSectionVars false

namespace Kyber.Props

open Kyber Kyber.Poly Kyber.Spec Kyber.VssR Kyber.DkgR

variable {F G : Type} [Field F] [AddCommGroup G] [DecidableEq G]

section

variable [SMul F G]

/-- The sum of the secret polynomials. -/
def rSumPoly (N : RNet F G) : List F :=
  (List.range N.t).map (fun c => ∑ j ∈ Finset.range N.n, (N.poly j).getD c 0)

theorem rSumPoly_val (N : RNet F G) (hl : ∀ j < N.n, (N.poly j).length = N.t) (x : F) :
    polyVal (rSumPoly N) x = ∑ j ∈ Finset.range N.n, polyVal (N.poly j) x := by
  unfold polyVal
  have h1 : ∀ j ∈ Finset.range N.n,
      (∑ k ∈ Finset.range (N.poly j).length, (N.poly j).getD k 0 * x ^ k) =
      ∑ k ∈ Finset.range N.t, (N.poly j).getD k 0 * x ^ k := by
    intro j hj
    rw [hl j (Finset.mem_range.1 hj)]
  rw [Finset.sum_congr rfl h1, Finset.sum_comm]
  unfold rSumPoly
  rw [List.length_map, List.length_range]
  refine Finset.sum_congr rfl (fun k hk => ?_)
  rw [List.getD_eq_getElem?_getD, List.getElem?_map, List.getElem?_range (Finset.mem_range.1 hk),
    Option.map_some, Option.getD_some, Finset.sum_mul]

end

section

variable [DistribSMul F G]

/-- C39, the honest run of the Rabin DKG. Any number of participants with distinct keys, any accepted
threshold, any secret and blinding polynomials; at each participant the deals, responses and secret
commitments meant for it arrive in any order in which what is answered comes first. Then every call
of every participant succeeds and produces exactly the messages that the others receive; when
everything has arrived, the participant has finished and gets, for every iteration order, the
commitments of the sum of the secret polynomials, and as share the value of that sum at its
index. -/
theorem C39_honest_run (E : Env F G) (hS : E.suite.Lawful) (hP : E.prims.Lawful)
    (hH : ∀ b, Lin F (E.pickFrom b))
    (hO : PrimsOkR E) (N : RNet F G) (h : N.Honest E)
    (hC : ∀ j < N.n, ∀ dl ∈ (N.D j).dealer.deals, E.codec.dec (E.codec.enc dl) = some dl) (z : F) (ord : MapOrder)
    (i : Nat) (hi : i < N.n) (s : List RMsg) (hs : RSchedule N.n i s) :
    (∀ pre m post, s = pre ++ m :: post →
      m.Succeeds E N z ord i (qRun E (N.D i) (pre.map (RMsg.call E N z ord i)))) ∧
    (RComplete N.n i s → ∀ ord',
      (qRun E (N.D i) (s.map (RMsg.call E N z ord i))).finished ord' = true ∧
      (qRun E (N.D i) (s.map (RMsg.call E N z ord i))).distKeyShare ord' = .ok
        { commits := (rSumPoly N).map (fun c => c • E.suite.base)
          share := ⟨i, polyVal (rSumPoly N) ((i + 1 : Nat) : F)⟩ }) := by
  obtain ⟨hI, hsucc⟩ := inv_run hS hP hH hO h hC hi z ord s hs
  refine ⟨hsucc, fun hcomp ord' => ?_⟩
  set d := qRun E (N.D i) (s.map (RMsg.call E N z ord i)) with hd
  have hcert : ∀ j < N.n, ∃ v a, d.verifiers.get j = some v ∧ v.aggregator = some a ∧
      a.dealCertified = true ∧ a.deal = some (N.plain E j i) := by
    intro j hj
    have hg : got i s j := by
      unfold got RMsg.dealOf
      split
      · exact hcomp .deals trivial (by simp)
      · exact hcomp (.deal j) ⟨hj, by assumption⟩ (by simp)
    obtain ⟨v, a, h1, h2, h3, h4, -⟩ := cert_of_all h hi hI hs.wanted hj hg
      (fun l hl h1 h2 => hcomp (.resp j l) ⟨hj, hl, h1, h2⟩ (by simp))
    exact ⟨v, a, h1, h2, h3, h4⟩
  have hcom : ∀ j < N.n, d.commitments.get j =
      some ⟨some E.suite.base, (N.poly j).map (· • E.suite.base)⟩ := by
    intro j hj
    have hg : gotC i s j := by
      unfold gotC
      split
      · exact hcomp .ownCommits trivial (by simp)
      · exact hcomp (.commits j) ⟨hj, by assumption⟩ (by simp)
    rw [hI.comm j hj, if_pos hg]
  have hQ : ∀ j, j ∈ Finset.range N.n ↔ QualifiedR d j := by
    intro j
    rw [Finset.mem_range]
    constructor
    · intro hj
      obtain ⟨v, a, hv, ha, hc, -⟩ := hcert j hj
      exact ⟨v, a, hv, ha, hc⟩
    · rintro ⟨v, -, hv, -⟩
      exact hI.keys j v hv
  have hD := fun j hj => honest_dealer h (j := j) hj
  have hvalid := (hD i hi).valid
  refine ⟨?_, ?_⟩
  · rw [C39_finished_iff E _ _ _ _ _ _ (N.D i) (h.start i hi) _ ord' _ hQ, Finset.card_range]
    exact ⟨hvalid.2, fun j hj => ⟨_, hcom j (Finset.mem_range.1 hj)⟩⟩
  · rw [C39_dist_key_share_iff E _ _ _ _ _ _ (N.D i) (h.start i hi) _ ord' _ _ hQ, Finset.card_range]
    refine ⟨hvalid.2, fun j => N.plain E j i, fun j =>
      ⟨some E.suite.base, (N.poly j).map (· • E.suite.base)⟩, N.t, ?_, ?_⟩
    · intro j hj
      obtain ⟨v, a, hv, ha, -, hdl⟩ := hcert j (Finset.mem_range.1 hj)
      refine ⟨⟨v, a, hv, ha, hdl⟩, hcom j (Finset.mem_range.1 hj), ?_⟩
      rw [List.length_map, (hD j (Finset.mem_range.1 hj)).len]
    · congr 1
      · unfold rSumPoly
        rw [List.map_map]
        refine List.map_congr_left (fun c hc => ?_)
        simp only [Function.comp_apply]
        rw [hS.base_lin.sum]
        refine Finset.sum_congr rfl (fun j hj => ?_)
        have hc' : c < (N.poly j).length := by
          rw [(hD j (Finset.mem_range.1 hj)).len]; exact List.mem_range.1 hc
        rw [List.getD_eq_getElem?_getD, List.getD_eq_getElem?_getD, List.getElem?_map,
          List.getElem?_eq_getElem hc']
        rfl
      · rw [(honest_static h hi).1.index]
        congr 1
        rw [rSumPoly_val N (fun j hj => (hD j hj).len)]
        refine Finset.sum_congr rfl (fun j hj => ?_)
        show _ = ((⟨N.poly j⟩ : PriPoly F).eval i).v
        rw [C01_eval_genuine]

end

section

variable [SMul F G]

/-- C39: any selection of at least `t` key shares of an honest run recovers the sum of the secrets,
whose public key is the distributed key. -/
theorem C39_honest_recover (q : Nat) [CharP F q] (S : Suite F G) (ord : MapOrder) (N : RNet F G)
    (hT : 0 < N.t) (hn : N.n ≤ q)
    (sel : List Nat) (hsel : ∀ i ∈ sel, i < N.n) (hcount : N.t ≤ sel.toFinset.card) :
    Poly.recoverSecret ord (sel.map (fun i => some ⟨i, polyVal (rSumPoly N) ((i + 1 : Nat) : F)⟩))
      N.t = .ok (∑ j ∈ Finset.range N.n, N.sec j) ∧
    ((rSumPoly N).map (fun c => c • S.base)).head? =
      some ((∑ j ∈ Finset.range N.n, N.sec j) • S.base) := by
  obtain ⟨T', hT'⟩ : ∃ T', N.t = T' + 1 := ⟨N.t - 1, by omega⟩
  have hcons : rSumPoly N = (∑ j ∈ Finset.range N.n, N.sec j) :: (rSumPoly N).tail := by
    unfold rSumPoly
    rw [hT', List.range_succ_eq_map, List.map_cons, List.tail_cons]
    rfl
  have hind : indices (sel.map (fun i => some
      (⟨i, polyVal (rSumPoly N) ((i + 1 : Nat) : F)⟩ : Share F))) = sel.toFinset := by
    rw [show (fun i : Nat => some (⟨i, polyVal (rSumPoly N) ((i + 1 : Nat) : F)⟩ : Share F)) =
      fun i => some ((fun i => (⟨i, polyVal (rSumPoly N) ((i + 1 : Nat) : F)⟩ : Share F)) i)
      from rfl, VssP.indices_map_some]
    simp
  refine ⟨?_, by rw [hcons]; rfl⟩
  apply C01_recover_secret q ord _ (rSumPoly N).tail
  · rw [← hcons]
    intro s hs
    obtain ⟨i, hi, he⟩ := List.mem_map.1 hs
    cases he
    rfl
  · intro i hi
    rw [hind, List.mem_toFinset] at hi
    exact lt_of_lt_of_le (hsel i hi) hn
  · rw [← hcons]; unfold rSumPoly; simp
  · rw [hind]; exact hcount

/-! ## Examples -/

end

namespace DkgRExample

open Kyber.Toy

section

variable [SMul F G]

/-- `netR` is an honest group. -/
theorem netR_honest : (netR envR).Honest envR where
  nodup := by decide +kernel
  x := by unfold Usable; decide +kernel
  k i j := by
    unfold Usable netR
    simp only
    split <;> decide +kernel
  vk i j := by unfold Usable netR; simp only; decide +kernel
  ck i := by unfold Usable netR; simp only; decide +kernel
  start i hi := by
    have : i = 0 ∨ i = 1 ∨ i = 2 := by
      have : i < 3 := hi
      omega
    rcases this with rfl | rfl | rfl <;> rfl

/-- A complete history of participant 1. -/
def sched : List RMsg :=
  [.deal 2, .resp 2 0, .deals, .commits 2, .deal 0, .resp 1 2, .resp 1 0, .ownCommits, .resp 0 2,
   .timeout, .commits 0]

theorem sched_ok : RSchedule 3 1 sched ∧ RComplete 3 1 sched := by
  have mem_sched : ∀ m, m ∈ sched → m = .deal 2 ∨ m = .resp 2 0 ∨ m = .deals ∨ m = .commits 2 ∨
      m = .deal 0 ∨ m = .resp 1 2 ∨ m = .resp 1 0 ∨ m = .ownCommits ∨ m = .resp 0 2 ∨ m = .timeout ∨
      m = .commits 0 := by
    intro m hm
    simpa only [sched, List.mem_cons, List.not_mem_nil, or_false] using hm
  have hpre : ∀ pre m post, sched = pre ++ m :: post → pre = sched.take pre.length ∧
      sched[pre.length]? = some m := by
    intro pre m post he
    rw [he]; simp
  refine ⟨⟨?_, ?_, ?_⟩, ?_⟩
  · intro m hm
    rcases mem_sched m hm with rfl | rfl | rfl | rfl | rfl | rfl | rfl | rfl | rfl | rfl | rfl <;>
      simp [RMsg.Wanted]
  · intro m hm
    by_cases hin : m ∈ sched
    · rcases mem_sched m hin with rfl | rfl | rfl | rfl | rfl | rfl | rfl | rfl | rfl | rfl | rfl <;>
        revert hm <;> decide
    · rw [List.count_eq_zero_of_not_mem hin]; omega
  · intro pre m post he m' hn
    obtain ⟨h1, h2⟩ := hpre pre m post he
    have hlt : pre.length < 11 := by
      have := congrArg List.length he
      simp only [List.length_append, List.length_cons] at this
      have : sched.length = 11 := rfl
      omega
    rw [h1]
    generalize pre.length = k at h2 hlt
    have hall : ∀ j l, j < 3 ∧ l < 3 ∧ l ≠ 1 ∧ l ≠ j → RMsg.resp j l ∈ sched.take 9 := by
      rintro j l ⟨h1, h2, h3, h4⟩
      have : j = 0 ∨ j = 1 ∨ j = 2 := by omega
      have : l = 0 ∨ l = 2 := by omega
      rcases ‹j = 0 ∨ j = 1 ∨ j = 2› with rfl | rfl | rfl <;>
        rcases ‹l = 0 ∨ l = 2› with rfl | rfl <;> first | decide | exact absurd rfl h4
    have h02 : ∀ l, l < 3 → l ≠ 1 → l = 0 ∨ l = 2 := by intro l h1 h2; omega
    interval_cases k <;> cases h2
    · exact absurd hn (by simp [RMsg.Needs])
    · have : m' = .deal 2 := hn
      subst this; decide
    · exact absurd hn (by simp [RMsg.Needs])
    · rcases hn with rfl | ⟨l, h1, h2, h3, rfl⟩
      · decide
      · rcases h02 l h1 h2 with rfl | rfl
        · decide
        · exact absurd rfl h3
    · exact absurd hn (by simp [RMsg.Needs])
    · have : m' = .deals := hn
      subst this; decide
    · have : m' = .deals := hn
      subst this; decide
    · rcases hn with rfl | ⟨l, h1, h2, rfl⟩
      · decide
      · rcases h02 l h1 h2 with rfl | rfl <;> decide
    · have : m' = .deal 0 := hn
      subst this; decide
    · obtain ⟨hw, rfl | ⟨j, rfl⟩ | ⟨j, l, rfl⟩⟩ := hn
      · decide
      · rcases h02 j hw.1 hw.2 with rfl | rfl <;> decide
      · exact hall j l hw
    · rcases hn with rfl | ⟨l, h1, h2, h3, rfl⟩
      · decide
      · rcases h02 l h1 h2 with rfl | rfl
        · exact absurd rfl h3
        · decide
  · intro m hw hm
    cases m with
    | deals => decide
    | deal j =>
      obtain ⟨h1, h2⟩ := hw
      have : j = 0 ∨ j = 2 := by omega
      rcases this with rfl | rfl <;> decide
    | resp j l =>
      obtain ⟨h1, h2, h3, h4⟩ := hw
      have : j = 0 ∨ j = 1 ∨ j = 2 := by omega
      have : l = 0 ∨ l = 2 := by omega
      rcases ‹j = 0 ∨ j = 1 ∨ j = 2› with rfl | rfl | rfl <;>
        rcases ‹l = 0 ∨ l = 2› with rfl | rfl <;> first | decide | exact absurd rfl h4
    | timeout => exact absurd rfl hm
    | ownCommits => decide
    | commits j =>
      obtain ⟨h1, h2⟩ := hw
      have : j = 0 ∨ j = 2 := by omega
      rcases this with rfl | rfl <;> decide

/-- The hypotheses of `C39_honest_run` hold; the key is that of the secret 7 + 1 + 4. -/
example : envR.suite.Lawful ∧ envR.prims.Lawful ∧ (∀ d, envR.codec.dec (envR.codec.enc d) = some d) ∧
    PrimsOkR envR ∧ (netR envR).Honest envR ∧ RSchedule 3 1 sched ∧ RComplete 3 1 sched ∧
    (qRun envR ((netR envR).D 1) (sched.map (RMsg.call envR (netR envR) 1 MapOrder.id 1))).distKeyShare
      MapOrder.rev = .ok ⟨[(7 + 1 + 4) * 2, (5 + 6 + 9) * 2], ⟨1, (7 + 1 + 4) + (5 + 6 + 9) * 2⟩⟩ := by
  refine ⟨lawful, prims_lawful, codecR_lawful, ⟨?_, ?_⟩, netR_honest, sched_ok.1, sched_ok.2, ?_⟩
  · intro ikm info; rfl
  · intro key nonce m aad; rfl
  · decide +kernel

/-- `C39_honest_recover` on the shares of participants 2 and 0. -/
example : Poly.recoverSecret MapOrder.rev ([2, 0].map (fun i => some
    (⟨i, polyVal (rSumPoly (netR envR)) ((i + 1 : Nat) : ZMod 11)⟩ : Share (ZMod 11)))) 2 =
      .ok (∑ j ∈ Finset.range 3, (netR envR).sec j) :=
  (C39_honest_recover 11 suite MapOrder.rev (netR envR) (by decide) (by decide) [2, 0]
    (by intro i hi; have : i = 2 ∨ i = 0 := by simpa using hi
        show i < 3; omega) (by decide)).1

end

end DkgRExample

end Kyber.Props
