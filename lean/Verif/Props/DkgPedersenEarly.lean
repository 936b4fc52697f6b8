/-
Property C138 for the Pedersen key generation.
-/
import Verif.Props.DkgPedersenSilent
import Verif.Lemmas.Orders
import Mathlib.Tactic.IntervalCases

set_option linter.unusedSectionVars false

namespace Kyber.Props

open Kyber Kyber.Poly Kyber.Spec Kyber.VssP Kyber.DkgP

/-- C138 for the Pedersen generation: all participants are correct and the messages are only delayed. Two participants
for which `dist_key_share()` succeeds, each after the part of the messages that has reached it, hold the same public
commitments. -/
def C138_statement_pedersen : Prop :=
  ∀ (F G : Type) [Field F] [AddCommGroup G] [DecidableEq G] [DistribSMul F G] (E : DkgEnv F G) (_ : E.suite.Lawful)
    (_ : E.prims.Lawful) (_ : PrimsOk E) (N : Net F G) (_ : N.Honest E)
    (_ : ∀ j < N.n, ∀ dl ∈ (N.D j).dealer.deals, E.codec.dec (E.codec.enc dl) = some dl) (z : F) (ord : MapOrder)
    (i i' : Nat) (s s' : List HMsg) (k k' : DkgP.DistKeyShare F G), i < N.n → i' < N.n →
    Schedule N.n i s → Schedule N.n i' s' →
    (dRun E (N.D i) (s.map (HMsg.call E N z i))).distKeyShare E.suite ord = .ok k →
    (dRun E (N.D i') (s'.map (HMsg.call E N z i'))).distKeyShare E.suite ord = .ok k' →
    k.commits = k'.commits

/-- The dealers whose deal participant `i` knows to be approved by everybody. -/
def heardAllP (n i : Nat) (s : List HMsg) : Finset Nat :=
  (Finset.range n).filter fun j => ∀ l < n, Heard i s j l

section

variable {F G : Type} [Field F] [AddCommGroup G] [DecidableEq G] [DistribSMul F G]
variable (E : DkgEnv F G) (hS : E.suite.Lawful) (hP : E.prims.Lawful)
  (hO : PrimsOk E) (N : Net F G) (h : N.Honest E)
  (hC : ∀ j < N.n, ∀ dl ∈ (N.D j).dealer.deals, E.codec.dec (E.codec.enc dl) = some dl) (z : F)
  (i : Nat) (hi : i < N.n) (s : List HMsg) (hs : Schedule N.n i s)

theorem heard_got {i : Nat} {s : List HMsg} {n : Nat} (hs : Schedule n i s) {j : Nat} (hh : Heard i s j i) :
    got i s j := by
  rcases hh with ⟨h1, -⟩ | h1
  · exact h1
  · exact absurd rfl (hs.wanted _ h1).2.2.1

include hS hP hO h hC hi hs

/-- C138: the key a participant gets after any part of an honest Pedersen run without a timeout, a threshold having been
given to the constructor: none while fewer than `t` dealers are known to be approved by everybody, then the sum over
these dealers. -/
theorem C138_key_pedersen (ht : N.t ≠ 0) (hto : HMsg.timeout ∉ s) (ord : MapOrder) (k : DkgP.DistKeyShare F G) :
    (dRun E (N.D i) (s.map (HMsg.call E N z i))).distKeyShare E.suite ord = .ok k ↔
      N.t ≤ (heardAllP N.n i s).card ∧
      k = { commits := (sumPolyOn N (heardAllP N.n i s) N.t).map (fun c => c • E.suite.base)
            share := ⟨i, polyVal (sumPolyOn N (heardAllP N.n i s) N.t) ((i + 1 : Nat) : F)⟩
            privatePoly := netPoly N N.t i } := by
  obtain ⟨hI, -⟩ := inv_run hS hP hO h.fair hC hi trivial z s hs
  have hnT : ∀ j < N.n, (N.D j).newT = N.t := by
    intro j hj
    rw [(newDistKeyHandler_ok (h.start j hj)).newT, if_pos ht]
  have hQ : ∀ j, j ∈ heardAllP N.n i s ↔ Qualified (dRun E (N.D i) (s.map (HMsg.call E N z i))) j := by
    intro j
    rw [C129_qualified E hS hP hO N _ h.fair hC z i hi trivial s hs j, if_neg hto]
    unfold heardAllP
    rw [Finset.mem_filter, Finset.mem_range]
  have hmem : ∀ j ∈ heardAllP N.n i s, j < N.n ∧ got i s j := by
    intro j hj
    unfold heardAllP at hj
    obtain ⟨h1, h2⟩ := Finset.mem_filter.1 hj
    exact ⟨Finset.mem_range.1 h1, heard_got hs (h2 i hi)⟩
  have hdl : ∀ j < N.n, (N.D j).dealer.secretPoly = ⟨netPoly N N.t j⟩ ∧
      (N.D j).dealer.secretCommits = (netPoly N N.t j).map (fun c => c • E.suite.base) ∧
      (netPoly N N.t j).length = N.t ∧ 2 ≤ N.t := by
    intro j hj
    obtain ⟨-, hdl, -⟩ := honest_new h.fair hj trivial
    rw [hnT j hj] at hdl
    obtain ⟨hv, hdr, -, -, -, -, -, h6, h7, -⟩ := newDealer_ok hdl
    refine ⟨h6, h7, ?_, ?_⟩
    · unfold netPoly
      rw [List.length_cons, List.length_take]
      omega
    · unfold validT at hv
      simp only [Bool.and_eq_true, decide_eq_true_eq] at hv
      exact hv.1.1
  have hdeal : ∀ j ∈ heardAllP N.n i s, ∃ v,
      (dRun E (N.D i) (s.map (HMsg.call E N z i))).verifiers.get j = some v ∧
      v.aggregator.deal = some (N.plain j i) := by
    intro j hj
    obtain ⟨v, hv, -, h2⟩ := hI.ver j (hmem j hj).1
    rw [if_pos (hmem j hj).2] at h2
    exact ⟨v, hv, h2.deal⟩
  have hlen : ∀ j ∈ heardAllP N.n i s, (N.plain j i).commitments.length = N.t := by
    intro j hj
    show (N.D j).dealer.secretCommits.length = _
    rw [(hdl j (hmem j hj).1).2.1, List.length_map, (hdl j (hmem j hj).1).2.2.1]
  have hkey : (⟨(List.range N.t).map (fun c => ∑ j ∈ heardAllP N.n i s, (N.plain j i).commitments.getD c 0),
      ⟨i, ∑ j ∈ heardAllP N.n i s, (N.plain j i).secShare.v⟩, (N.D i).dealer.secretPoly.coeffs⟩ :
        DkgP.DistKeyShare F G) =
      { commits := (sumPolyOn N (heardAllP N.n i s) N.t).map (fun c => c • E.suite.base)
        share := ⟨i, polyVal (sumPolyOn N (heardAllP N.n i s) N.t) ((i + 1 : Nat) : F)⟩
        privatePoly := netPoly N N.t i } := by
    congr 1
    · unfold sumPolyOn
      rw [List.map_map]
      refine List.map_congr_left (fun c hc => ?_)
      simp only [Function.comp_apply]
      rw [hS.base_lin.sum]
      refine Finset.sum_congr rfl (fun j hj => ?_)
      show (N.D j).dealer.secretCommits.getD c 0 = _
      obtain ⟨-, h7, hl, -⟩ := hdl j (hmem j hj).1
      have hc' : c < (netPoly N N.t j).length := by rw [hl]; exact List.mem_range.1 hc
      rw [h7, List.getD_eq_getElem?_getD, List.getD_eq_getElem?_getD, List.getElem?_map,
        List.getElem?_eq_getElem hc']
      rfl
    · congr 1
      rw [sumPolyOn_val N _ N.t (fun j hj => (hdl j (hmem j hj).1).2.2.1)]
      refine Finset.sum_congr rfl (fun j hj => ?_)
      show ((N.D j).dealer.secretPoly.eval i).v = _
      rw [(hdl j (hmem j hj).1).1, C01_eval_genuine]
    · rw [(hdl i hi).1]
  obtain ⟨hst, -⟩ := honest_new h.fair hi trivial
  rw [C33_dist_key_share_iff E _ _ _ _ _ (N.D i) (h.start i hi) _ ord _ _ hQ, hst.nidx]
  have h2t := (hdl i hi).2.2.2
  constructor
  · rintro ⟨h1, hne, D, len, h2, rfl⟩
    refine ⟨h1, ?_⟩
    have hD : ∀ j ∈ heardAllP N.n i s, D j = N.plain j i := by
      intro j hj
      obtain ⟨v, e1, e2, -⟩ := h2 j hj
      obtain ⟨v', e1', e2'⟩ := hdeal j hj
      rw [e1] at e1'
      obtain rfl := Option.some.inj e1'
      rw [e2] at e2'
      exact Option.some.inj e2'
    obtain ⟨j0, hj0⟩ := hne
    have hl : len = N.t := by
      obtain ⟨v, -, -, e3⟩ := h2 j0 hj0
      rw [← e3, hD j0 hj0, hlen j0 hj0]
    rw [← hkey, hl]
    congr 1
    · exact List.map_congr_left fun c _ => Finset.sum_congr rfl fun j hj => by rw [hD j hj]
    · congr 1
      exact Finset.sum_congr rfl fun j hj => by rw [hD j hj]
  · rintro ⟨h1, rfl⟩
    refine ⟨h1, Finset.card_pos.1 (by omega), fun j => N.plain j i, N.t, fun j hj => ?_, hkey.symm⟩
    obtain ⟨v, e1, e2⟩ := hdeal j hj
    exact ⟨v, e1, e2, hlen j hj⟩

/-- C138: `certified()` is the test to wait for. After any part of an honest run, timeouts anywhere, it says true
exactly when everything meant for the participant has arrived. -/
theorem C138_certified_pedersen (ord : MapOrder) :
    (dRun E (N.D i) (s.map (HMsg.call E N z i))).certified ord = true ↔ Complete N.n i s := by
  refine ⟨fun hc => ?_, fun hc =>
    ((C33_honest_run E hS hP hO N h hC z _ rfl i hi s hs).2 hc ord).1⟩
  obtain ⟨hI, -⟩ := inv_run hS hP hO h.fair hC hi trivial z s hs
  obtain ⟨hst, -⟩ := honest_new h.fair hi trivial
  replace hc := (C36_certified E _ _ _ (N.D i) (h.start i hi) hst.new (by rw [hst.oldNodes]; exact h.nodup)
    (s.map (HMsg.call E N z i)) ord).1 hc
  have hold : (dRun E (N.D i) (s.map (HMsg.call E N z i))).c.oldNodes.length = N.n := by
    rw [(dRun_evolves E (N.D i) _).c, hst.oldNodes, pubs_length]
  have hheard : ∀ j < N.n, ∀ l < N.n, Heard i s j l := by
    intro j hj l hl
    obtain ⟨v, hv, -, hm⟩ := hc j (by rw [hold]; exact hj)
    obtain ⟨v', hv', h1, h2⟩ := hI.ver j hj
    rw [hv] at hv'
    obtain rfl := Option.some.inj hv'
    rw [heard_iff E N, ← h2.resp, Option.isSome_iff_ne_none]
    intro hn
    have : l ∈ missing v.aggregator.responses v.aggregator.verifiers.length := by
      unfold missing
      rw [Finset.mem_filter, Finset.mem_range, h1.aggv, pubs_length]
      exact ⟨hl, hn⟩
    rw [hm] at this
    simp at this
  intro m hw hm
  cases m with
  | deals =>
    have := heard_got hs (hheard i hi i hi)
    unfold got at this
    rwa [if_pos rfl] at this
  | deal j =>
    have := heard_got hs (hheard j hw.1 i hi)
    unfold got at this
    rwa [if_neg hw.2] at this
  | resp j l =>
    rcases hheard j hw.1 l hw.2.1 with ⟨-, e | e⟩ | e
    · exact absurd e hw.2.2.1
    · exact absurd e hw.2.2.2
    · exact e
  | timeout => exact absurd rfl hm

/-- C138: hence participants that wait for `certified()` get the key all dealers contribute to. -/
theorem C138_certified_key_pedersen (ord : MapOrder) (T : Nat)
    (hT : T = if N.t ≠ 0 then N.t else minimumT N.n)
    (hc : (dRun E (N.D i) (s.map (HMsg.call E N z i))).certified ord = true) :
    (dRun E (N.D i) (s.map (HMsg.call E N z i))).distKeyShare E.suite ord = .ok
      { commits := (sumPoly N T).map (fun c => c • E.suite.base)
        share := ⟨i, polyVal (sumPoly N T) ((i + 1 : Nat) : F)⟩
        privatePoly := netPoly N T i } :=
  ((C33_honest_run E hS hP hO N h hC z T hT i hi s hs).2
    ((C138_certified_pedersen E hS hP hO N h hC z i hi s hs ord).1 hc) ord).2

end

namespace PEarlyExample

open Kyber.Toy

/-- Participant 1 has everything about dealers 0 and 1; the deal of 2 and the responses about it are still to come. -/
def early : List HMsg := [.resp 0 2, .deal 0, .deals, .resp 1 0, .resp 1 2]

theorem early_ok : Schedule 3 1 early := by
  refine ⟨?_, ?_⟩
  · intro m hm
    simp only [early, List.mem_cons, List.not_mem_nil, or_false] at hm
    rcases hm with rfl | rfl | rfl | rfl | rfl <;> simp [HMsg.Wanted]
  · intro m _
    exact List.nodup_iff_count_le_one.1 (by decide) m

/-- Participant 1 gets the key of dealers 0 and 1, although it is not certified. -/
theorem early_key : (dRun envD ((net envD).D 1) (early.map (HMsg.call envD (net envD) 1 1))).distKeyShare
      envD.suite MapOrder.id = .ok ⟨[(7 + 1) * 2, (5 + 6) * 2], ⟨1, (7 + 1) + (5 + 6) * 2⟩, [1, 6]⟩ ∧
    (dRun envD ((net envD).D 1) (early.map (HMsg.call envD (net envD) 1 1))).certified MapOrder.id = false := by
  decide +kernel

/-- `C138_key_pedersen` there. -/
example : (net envD).t ≠ 0 ∧ HMsg.timeout ∉ early ∧ (heardAllP 3 1 early).card = 2 := by
  refine ⟨by decide, by decide, ?_⟩
  rw [show heardAllP 3 1 early = {0, 1} from ?_]
  · decide
  · ext j
    unfold heardAllP
    rw [Finset.mem_filter, Finset.mem_range]
    constructor
    · rintro ⟨hj, h⟩
      have := heard_got early_ok (h 1 (by omega))
      revert this
      interval_cases j <;> simp [got, early]
    · intro h
      have : j = 0 ∨ j = 1 := by simpa using h
      refine ⟨by omega, fun l hl => ?_⟩
      rcases this with rfl | rfl <;> interval_cases l <;> simp [Heard, early]

/-- Participant 0 has everything, waits for `certified()` (`C138_certified_key_pedersen`) and holds the full key. -/
theorem full_key : (dRun envD ((net envD).D 0) ((hOrder 3 0).map (HMsg.call envD (net envD) 1 0))).distKeyShare
      envD.suite MapOrder.id = .ok ⟨[(7 + 1 + 4) * 2, (5 + 6 + 9) * 2], ⟨0, (7 + 1 + 4) + (5 + 6 + 9)⟩, [7, 5]⟩ := by
  have hok := hOrder_ok 3 0
  have hO : PrimsOk envD := ⟨fun _ _ => rfl, fun _ _ _ _ => rfl⟩
  have hC : ∀ j < (net envD).n, ∀ dl ∈ ((net envD).D j).dealer.deals, envD.codec.dec (envD.codec.enc dl) = some dl :=
    fun _ _ d _ => codecP_lawful d
  have hc := (C138_certified_pedersen envD lawful prims_lawful hO (net envD) DkgPExample.net_honest hC 1 0
    (by decide) _ hok.1 MapOrder.id).2 hok.2
  exact (C138_certified_key_pedersen envD lawful prims_lawful hO (net envD) DkgPExample.net_honest hC 1 0
    (by decide) _ hok.1 MapOrder.id 2 rfl hc).trans (by decide +kernel)

end PEarlyExample

/-- C138 is violated by the Pedersen generation as well: participant 1 gets a key before anything about dealer 2 has
reached it, and it is another one than that of participant 0. -/
theorem C138_violated_pedersen : ¬ C138_statement_pedersen := by
  intro hst
  have := hst (ZMod 11) (ZMod 11) Toy.envD Toy.lawful Toy.prims_lawful ⟨fun _ _ => rfl, fun _ _ _ _ => rfl⟩
    (Toy.net Toy.envD) DkgPExample.net_honest (fun _ _ d _ => Toy.codecP_lawful d) 1 MapOrder.id 1 0 _ _ _ _
    (by decide) (by decide) PEarlyExample.early_ok (hOrder_ok 3 0).1 PEarlyExample.early_key.1 PEarlyExample.full_key
  revert this
  decide +kernel

end Kyber.Props
