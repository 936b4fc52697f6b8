/-
Properties C36 (the qualified set as a leaving node sees it), C75 (`qualified_shares`) and C76 (which
responses count for a dealer) of the Pedersen DKG (`src/share/dkg/pedersen/dkg.rs`).
-/
import Verif.Lemmas.DkgPedersenOld
import Verif.Props.DkgPedersenHonest

set_option linter.unusedSectionVars false

namespace Kyber.Props

open Kyber Kyber.Poly Kyber.Spec Kyber.VssP Kyber.DkgP

variable {F G : Type} [Field F] [AddCommGroup G] [SMul F G] [DecidableEq G]

/-! ## C36: the node that leaves -/

theorem leaving_nodes {S : Suite F G} {c : Config F G} {secret : F} {draws : List F} {d : Dkg F G}
    (h : newDistKeyHandler S c secret draws = .ok d) (hr : d.isResharing = true)
    (hi : d.canIssue = true) : d.c.newNodes ≠ [] := by
  have hst := newDistKeyHandler_ok h
  rw [hst.newNodes]
  have := (hst.reshare hr).2.2.2
  rw [hi] at this
  obtain ⟨sh, hsh⟩ := Option.isSome_iff_exists.1 this.symm
  have hd := hst.issue sh hsh
  intro hnil
  rw [hnil] at hd
  unfold newDealer at hd
  rw [Res.ite_err_eq_ok] at hd
  refine hd.1 ?_
  unfold validT
  simp only [List.length_nil, Nat.le_zero_eq, Bool.and_eq_false_iff, decide_eq_false_iff_not]
  left
  by_cases h0 : d.newT = 0
  · left; omega
  · right; exact h0

/-- C36 for an old node that leaves: after any history `qual` lists exactly the dealer numbers for
which the first authentic response of every new node is an approval; each once; any two iteration
orders give the same list up to rearrangement. The timeout makes no difference, nor do deals and
justifications. `certified` compares their number with that of the old nodes,
`threshold_certified` with the old threshold. -/
theorem C36_qual_leaving (E : DkgEnv F G) (c : Config F G) (secret : F) (draws : List F)
    (d0 : Dkg F G) (h0 : newDistKeyHandler E.suite c secret draws = .ok d0)
    (hr : d0.isResharing = true) (hi : d0.canIssue = true) (hn : d0.newPresent = false)
    (cs : List (DCall F G)) (ord ord' : MapOrder) :
    let d := dRun E d0 cs
    (∀ i, i ∈ d.qual ord ↔ ∀ l < c.newNodes.length, ∃ r,
      firstHeard E.suite c.newNodes cs i l = some r ∧ r.status = statusApproval) ∧
    (d.qual ord).Nodup ∧ (d.qual ord).Perm (d.qual ord') ∧
    (d.certified ord = true ↔ c.oldNodes.length ≤ (d.qual ord).length) ∧
    (d.thresholdCertified ord = true ↔ c.oldThreshold ≤ (d.qual ord).length) := by
  intro d
  have hst := newDistKeyHandler_ok h0
  have hev := dRun_evolves E d0 cs
  have hold := old_responses E d0 hr hi hn hst.start.1 cs
  have hnd : d.oldAggregators.keys.Nodup := oldAgg_nodup E d0 (by rw [hst.start.1]; exact List.nodup_nil) cs
  have hleave : d.isResharing = true ∧ d.canIssue = true ∧ d.newPresent = false :=
    ⟨hev.isResharing.trans hr, hev.canIssue.trans hi, hev.newPresent.trans hn⟩
  have hqual : ∀ ord : MapOrder, d.qual ord =
      pick (fun a : Aggregator F G => a.dealCertified) (ord.run d.oldAggregators) := by
    intro ord; unfold Dkg.qual; rw [if_pos hleave]; rfl
  have hne : 0 < c.newNodes.length := by
    rw [List.length_pos_iff, ← hst.newNodes]; exact leaving_nodes h0 hr hi
  have hcert : ∀ i a, d.oldAggregators.get i = some a → (a.dealCertified = true ↔
      ∀ l < c.newNodes.length, ∃ r, a.responses.get l = some r ∧ r.status = statusApproval) := by
    intro i a ha
    have hk := (hold i).1
    rw [show oldAgg (dRun E d0 cs) i = a by
      unfold oldAgg; rw [show (dRun E d0 cs).oldAggregators.get i = some a from ha]; rfl] at hk
    rw [C23_certified_iff, hk.bad, hk.t, hk.timeout, hk.verifiers, hst.newNodes]
    simp only [true_and, Nat.zero_le, Bool.false_eq_true, if_false]
    constructor
    · rintro ⟨h1, h2⟩ l hl
      cases hg : a.responses.get l with
      | none =>
        have : l ∈ missing a.responses c.newNodes.length :=
          Finset.mem_filter.2 ⟨Finset.mem_range.2 hl, hg⟩
        rw [h2] at this; exact absurd this (Finset.notMem_empty _)
      | some r =>
        refine ⟨r, rfl, ?_⟩
        by_contra hs
        have : l ∈ complainedBy a.responses c.newNodes.length :=
          Finset.mem_filter.2 ⟨Finset.mem_range.2 hl, r, hg, by
            rw [← Bool.not_eq_true]; exact hs⟩
        rw [h1] at this; exact absurd this (Finset.notMem_empty _)
    · intro h
      constructor
      · rw [Finset.eq_empty_iff_forall_notMem]
        intro l hl
        obtain ⟨hl1, r, hr1, hr2⟩ := Finset.mem_filter.1 hl
        obtain ⟨r', hr1', hr2'⟩ := h l (Finset.mem_range.1 hl1)
        rw [hr1] at hr1'; cases hr1'
        rw [hr2] at hr2'; cases hr2'
      · rw [Finset.eq_empty_iff_forall_notMem]
        intro l hl
        obtain ⟨hl1, hr1⟩ := Finset.mem_filter.1 hl
        obtain ⟨r', hr1', hr2'⟩ := h l (Finset.mem_range.1 hl1)
        rw [hr1] at hr1'; cases hr1'
  refine ⟨?_, ?_, ?_, ?_, ?_⟩
  · intro i
    rw [hqual, (pick_perm _ (ord.perm _)).mem_iff, mem_pick hnd]
    constructor
    · rintro ⟨a, ha, hc⟩ l hl
      obtain ⟨r, h1, h2⟩ := (hcert i a ha).1 hc l hl
      refine ⟨r, ?_, h2⟩
      rw [← hst.newNodes, ← (hold i).2.1]
      unfold oldAgg
      rw [show (dRun E d0 cs).oldAggregators.get i = some a from ha]; exact h1
    · intro h
      cases ha : d.oldAggregators.get i with
      | none =>
        obtain ⟨r, h1, -⟩ := h 0 hne
        rw [← hst.newNodes, (hold i).2.2 ha] at h1; cases h1
      | some a =>
        refine ⟨a, rfl, (hcert i a ha).2 ?_⟩
        intro l hl
        obtain ⟨r, h1, h2⟩ := h l hl
        refine ⟨r, ?_, h2⟩
        rw [← hst.newNodes, ← (hold i).2.1] at h1
        unfold oldAgg at h1
        rw [show (dRun E d0 cs).oldAggregators.get i = some a from ha] at h1; exact h1
  · rw [hqual]
    exact (pick_perm _ (ord.perm _)).nodup_iff.2 (pick_nodup _ hnd)
  · rw [hqual, hqual]
    exact (pick_perm _ (ord.perm _)).trans (pick_perm _ (ord'.perm _)).symm
  · -- `certified`: nothing is missing in a certified deal, and there are no verifiers
    have hmiss : ∀ e ∈ d.oldAggregators, e.2.dealCertified = true → e.2.missingResponses = [] := by
      intro e he hc
      have hg := AMap.get_of_mem hnd (k := e.1) (v := e.2) he
      have := (hcert e.1 e.2 hg).1 hc
      have hk := (hold e.1).1
      rw [show oldAgg (dRun E d0 cs) e.1 = e.2 by
        unfold oldAgg; rw [show (dRun E d0 cs).oldAggregators.get e.1 = some e.2 from hg]; rfl] at hk
      unfold Aggregator.missingResponses
      rw [List.filter_eq_nil_iff]
      intro l hl
      rw [hk.verifiers, hst.newNodes, List.mem_range] at hl
      obtain ⟨r, h1, -⟩ := this l hl
      rw [h1]; simp
    have hcount : ∀ l : List (Nat × Aggregator F G), (∀ e ∈ l, e ∈ d.oldAggregators) →
        Dkg.goodCount (l.map (fun e => (e.2.dealCertified, e.2.missingResponses))) =
          (pick (fun a : Aggregator F G => a.dealCertified) l).length := by
      intro l
      induction l with
      | nil => intro _; rfl
      | cons e l ih =>
        intro h
        have ih' := ih (fun e he => h e (by simp [he]))
        have hpk : pick (fun a : Aggregator F G => a.dealCertified) (e :: l) =
            if e.2.dealCertified then e.1 :: pick (fun a : Aggregator F G => a.dealCertified) l
            else pick (fun a : Aggregator F G => a.dealCertified) l := by
          simp only [pick, List.filterMap_cons]
          by_cases hc : e.2.dealCertified = true <;> simp [hc]
        rw [List.map_cons, hpk]
        simp only [Dkg.goodCount]
        cases hc : e.2.dealCertified with
        | true =>
          rw [hmiss e (h e (by simp)) hc, ih']
          simp
        | false =>
          rw [ih']
          simp
    have hv : d.verifiers = [] := by
      have h1 : d.verifiers.keys = d0.verifiers.keys := hev.keys
      rw [hst.verifiers, if_neg (by rintro ⟨h, -⟩; rw [hn] at h; cases h)] at h1
      have := congrArg List.length h1
      rw [AMap.length_keys] at this
      exact List.eq_nil_of_length_eq_zero this
    have hrv : ord.run d.verifiers = [] := by rw [hv]; exact List.Perm.eq_nil (ord.perm _)
    unfold Dkg.certified
    simp only [if_pos hleave]
    rw [hrv, hcount _ (fun e he => (ord.perm _).subset he), hqual,
      show d.c.oldNodes = c.oldNodes from (congrArg Config.oldNodes hev.c).trans (hst.reshare hr).1]
    simp [Dkg.goodCount]
  · unfold Dkg.thresholdCertified
    rw [if_pos hleave.1, show d.c = d0.c from hev.c, hst.oldThreshold]
    simp

/-- C36, the intended property for a leaving node: the qualified dealers are old nodes. -/
def C36_leaving_statement : Prop :=
  ∀ (F G : Type) (_ : Field F) (_ : AddCommGroup G) (_ : Module F G) (_ : DecidableEq G)
    (E : DkgEnv F G) (_ : E.suite.Lawful) (_ : Function.Injective E.suite.hash) (c : Config F G)
    (secret : F) (draws : List F) (d0 : Dkg F G)
    (_ : newDistKeyHandler E.suite c secret draws = .ok d0) (cs : List (DCall F G)) (ord : MapOrder),
    ∀ i ∈ (dRun E d0 cs).qual ord, i < c.oldNodes.length

namespace DkgPExample

open Kyber.Toy

/-- Old node 0 of two (keys 3, 5) leaves the group; the new nodes are 1 (key 5), 2 (key 2). -/
def leaver : Dkg (ZMod 11) (ZMod 11) := getDkg (newDistKeyHandler envDI.suite
  ⟨3, [6, 10], none, [10, 4], some ⟨[14, 10], ⟨0, 1⟩, []⟩, 2, 2⟩ 0 [6])

theorem leaver_ok : newDistKeyHandler envDI.suite
    ⟨3, [6, 10], none, [10, 4], some ⟨[14, 10], ⟨0, 1⟩, []⟩, 2, 2⟩ 0 [6] = .ok leaver ∧
    leaver.isResharing = true ∧ leaver.canIssue = true ∧ leaver.newPresent = false :=
  ⟨rfl, rfl, rfl, rfl⟩

/-- Both new nodes approve the deal with session id 1, 2, 3; the two responses also arrive with a
dealer number of nobody. -/
def replayed : List (DCall (ZMod 11) (ZMod 11)) :=
  [.response (approval [1, 2, 3] 5 0 0) 1, .response (approval [1, 2, 3] 2 0 1) 1,
   .response (approval [1, 2, 3] 5 77 0) 1, .response (approval [1, 2, 3] 2 77 1) 1]

theorem replayed_qual : (dRun envDI leaver replayed).qual MapOrder.id = [0, 77] ∧
    (dRun envDI leaver replayed).certified MapOrder.id = true ∧
    (dRun envDI leaver (replayed.take 2)).qual MapOrder.id = [0] ∧
    (dRun envDI leaver (replayed.take 1)).qual MapOrder.id = [] := by decide +kernel


example := C36_qual_leaving envDI _ 0 [6] leaver leaver_ok.1 leaver_ok.2.1 leaver_ok.2.2.1 leaver_ok.2.2.2 replayed
  MapOrder.id MapOrder.rev

end DkgPExample

open DkgPExample in
/-- C36 does not hold for a leaving node: the dealer number of a response is not signed and not
checked, so two genuine approvals of one deal, sent again under another number, qualify a dealer
that does not exist. -/
theorem C36_violated_unknown_dealer : ¬ C36_leaving_statement := by
  intro h
  have := h (ZMod 11) (ZMod 11) _ _ _ _ Toy.envDI Toy.envDI_lawful (fun _ _ h => h) _ _ _ leaver
    leaver_ok.1 replayed MapOrder.id 77 (by rw [replayed_qual.1]; decide)
  revert this; decide

/-! ## C75: `qualified_shares` -/

/-- C75: in every reachable state `qualified_shares` lists, in increasing order, exactly the share
holders that answered every deal that has an answer and no complaint of a share holder; the
iteration order does not matter. -/
theorem C75_qualified_shares (E : DkgEnv F G) (c : Config F G) (secret : F) (draws : List F)
    (d0 : Dkg F G) (h0 : newDistKeyHandler E.suite c secret draws = .ok d0) (cs : List (DCall F G))
    (ord ord' : MapOrder) :
    let d := dRun E d0 cs
    (∀ l, l ∈ d.qualifiedShares ord ↔ l < c.newNodes.length ∧ ∀ i v, d.verifiers.get i = some v →
      v.aggregator.responses ≠ [] → complainedBy v.aggregator.responses c.newNodes.length = ∅ →
      (v.aggregator.responses.get l).isSome) ∧
    (d.qualifiedShares ord).Pairwise (· < ·) ∧
    d.qualifiedShares ord = d.qualifiedShares ord' := by
  intro d
  have hst := newDistKeyHandler_ok h0
  have hev := dRun_evolves E d0 cs
  have hnd : d.verifiers.keys.Nodup := reach_nodup h0 E cs
  have hnew : d.c.newNodes = c.newNodes := by
    rw [show d.c = d0.c from hev.c, hst.newNodes]
  have hinv : ∀ v : Verifier F G, d.invalidDeal v = false ↔ v.aggregator.responses ≠ [] ∧
      complainedBy v.aggregator.responses c.newNodes.length = ∅ := by
    intro v
    unfold Dkg.invalidDeal
    rw [Bool.or_eq_false_iff, List.any_eq_false, hnew]
    refine and_congr ?_ ?_
    · cases v.aggregator.responses <;> simp
    · rw [Finset.eq_empty_iff_forall_notMem]
      constructor
      · intro h l hl
        obtain ⟨hl1, r, hr1, hr2⟩ := Finset.mem_filter.1 hl
        have := h l (List.mem_range.2 (Finset.mem_range.1 hl1))
        rw [hr1] at this
        simp [hr2, statusComplaint] at this
      · intro h l hl
        cases hg : v.aggregator.responses.get l with
        | none => simp
        | some r =>
          intro hs
          exact h l (Finset.mem_filter.2 ⟨Finset.mem_range.2 (List.mem_range.1 hl), r, hg,
            of_decide_eq_true hs⟩)
  have hmem : ∀ (ord : MapOrder) l, l ∈ d.qualifiedShares ord ↔ l < c.newNodes.length ∧
      ∀ i v, d.verifiers.get i = some v →
      v.aggregator.responses ≠ [] → complainedBy v.aggregator.responses c.newNodes.length = ∅ →
      (v.aggregator.responses.get l).isSome := by
    intro ord l
    unfold Dkg.qualifiedShares
    simp only
    rw [List.mem_filter, List.mem_range, hnew]
    refine and_congr_right (fun hl => ?_)
    rw [Bool.not_eq_true', ← Bool.not_eq_true, List.contains_iff_mem, List.mem_flatMap]
    have hbad : ∀ i v, d.verifiers.get i = some v →
        (i ∈ (ord.run d.verifiers).filterMap (fun e => if d.invalidDeal e.2 then some e.1 else none) ↔
          d.invalidDeal v = true) := by
      intro i v hv
      show i ∈ pick (fun v => d.invalidDeal v) (ord.run d.verifiers) ↔ _
      rw [(pick_perm _ (ord.perm _)).mem_iff, mem_pick hnd]
      constructor
      · rintro ⟨w, hw, h⟩; rw [hv] at hw; cases hw; exact h
      · intro h; exact ⟨v, hv, h⟩
    constructor
    · intro h i v hv h1 h2
      by_contra hs
      refine h ⟨(i, v), List.mem_filter.2 ⟨(ord.perm _).symm.subset (AMap.mem_of_get hv), ?_⟩,
        List.mem_filter.2 ⟨List.mem_range.2 hl, ?_⟩⟩
      · simp only
        rw [Bool.not_eq_true', ← Bool.not_eq_true, List.contains_iff_mem, hbad i v hv,
          Bool.not_eq_true, hinv]
        exact ⟨h1, h2⟩
      · simp only
        cases hg : v.aggregator.responses.get l with
        | none => rfl
        | some r => rw [hg] at hs; exact absurd rfl hs
    · rintro h ⟨⟨i, v⟩, he, hf⟩
      rw [List.mem_filter] at he hf
      have hv : d.verifiers.get i = some v := AMap.get_of_mem hnd ((ord.perm _).subset he.1)
      have hgood := he.2
      simp only at hgood
      rw [Bool.not_eq_true', ← Bool.not_eq_true, List.contains_iff_mem, hbad i v hv,
        Bool.not_eq_true, hinv] at hgood
      have := h i v hv hgood.1 hgood.2
      rw [Option.isSome_iff_ne_none] at this
      exact this (Option.isNone_iff_eq_none.1 hf.2)
  have hsort : ∀ ord, (d.qualifiedShares ord).Pairwise (· < ·) := by
    intro ord
    unfold Dkg.qualifiedShares
    exact List.Pairwise.filter _ (List.pairwise_lt_range)
  refine ⟨hmem ord, hsort ord, ?_⟩
  refine List.Perm.eq_of_pairwise (fun a b _ _ h1 h2 => absurd (h1.trans h2) (lt_irrefl a))
    (hsort ord) (hsort ord') ?_
  rw [List.perm_ext_iff_of_nodup ((hsort ord).imp ne_of_lt) ((hsort ord').imp ne_of_lt)]
  intro l
  rw [hmem, hmem]

/-- C75: such a share holder approved every certified deal, if at least one approval is needed to
certify a deal. -/
theorem C75_approved (E : DkgEnv F G) (c : Config F G) (secret : F) (draws : List F)
    (d0 : Dkg F G) (h0 : newDistKeyHandler E.suite c secret draws = .ok d0) (cs : List (DCall F G))
    (ord : MapOrder) (l i : Nat) (hl : l ∈ (dRun E d0 cs).qualifiedShares ord) (v : Verifier F G)
    (hv : (dRun E d0 cs).verifiers.get i = some v) (hc : v.aggregator.dealCertified = true)
    (ht : v.aggregator.t ≠ 0) (hn : v.aggregator.verifiers = c.newNodes) :
    ∃ r, v.aggregator.responses.get l = some r ∧ r.status = statusApproval := by
  obtain ⟨h1, h2⟩ := ((C75_qualified_shares E c secret draws d0 h0 cs ord ord).1 l).1 hl
  obtain ⟨-, g2, g3, -⟩ := (C23_certified_iff _).1 hc
  rw [hn] at g2 g3
  have hne : v.aggregator.responses ≠ [] := by
    intro h0
    have : approvedBy v.aggregator.responses c.newNodes.length = ∅ := by
      rw [h0, Finset.eq_empty_iff_forall_notMem]
      intro l hl
      obtain ⟨-, r, hr, -⟩ := Finset.mem_filter.1 hl
      simp at hr
    rw [this, Finset.card_empty] at g2
    omega
  have := h2 i v hv hne g3
  obtain ⟨r, hr⟩ := Option.isSome_iff_exists.1 this
  refine ⟨r, hr, ?_⟩
  by_contra hs
  have : l ∈ complainedBy v.aggregator.responses c.newNodes.length :=
    Finset.mem_filter.2 ⟨Finset.mem_range.2 h1, r, hr, by rw [← Bool.not_eq_true]; exact hs⟩
  rw [g3] at this; exact absurd this (Finset.notMem_empty _)

open DkgPExample Kyber.Toy in
/-- Participant 0 after its own deal, the deal of participant 1 and the answer of participant 2 to
it: holders 0 and 1 have answered both deals, holder 2 only one. -/
example : (dRun envDI ((net envDI).D 0) [.deals ((net envDI).dh 0) ((net envDI).k 0) ((net envDI).rnd 0) 5 1,
    .deal ((net envDI).dealMsg envDI 1 0) 5 1, .response ((net envDI).respMsg envDI 1 2) 1,
    .response ((net envDI).respMsg envDI 0 1) 1]).qualifiedShares MapOrder.rev = [0, 1] := by
  decide +kernel

/-! ## C76: which responses count for a dealer -/

/-- C76, the intended property: the responses that count for a dealer answer that dealer's deal, i.e.
they carry the session id of the stored deal. The own answer and that of the dealer, which are set
locally, are left out. -/
def C76_statement : Prop :=
  ∀ (F G : Type) (_ : Field F) (_ : AddCommGroup G) (_ : Module F G) (_ : DecidableEq G)
    (E : DkgEnv F G) (_ : E.suite.Lawful) (_ : Function.Injective E.suite.hash)
    (c : Config F G) (secret : F) (draws : List F) (d0 : Dkg F G)
    (_ : newDistKeyHandler E.suite c secret draws = .ok d0) (cs : List (DCall F G))
    (i : Nat) (v : Verifier F G) (_ : (dRun E d0 cs).verifiers.get i = some v)
    (dl : VssP.Deal F G) (_ : v.aggregator.deal = some dl) (l : Nat) (_ : l ≠ d0.nidx) (_ : l ≠ i)
    (r : VssP.Response) (_ : v.aggregator.responses.get l = some r),
    r.sessionId = dl.sessionId

theorem sid_step (E : Env F G) (v : Verifier F G) (c : VCall F G) (d : Dkg F G) (i : Nat)
    (hc : Allowed d i c) (dl : VssP.Deal F G)
    (h : ∀ dl, v.aggregator.deal = some dl → v.aggregator.sid = dl.sessionId)
    (h' : (vStep E v c).aggregator.deal = some dl) : (vStep E v c).aggregator.sid = dl.sessionId := by
  have hrem : ∀ dl dl', (v.aggregator.remember dl).deal = some dl' →
      (v.aggregator.remember dl).sid = dl'.sessionId := by
    intro dl dl' hh
    unfold Aggregator.remember at hh ⊢
    split at hh
    · exact h _ hh
    · cases hh; rfl
  have hadd : ∀ (a : Aggregator F G) r, (a.addResponse r).1.deal = a.deal ∧
      (a.addResponse r).1.sid = a.sid := by
    intro a r
    rcases addResponse_cases a r with ⟨e, h'⟩ | ⟨-, -, h'⟩ <;> rw [h'] <;> exact ⟨rfl, rfl⟩
  cases c with
  | encDeal e k =>
    change (v.processEncryptedDeal E e k).1.aggregator.deal = some dl at h'
    show (v.processEncryptedDeal E e k).1.aggregator.sid = _
    rcases processEncryptedDeal_cases E v e k with
      (⟨_, g⟩ | g) | ⟨d, hd, hi, hnone, ⟨-, g⟩ | ⟨st, hst, g, -⟩⟩ <;> rw [g] at h' ⊢
    · exact h _ h'
    · exact h _ h'
    · exact hrem _ _ h'
    · simp only at h' ⊢
      rw [(hadd _ _).1] at h'
      rw [(hadd _ _).2]
      exact hrem _ _ h'
  | response r =>
    change (v.aggregator.verifyResponse E.suite r).1.deal = some dl at h'
    show (v.aggregator.verifyResponse E.suite r).1.sid = _
    rcases verifyResponse_cases E.suite v.aggregator r with ⟨e, g⟩ | g | ⟨pub, -, -, -, g⟩ <;>
      rw [g] at h' ⊢
    · exact h _ h'
    · exact h _ h'
    · rw [(hadd _ _).1] at h'
      rw [(hadd _ _).2]
      exact h _ h'
  | justification j =>
    change (v.aggregator.verifyJustification E.suite j).1.deal = some dl at h'
    show (v.aggregator.verifyJustification E.suite j).1.sid = _
    unfold Aggregator.verifyJustification at h' ⊢
    split at h'
    · rename_i g; rw [if_pos g]; exact h _ h'
    · rename_i g
      rw [if_neg g]
      split at h'
      · exact h _ h'
      · simp only
        split at h'
        · rename_i g; rw [if_pos g]; exact h _ h'
        · rename_i g
          rw [if_neg g]
          have hv : ∀ dl', (v.aggregator.verifyDeal E.suite j.deal false).1.deal = some dl' →
              (v.aggregator.verifyDeal E.suite j.deal false).1.sid = dl'.sessionId := by
            intro dl' hh
            rcases verifyDeal_fst E.suite v.aggregator j.deal false with g | g <;> rw [g] at hh ⊢
            · exact h _ hh
            · exact hrem _ _ hh
          simp only at h' ⊢
          split at h' <;> exact hv _ h'
  | timeout => exact h _ h'
  | unsafeSet j b =>
    have h1 := (hadd v.aggregator ⟨v.aggregator.sid, j, b, []⟩)
    have h2 : v.aggregator.deal = some dl := by rw [← h1.1]; exact h'
    show (v.aggregator.addResponse ⟨v.aggregator.sid, j, b, []⟩).1.sid = _
    rw [h1.2]; exact h _ h2
  | setThreshold t => exact absurd hc id
  | verifyDeal d b => exact absurd hc id
  | addResponse r => exact absurd hc id

theorem sid_run (E : Env F G) (v : Verifier F G) (cs : List (VCall F G)) (d : Dkg F G) (i : Nat)
    (hc : ∀ c ∈ cs, Allowed d i c)
    (h : ∀ dl, v.aggregator.deal = some dl → v.aggregator.sid = dl.sessionId) :
    ∀ dl, (vRun E v cs).aggregator.deal = some dl → (vRun E v cs).aggregator.sid = dl.sessionId := by
  induction cs generalizing v with
  | nil => exact h
  | cons c cs ih =>
    exact ih _ (fun c' h' => hc c' (by simp [h']))
      (fun dl h' => sid_step E v c d i (hc c (by simp)) dl h h')

/-- The session id of the aggregator is that of the stored deal. -/
theorem reach_sid {E : DkgEnv F G} {c : Config F G} {secret : F} {draws : List F} {d0 : Dkg F G}
    (h0 : newDistKeyHandler E.suite c secret draws = .ok d0) (cs : List (DCall F G)) (i : Nat)
    (v : Verifier F G) (hv : (dRun E d0 cs).verifiers.get i = some v) (dl : VssP.Deal F G)
    (hd : v.aggregator.deal = some dl) : v.aggregator.sid = dl.sessionId := by
  have hst := newDistKeyHandler_ok h0
  have hev := dRun_evolves E d0 cs
  have hmem : i ∈ d0.verifiers.keys := by
    rw [← hev.keys]; exact AMap.get_isSome.1 (by rw [hv]; rfl)
  obtain ⟨v0, hv0⟩ := Option.isSome_iff_exists.1 (AMap.get_isSome.2 hmem)
  obtain ⟨vcs, hall, hrun⟩ := hev.ver i v0 hv0
  rw [hv] at hrun
  cases hrun
  refine sid_run E.toEnv v0 vcs d0 i hall ?_ dl hd
  intro dl' h'
  rw [hst.verifiers] at hv0
  split at hv0
  · rw [startVers_get] at hv0
    obtain ⟨p, -, rfl⟩ := Option.map_eq_some_iff.1 hv0
    cases h'
  · cases hv0

/-- C76, what holds: once the deal of dealer `i`, with a non-empty session id, is stored, every
response stored for it from then on carries that session id, and is signed by the node it names or
set locally. Missing: the responses stored before the deal arrived, which may carry any session
id. -/
theorem C76_after_deal_partial (E : DkgEnv F G) (c : Config F G) (secret : F) (draws : List F)
    (d0 : Dkg F G) (h0 : newDistKeyHandler E.suite c secret draws = .ok d0)
    (cs cs' : List (DCall F G)) (i : Nat) (v v' : Verifier F G)
    (hv : (dRun E d0 cs).verifiers.get i = some v) (dl : VssP.Deal F G)
    (hd : v.aggregator.deal = some dl) (hs : dl.sessionId ≠ [])
    (hv' : (dRun E d0 (cs ++ cs')).verifiers.get i = some v') (l : Nat) (r : VssP.Response)
    (hr : v'.aggregator.responses.get l = some r) :
    v.aggregator.responses.get l = some r ∨
    (r.index = l ∧ r.sessionId = dl.sessionId ∧
      (Authentic E.suite v.aggregator.verifiers r ∨ r.signature = [])) := by
  have hev := dRun_evolves E (dRun E d0 cs) cs'
  obtain ⟨vcs, hall, hrun⟩ := hev.ver i v hv
  have : dRun E (dRun E d0 cs) cs' = dRun E d0 (cs ++ cs') := by simp [dRun, List.foldl_append]
  rw [this, hv'] at hrun
  cases hrun
  have hsid := reach_sid h0 cs i v hv dl hd
  refine stored_inv (fun l r => v.aggregator.responses.get l = some r ∨ (r.index = l ∧
    r.sessionId = dl.sessionId ∧ (Authentic E.suite v.aggregator.verifiers r ∨ r.signature = [])))
    E.toEnv v vcs (fun l r h => Or.inl h) ?_ l r hr
  intro pre cc post hsplit l r hn hnew
  right
  have hpre : ∀ c ∈ pre, Allowed (dRun E d0 cs) i c := fun c hc => hall c (by rw [hsplit]; simp [hc])
  have hext := vRun_ext E.toEnv v pre
  have hsid' := sid_run E.toEnv v pre (dRun E d0 cs) i hpre
    (fun dl' h' => by rw [hd] at h'; cases h'; exact hsid) dl (hext.deal dl hd)
  obtain ⟨h1, h2, h3⟩ := vStep_new E.toEnv _ cc l r hn hnew
  refine ⟨h1, ?_⟩
  rcases h3 with ⟨e, k, d, rfl, -, -, -, hnone, -⟩ | ⟨rfl, h4, pub, h5, h6⟩ | rfl | ⟨b, rfl⟩
  · rw [hext.deal dl hd] at hnone; cases hnone
  · refine ⟨(h4 (by rw [hsid']; exact hs)).trans hsid', Or.inl ⟨pub, ?_, h6⟩⟩
    rw [h1, ← hext.verifiers]; exact h5
  · exact absurd (hall (.addResponse r) (by rw [hsplit]; simp)) id
  · obtain ⟨g1, -, -⟩ := addResponse_new hn hnew
    rw [g1]
    exact ⟨hsid', Or.inr rfl⟩

namespace DkgPExample

open Kyber.Toy

/-- A complaint by participant 1 about the deal of participant 2. -/
def complaint : DkgP.Response :=
  let r : VssP.Response := ⟨sidOf [4, 9], 1, false, []⟩
  ⟨2, { r with signature := Schnorr.sign envDI.suite 5 5 (r.hash envDI.suite) }⟩

/-- At participant 0, the approval by participant 1 of the deal of participant 0 also arrives marked
as an answer to dealer 2, before the deal of dealer 2. Then the complaint of participant 1 about
dealer 2 arrives. -/
def misattributed : List (DCall (ZMod 11) (ZMod 11)) :=
  [.deals ((net envDI).dh 0) ((net envDI).k 0) ((net envDI).rnd 0) 5 1,
   .response ⟨2, ((net envDI).respMsg envDI 0 1).response⟩ 1,
   .deal ((net envDI).dealMsg envDI 1 0) 5 1, .deal ((net envDI).dealMsg envDI 2 0) 5 1,
   .response complaint 1,
   .response ((net envDI).respMsg envDI 0 1) 1, .response ((net envDI).respMsg envDI 0 2) 1,
   .response ((net envDI).respMsg envDI 1 2) 1]

/-- Dealer 2 is qualified although participant 1 complained; the complaint is refused. -/
theorem misattributed_qual :
    (dRun envDI ((net envDI).D 0) misattributed).certified MapOrder.id = true ∧
    ((dRun envDI ((net envDI).D 0) (misattributed.take 4)).processResponse envDI complaint 1).2 =
      .err (.vss .responseAlreadyExisting) ∧
    -- without the misattributed response the complaint counts
    (dRun envDI ((net envDI).D 0) (misattributed.eraseIdx 1)).qual MapOrder.id = [0, 1] := by
  decide +kernel

/-- The verifier of dealer 2 afterwards, and what it stores for participant 1. -/
theorem misattributed_sid : ∃ v dl r, (dRun envDI ((net envDI).D 0) misattributed).verifiers.get 2 = some v ∧
    v.aggregator.deal = some dl ∧ v.aggregator.responses.get 1 = some r ∧
    r.sessionId ≠ dl.sessionId := by
  have h : (match (dRun envDI ((net envDI).D 0) misattributed).verifiers.get 2 with
    | some v => match v.aggregator.deal, v.aggregator.responses.get 1 with
      | some dl, some r => decide (r.sessionId ≠ dl.sessionId)
      | _, _ => false
    | none => false) = true := by decide +kernel
  split at h
  · rename_i v hv
    split at h
    · rename_i dl r hd hr
      exact ⟨v, dl, r, hv, hd, hr, of_decide_eq_true h⟩
    · cases h
  · cases h

example := C75_qualified_shares envDI ⟨3, [], none, [6, 10, 4], none, 2, 0⟩ 7 [5] ((net envDI).D 0) rfl misattributed
  MapOrder.id MapOrder.rev

/-- `C76_after_deal_partial`: what the verifier of dealer 2 stores after its deal. -/
example : ∃ (v v' : Verifier (ZMod 11) (ZMod 11)) (dl : VssP.Deal (ZMod 11) (ZMod 11)) (r : VssP.Response),
    (dRun envDI ((net envDI).D 0) (misattributed.take 4)).verifiers.get 2 = some v ∧
    v.aggregator.deal = some dl ∧ v'.aggregator.responses.get 2 = some r ∧
    (v.aggregator.responses.get 2 = some r ∨ (r.index = 2 ∧ r.sessionId = dl.sessionId ∧
      (Authentic envDI.suite v.aggregator.verifiers r ∨ r.signature = []))) := by
  have h : (match (dRun envDI ((net envDI).D 0) (misattributed.take 4)).verifiers.get 2,
      (dRun envDI ((net envDI).D 0) (misattributed.take 4 ++ misattributed.drop 4)).verifiers.get 2 with
    | some v, some v' => match v.aggregator.deal, v'.aggregator.responses.get 2 with
      | some dl, some _ => decide (dl.sessionId ≠ [])
      | _, _ => false
    | _, _ => false) = true := by decide +kernel
  split at h
  · rename_i v v' hv hv'
    split at h
    · rename_i dl r hd hr
      exact ⟨v, v', dl, r, hv, hd, hr, C76_after_deal_partial envDI ⟨3, [], none, [6, 10, 4], none, 2, 0⟩ 7 [5]
        ((net envDI).D 0) rfl _ _ 2 v v' hv dl hd (of_decide_eq_true h) hv' 2 r hr⟩
    · cases h
  · cases h

end DkgPExample

open DkgPExample in
/-- C76 does not hold: before a deal has arrived, a response signed for the deal of another dealer is
stored for it. -/
theorem C76_violated : ¬ C76_statement := by
  intro h
  obtain ⟨v, dl, r, h1, h2, h3, h4⟩ := misattributed_sid
  exact h4 (h (ZMod 11) (ZMod 11) _ _ _ _ Toy.envDI Toy.envDI_lawful (fun _ _ h => h) _ _ _ _
    (show newDistKeyHandler Toy.envDI.suite ⟨3, [], none, [6, 10, 4], none, 2, 0⟩ 7 [5] =
      .ok ((Toy.net Toy.envDI).D 0) from rfl) misattributed 2 v h1 dl h2 1 (by decide) (by decide) r h3)

end Kyber.Props
