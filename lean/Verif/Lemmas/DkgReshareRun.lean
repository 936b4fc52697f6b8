/-
The state of a new node of an honest resharing after any part of its history.
-/
import Verif.Spec.DkgReshareHonest
import Verif.Lemmas.DkgPedersenRun
import Verif.Lemmas.Shamir

set_option linter.unusedSectionVars false

namespace Kyber.DkgP

open Kyber.Poly Kyber.Spec Kyber.VssP

variable {F G : Type} [Field F] [AddCommGroup G] [SMul F G] [DecidableEq G]

/-! ### The nodes at the start -/

/-- The deal of `j` for `i`, in the clear. -/
def _root_.Kyber.Spec.ReNet.plain (N : ReNet F G) (j i : Nat) : VssP.Deal F G :=
  ⟨(N.O j).dealer.sessionId, (N.O j).dealer.secretPoly.eval i, (N.O j).newT, (N.O j).dealer.secretCommits⟩

theorem oldPubs_get (E : DkgEnv F G) (N : ReNet F G) {j : Nat} (h : j < N.n) :
    (N.oldPubs E)[j]? = some (N.xo j • E.suite.base) := by
  unfold ReNet.oldPubs
  rw [List.getElem?_map, List.getElem?_range h]; rfl

theorem newPubs_get (E : DkgEnv F G) (N : ReNet F G) {i : Nat} (h : i < N.m) :
    (N.newPubs E)[i]? = some (N.xn i • E.suite.base) := by
  unfold ReNet.newPubs
  rw [List.getElem?_map, List.getElem?_range h]; rfl

theorem oldPubs_length (E : DkgEnv F G) (N : ReNet F G) : (N.oldPubs E).length = N.n := by
  unfold ReNet.oldPubs; simp

theorem newPubs_length (E : DkgEnv F G) (N : ReNet F G) : (N.newPubs E).length = N.m := by
  unfold ReNet.newPubs; simp

/-- An old node at the start. -/
theorem old_start {E : DkgEnv F G} {N : ReNet F G} (h : N.Honest E) {j : Nat} (hj : j < N.n) :
    newDealer E.suite (N.xo j) (polyVal N.f ((j + 1 : Nat) : F)) (N.newPubs E) (N.O j).newT (N.draws j) =
      .ok (N.O j).dealer ∧
    (N.O j).oidx = j ∧ (N.O j).canIssue = true ∧ (N.O j).isResharing = true ∧
    (N.O j).c.longterm = N.xo j ∧ (N.O j).c.newNodes = N.newPubs E ∧
    (N.O j).c.oldNodes = N.oldPubs E ∧ (N.O j).oldAggregators = [] ∧
    (N.O j).newT = if N.t ≠ 0 then N.t else minimumT N.m := by
  obtain ⟨s, h0⟩ := h.startO j hj
  obtain ⟨sh, hsh, hv⟩ := h.holds j hj
  have ha := h.agreeO j hj
  have hst := newDistKeyHandler_ok h0
  have hre : (N.O j).isResharing = true := by rw [hst.resharing, hsh]; rfl
  obtain ⟨r1, -, -, r4⟩ := hst.reshare hre
  have hdl := hst.issue sh hsh
  rw [hv, ha.longterm, ha.newNodes] at hdl
  have hold : (N.O j).oidx = j := by
    have := hst.oidx
    rw [r1, ha.oldNodes, ha.longterm, findPub_nodup h.nodupO (oldPubs_get E N hj)] at this
    exact (Prod.mk.inj this).1.symm
  refine ⟨hdl, hold, by rw [r4, hsh]; rfl, hre, by rw [hst.longterm, ha.longterm],
    by rw [hst.newNodes, ha.newNodes], by rw [r1, ha.oldNodes], hst.start.1, ?_⟩
  rw [hst.newT, ha.threshold, ha.newNodes, newPubs_length]

/-- What is constant about new node `i`. -/
structure RStatic (E : DkgEnv F G) (N : ReNet F G) (i : Nat) (d : Dkg F G) : Prop where
  longterm : d.c.longterm = N.xn i
  newNodes : d.c.newNodes = N.newPubs E
  oldNodes : d.c.oldNodes = N.oldPubs E
  re : d.isResharing = true
  new : d.newPresent = true
  issue : d.canIssue = (N.nc i).share.isSome
  receive : d.canReceive = true
  nidx : d.nidx = i
  oidx : d.oidx = (N.D i).oidx
  dpub : d.dpub = ⟨some E.suite.base, N.commits E⟩

theorem new_start {E : DkgEnv F G} {N : ReNet F G} (h : N.Honest E) {i : Nat} (hi : i < N.m) :
    RStatic E N i (N.D i) ∧ (N.D i).verifiers = startVers E.suite (N.D i).c i ∧
    (N.D i).c.threshold = N.t ∧ (N.D i).c.publicCoeffs = some (N.commits E) ∧
    (N.D i).newT = if N.t ≠ 0 then N.t else minimumT N.m := by
  obtain ⟨s, dr, h0⟩ := h.startN i hi
  have ha := h.agreeN i hi
  have hst := newDistKeyHandler_ok h0
  have hre : (N.D i).isResharing = true := by rw [hst.resharing]; exact h.knows i hi
  obtain ⟨r1, -, -, r4⟩ := hst.reshare hre
  have hnew : (N.D i).nidx = i ∧ (N.D i).newPresent = true := by
    have := hst.nidx
    rw [ha.newNodes, ha.longterm, findPub_nodup h.nodupN (newPubs_get E N hi)] at this
    exact ⟨(Prod.mk.inj this).1.symm, (Prod.mk.inj this).2.symm⟩
  obtain ⟨cs, c1, c2, -, c4⟩ := hst.receiver hre hnew.2
  have hcs : cs = N.commits E := by
    rcases c4 with c4 | ⟨-, sh, c4, rfl⟩
    · exact ha.coeffs cs c4
    · exact ha.share sh c4
  subst hcs
  refine ⟨⟨by rw [hst.longterm, ha.longterm], by rw [hst.newNodes, ha.newNodes],
    by rw [r1, ha.oldNodes], hre, hnew.2, r4, by rw [hst.receive, hnew.2], hnew.1, rfl, c2⟩, ?_, ?_, c1, ?_⟩
  · rw [hst.verifiers, if_pos ⟨hnew.2, by rw [r1, ha.oldNodes]; exact h.nodupO⟩, hnew.1]
  · rw [hst.threshold, ha.threshold]
  · rw [hst.newT, ha.threshold, ha.newNodes, newPubs_length]

theorem RStatic.evolve {E : DkgEnv F G} {N : ReNet F G} {i : Nat} {d d' : Dkg F G}
    (h : RStatic E N i d) (he : Evolves E d d') : RStatic E N i d' where
  longterm := by rw [he.c]; exact h.longterm
  newNodes := by rw [he.c]; exact h.newNodes
  oldNodes := by rw [he.c]; exact h.oldNodes
  re := he.isResharing.trans h.re
  new := he.newPresent.trans h.new
  issue := he.canIssue.trans h.issue
  receive := he.canReceive.trans h.receive
  nidx := he.nidx.trans h.nidx
  oidx := he.oidx.trans h.oidx
  dpub := he.dpub.trans h.dpub

theorem rplain_deal {E : DkgEnv F G} {N : ReNet F G} (h : N.Honest E) {j i : Nat} (hj : j < N.n)
    (hi : i < N.m) : (N.O j).dealer.deals[i]? = some (N.plain j i) := by
  obtain ⟨-, -, -, -, -, -, -, -, -, -, -, h10, -⟩ := newDealer_ok (old_start h hj).1
  rw [h10, List.getElem?_map, List.getElem?_range (by rw [newPubs_length]; exact hi)]
  rfl

theorem rrespMsg_reply {E : DkgEnv F G} {N : ReNet F G} (h : N.Honest E) {j : Nat} (hj : j < N.n)
    (l i : Nat) : N.respMsg E j l = ⟨j, honestReply E.toEnv (N.xn l) (N.newPubs E) l (N.xo j • E.suite.base)
      (N.plain j i) (N.vk l j)⟩ := by
  obtain ⟨-, -, -, -, -, -, -, -, -, h8, -⟩ := newDealer_ok (old_start h hj).1
  unfold ReNet.respMsg honestReply mkReply startVer ReNet.plain
  simp only [← h8]

theorem rrespMsg_verify {E : DkgEnv F G} (hS : E.suite.Lawful) {N : ReNet F G} (h : N.Honest E)
    {j l : Nat} (hl : l < N.m) :
    Schnorr.verify E.suite (N.xn l • E.suite.base) ((N.respMsg E j l).response.hash E.suite)
      (N.respMsg E j l).response.signature = .ok () :=
  Props.C11_sign_verify E.suite hS _ _ _ (h.vk l j).1 (h.vk l j).2 (h.xn l hl).1 (h.xn l hl).2

theorem rdealMsg_verify {E : DkgEnv F G} (hS : E.suite.Lawful) {N : ReNet F G} (h : N.Honest E)
    {j i : Nat} (hj : j < N.n) :
    Schnorr.verify E.suite (N.xo j • E.suite.base) (E.encDist j (N.enc E j i))
      (N.dealMsg E j i).signature = .ok () :=
  Props.C11_sign_verify E.suite hS _ _ _ (h.rnd j i).1 (h.rnd j i).2 (h.xo j hj).1 (h.xo j hj).2

theorem renc_ok {E : DkgEnv F G} (hP : E.prims.Lawful) (hO : PrimsOk E) {N : ReNet F G}
    (h : N.Honest E) {j i : Nat} (hj : j < N.n) (hi : i < N.m) :
    (N.O j).dealer.encryptedDeal E.toEnv i (N.dh j i) (N.k j i) = .ok (N.enc E j i) := by
  obtain ⟨e, he⟩ := Props.C22_encrypted_deal_ok E.toEnv hP _ _ _ _ _ _ (old_start h hj).1 i
    (by rw [newPubs_length]; exact hi) hO.1 hO.2 (N.dh j i) (N.k j i)
  unfold ReNet.enc
  rw [he]

/-- `deals` of a node of a resharing: a deal for every new node, and no change of the state. -/
theorem reshare_deals {E : DkgEnv F G} (hP : E.prims.Lawful) (hO : PrimsOk E) {N : ReNet F G}
    (h : N.Honest E) {j : Nat} (hj : j < N.n) {d : Dkg F G} (hre : d.isResharing = true)
    (hiss : d.canIssue = true) (hoidx : d.oidx = j) (hlong : d.c.longterm = N.xo j)
    (hnew : d.c.newNodes = N.newPubs E)
    (hdl : { d.dealer with aggregator := (N.O j).dealer.aggregator } = (N.O j).dealer) (z z' : F) :
    ∃ dd, d.deals E (N.dh j) (N.k j) (N.rnd j) z z' = (d, .ok dd) ∧
      ∀ l, dd.get l = if l < N.m then some (N.dealMsg E j l) else none := by
  have hdealer : ∀ i dh k, d.dealer.encryptedDeal E.toEnv i dh k =
      (N.O j).dealer.encryptedDeal E.toEnv i dh k := by
    intro i dh k
    rw [← hdl]; rfl
  have hdv : d.dealer.verifiers = N.newPubs E := by
    obtain ⟨-, -, -, -, -, h4, -⟩ := newDealer_ok (old_start h hj).1
    exact (congrArg Dealer.verifiers hdl).trans h4
  have hencs : (List.range d.dealer.verifiers.length).mapM
      (fun i => d.dealer.encryptedDeal E.toEnv i (N.dh j i) (N.k j i)) =
      .ok ((List.range N.m).map (fun i => N.enc E j i)) := by
    rw [hdv, newPubs_length]
    have hgen : ∀ l : List Nat, (∀ i ∈ l, i < N.m) →
        l.mapM (fun i => d.dealer.encryptedDeal E.toEnv i (N.dh j i) (N.k j i)) =
          .ok (l.map (fun i => N.enc E j i)) := by
      intro l
      induction l with
      | nil => intro _; rfl
      | cons a l ih =>
        intro hl
        rw [List.mapM_cons, hdealer, renc_ok hP hO h hj (hl a (by simp)), Res.bind_ok,
          ih (fun i hi => hl i (List.mem_cons_of_mem _ hi))]
        rfl
    exact hgen _ (fun i hi => List.mem_range.1 hi)
  have hloop : ∀ (l : List Nat) (dd : AMap (DkgP.Deal G)), (∀ i ∈ l, i < N.m) →
      Dkg.dealsLoop E ((List.range N.m).map (fun i => N.enc E j i)) (N.rnd j) z z' l d dd =
        (d, .ok (l.foldl (fun dd i => dd.insert i (N.dealMsg E j i)) dd)) := by
    intro l
    induction l with
    | nil => intro dd _; rfl
    | cons a l ih =>
      intro dd hl
      rw [Dkg.dealsLoop, List.getElem?_map, List.getElem?_range (hl a (by simp))]
      simp only [Option.map_some]
      rw [if_neg (by rintro ⟨-, -, h⟩; rw [hre] at h; cases h),
        ih _ (fun i hi => hl i (List.mem_cons_of_mem _ hi)), List.foldl_cons]
      unfold Dkg.signDeal ReNet.dealMsg
      rw [hoidx, hlong]
  refine ⟨(List.range N.m).foldl (fun dd i => dd.insert i (N.dealMsg E j i)) [], ?_, fun l => ?_⟩
  · unfold Dkg.deals
    rw [if_neg (by rw [hiss]; simp), hencs]
    simp only
    rw [hnew, newPubs_length]
    exact hloop _ [] (fun i hi => List.mem_range.1 hi)
  · rw [foldl_insert_get]
    simp

/-! ### The invariant of a new node -/

/-- The responses to the deal of `j` that new node `i` has stored. -/
def rstored (E : DkgEnv F G) (N : ReNet F G) (i : Nat) (pre : List HMsg) (j l : Nat) :
    Option VssP.Response :=
  if HMsg.deal j ∈ pre ∧ l = i then some (N.respMsg E j i).response
  else if HMsg.resp j l ∈ pre then some (N.respMsg E j l).response
  else none

/-- The state of new node `i` after `pre`. -/
structure RInv (E : DkgEnv F G) (N : ReNet F G) (i : Nat) (pre : List HMsg) (d : Dkg F G) : Prop where
  static : RStatic E N i d
  ver : ∀ j < N.n, ∃ v, d.verifiers.get j = some v ∧
    VSt E.suite (N.xn i) (N.newPubs E) i (N.xo j • E.suite.base) v ∧
    VDyn v (if HMsg.deal j ∈ pre then some (N.plain j i) else none) (rstored E N i pre j)
  dealer : { d.dealer with aggregator := (N.D i).dealer.aggregator } = (N.D i).dealer
  agg : ∀ j < N.n, (N.nc i).share.isSome = true → N.xn i = N.xo j →
    d.dealer.aggregator.sid = (N.O j).dealer.sessionId ∧
    d.dealer.aggregator.verifiers = N.newPubs E ∧
    ∀ l, d.dealer.aggregator.responses.get l =
      if HMsg.resp j l ∈ pre then some (N.respMsg E j l).response else none

/-- The old index of a new node that holds a share. -/
theorem both_index {E : DkgEnv F G} {N : ReNet F G} (h : N.Honest E) {i j : Nat} (hi : i < N.m) (hj : j < N.n)
    (hs : (N.nc i).share.isSome = true) (hx : N.xn i = N.xo j) : N.D i = N.O j ∧ (N.D i).oidx = j := by
  obtain ⟨j', hj', e1, e2⟩ := h.both i hi hs
  have : j = j' := by
    have h1 := oldPubs_get E N hj
    have h2 := oldPubs_get E N hj'
    rw [← hx, e1] at h1
    exact (List.getElem?_inj (by rw [oldPubs_length]; exact hj) h.nodupO).1 (h1.trans h2.symm)
  subst this
  exact ⟨e2, by rw [e2]; exact (old_start h hj).2.1⟩

theorem rinv_start {E : DkgEnv F G} {N : ReNet F G} (h : N.Honest E) {i : Nat} (hi : i < N.m) :
    RInv E N i [] (N.D i) := by
  obtain ⟨hs, hv, ht, -⟩ := new_start h hi
  refine ⟨hs, ?_, rfl, ?_⟩
  · intro j hj
    refine ⟨startVer E.suite (N.xn i) (N.newPubs E) N.t i (N.xo j • E.suite.base), ?_,
      startVer_st _ _ _ _ _ _, ?_⟩
    · rw [hv, startVers_get, hs.oldNodes, hs.longterm, hs.newNodes, ht, oldPubs_get E N hj]
      rfl
    · have h2 : rstored E N i [] j = fun _ => none := by
        funext l; unfold rstored; simp
      rw [h2, if_neg (by simp)]
      exact startVer_dyn _ _ _ _ _ _
  · intro j hj hsh hx
    obtain ⟨e, -⟩ := both_index h hi hj hsh hx
    obtain ⟨-, -, -, -, -, -, -, -, -, -, -, -, h11⟩ := newDealer_ok (old_start h hj).1
    rw [e, h11]
    exact ⟨rfl, rfl, fun l => by simp [newAggregator]⟩

/-! ### One step -/

variable {E : DkgEnv F G} (hS : E.suite.Lawful) (hP : E.prims.Lawful)
  (hO : PrimsOk E) {N : ReNet F G} (h : N.Honest E)
  (hC : ∀ j < N.n, ∀ dl ∈ (N.O j).dealer.deals, E.codec.dec (E.codec.enc dl) = some dl)

include hS hP hO h hC

theorem step_rdeal {i j : Nat} (hi : i < N.m) (hj : j < N.n) {pre : List HMsg}
    {d : Dkg F G} (hI : RInv E N i pre d) (hnew : HMsg.deal j ∉ pre)
    (hw : ∀ m ∈ pre, N.WantedNew i m) (z : F) :
    RInv E N i (pre ++ [.deal j]) (dStep E d (N.callNew E z i (.deal j))) ∧
    N.SucceedsNew E z i d (.deal j) := by
  obtain ⟨v, hv, h1, h2⟩ := hI.ver j hj
  rw [if_neg hnew] at h2
  have hRi : rstored E N i pre j i = none := by
    unfold rstored
    rw [if_neg (by simp [hnew]), if_neg]
    intro hc; exact (hw _ hc).2.2 rfl
  obtain ⟨w, hw', g1, g2⟩ := step_deal E.toEnv hS hP (hC j hj) (old_start h hj).1 (h.xo j hj) (newPubs_get E N hi)
    (h.k j i) (renc_ok hP hO h hj hi) h1 h2 hRi (vk := N.vk i j) (rplain_deal h hj hi)
  have hrep : honestReply E.toEnv (N.xn i) (N.newPubs E) i (N.xo j • E.suite.base) (N.plain j i) (N.vk i j) =
      (N.respMsg E j i).response := by rw [rrespMsg_reply h hj i i]
  rw [hrep] at hw' g2
  have hproc : d.processDeal E (N.dealMsg E j i) (N.vk i j) z =
      (d.setVerifier j w, .ok (N.respMsg E j i)) := by
    unfold Dkg.processDeal
    rw [if_neg (by rw [hI.static.new]; simp)]
    have hpub : (if d.isResharing then d.c.oldNodes else d.c.newNodes)[(N.dealMsg E j i).index]? =
        some (N.xo j • E.suite.base) := by
      rw [hI.static.re, if_pos rfl, hI.static.oldNodes]; exact oldPubs_get E N hj
    rw [hpub]
    have hver : Schnorr.verify E.suite (N.xo j • E.suite.base)
        (E.encDist (N.dealMsg E j i).index (N.dealMsg E j i).deal) (N.dealMsg E j i).signature =
        .ok () := rdealMsg_verify hS h hj
    simp only [hver]
    have hv' : d.verifiers.get (N.dealMsg E j i).index = some v := hv
    have hw'' : v.processEncryptedDeal E.toEnv (N.dealMsg E j i).deal (N.vk i j) =
      (w, .ok (N.respMsg E j i).response) := hw'
    simp only [hv', hw'']
    have hcoef : N.commits E ≠ [] := by unfold ReNet.commits; simpa using h.f
    have hev : d.dpub.eval F (N.dealMsg E j i).index =
        .ok ⟨j, polyVal N.f ((j + 1 : Nat) : F) • E.suite.base⟩ := by
      rw [hI.static.dpub, pubEval_eq _ hcoef]
      show Res.ok (⟨j, pointVal (N.commits E) ((j + 1 : Nat) : F)⟩ : Share G) = _
      unfold ReNet.commits
      rw [pointVal_map_smul _ hS.base_lin]
    have hhead : w.aggregator.deal.bind (fun dl => dl.commitments.head?) =
        some (polyVal N.f ((j + 1 : Nat) : F) • E.suite.base) := by
      obtain ⟨-, -, -, -, -, -, -, -, h7, -⟩ := newDealer_ok (old_start h hj).1
      rw [g2.deal]
      show (N.O j).dealer.secretCommits.head? = _
      rw [h7]; rfl
    rw [if_pos (by rw [hI.static.re, hI.static.receive]; rfl), hev, hhead]
    simp only [ne_eq, not_true_eq_false, if_false]
    rw [hI.static.re]
    simp only [Bool.not_true, Bool.and_false, Bool.false_eq_true, if_false]
    rfl
  have hstep : dStep E d (N.callNew E z i (.deal j)) = d.setVerifier j w := by
    show (d.processDeal E (N.dealMsg E j i) (N.vk i j) z).1 = _
    rw [hproc]
  refine ⟨?_, by show (d.processDeal E (N.dealMsg E j i) (N.vk i j) z).2 = _; rw [hproc]⟩
  rw [hstep]
  have hresp : ∀ a b, HMsg.resp a b ∈ pre ++ [.deal j] ↔ HMsg.resp a b ∈ pre := by
    intro a b
    simp
  refine ⟨?_, ?_, hI.dealer, ?_⟩
  · exact ⟨hI.static.longterm, hI.static.newNodes, hI.static.oldNodes, hI.static.re,
      hI.static.new, hI.static.issue, hI.static.receive, hI.static.nidx, hI.static.oidx,
      hI.static.dpub⟩
  · intro j' hj'
    show ∃ v, (d.verifiers.insert j w).get j' = some v ∧ _
    rw [AMap.get_insert]
    by_cases hjj : j' = j
    · subst hjj
      refine ⟨w, if_pos rfl, g1, ?_⟩
      rw [if_pos (by simp)]
      have : rstored E N i (pre ++ [.deal j']) j' =
          Function.update (rstored E N i pre j') i (some (N.respMsg E j' i).response) := by
        funext l
        rw [Function.update_apply]
        unfold rstored
        simp only [hresp, List.mem_append, List.mem_singleton, or_true, true_and, hnew, false_and, if_false]
      rw [this]
      exact g2
    · obtain ⟨u, hu, k1, k2⟩ := hI.ver j' hj'
      refine ⟨u, by rw [if_neg hjj]; exact hu, k1, ?_⟩
      have hg : HMsg.deal j' ∈ pre ++ [.deal j] ↔ HMsg.deal j' ∈ pre := by simp [hjj]
      have : rstored E N i (pre ++ [.deal j]) j' = rstored E N i pre j' := by
        funext l
        unfold rstored
        simp only [hg, hresp]
      rw [this]
      simp only [hg]
      exact k2
  · intro j' hj' hs hx
    obtain ⟨a1, a2, a3⟩ := hI.agg j' hj' hs hx
    exact ⟨a1, a2, fun l => by rw [show (d.setVerifier j w).dealer = d.dealer from rfl, a3]; simp only [hresp]⟩

omit hP hC hO in
theorem step_rresp {i j l : Nat} (hi : i < N.m) (hj : j < N.n) (hl : l < N.m) (hli : l ≠ i)
    {pre : List HMsg} {d : Dkg F G} (hI : RInv E N i pre d)
    (hnew : HMsg.resp j l ∉ pre) (z : F) :
    RInv E N i (pre ++ [.resp j l]) (dStep E d (N.callNew E z i (.resp j l))) ∧
    N.SucceedsNew E z i d (.resp j l) := by
  obtain ⟨v, hv, h1, h2⟩ := hI.ver j hj
  have hidx : (N.respMsg E j l).response.index = l := rfl
  have hsid : (N.respMsg E j l).response.sessionId = (N.O j).dealer.sessionId := rfl
  have hst0 : rstored E N i pre j l = none := by
    unfold rstored
    rw [if_neg (by simp [hli]), if_neg hnew]
  obtain ⟨v', e1, e2, e3⟩ := step_response h1 h2 (N.respMsg E j l).response (N.xn l • E.suite.base)
    (by
      intro dl hdl
      split at hdl
      · cases hdl; exact hsid
      · cases hdl)
    (by rw [hidx]; exact newPubs_get E N hl) (rrespMsg_verify hS h hl) (by rw [hidx]; exact hst0)
  have hver : ∀ j' < N.n, ∃ v, (d.verifiers.insert j v').get j' = some v ∧
      VSt E.suite (N.xn i) (N.newPubs E) i (N.xo j' • E.suite.base) v ∧
      VDyn v (if HMsg.deal j' ∈ pre ++ [.resp j l] then some (N.plain j' i) else none)
        (rstored E N i (pre ++ [.resp j l]) j') := by
    intro j' hj'
    have hg : HMsg.deal j' ∈ pre ++ [.resp j l] ↔ HMsg.deal j' ∈ pre := by simp
    rw [AMap.get_insert]
    by_cases hjj : j' = j
    · subst hjj
      refine ⟨v', if_pos rfl, e2, ?_⟩
      have : rstored E N i (pre ++ [.resp j' l]) j' =
          Function.update (rstored E N i pre j') l (some (N.respMsg E j' l).response) := by
        funext l'
        rw [Function.update_apply]
        unfold rstored
        simp only [hg, List.mem_append, List.mem_singleton, HMsg.resp.injEq, true_and]
        by_cases hll : l' = l
        · subst hll; simp [hli]
        · simp [hll]
      rw [this]
      simp only [hg]
      exact e3
    · obtain ⟨u, hu, k1, k2⟩ := hI.ver j' hj'
      refine ⟨u, by rw [if_neg hjj]; exact hu, k1, ?_⟩
      have : rstored E N i (pre ++ [.resp j l]) j' = rstored E N i pre j' := by
        funext l'
        unfold rstored
        simp [hjj]
      rw [this]
      simp only [hg]
      exact k2
  have hstat : ∀ dl : Dealer F G, RStatic E N i { d.setVerifier j v' with dealer := dl } := fun dl =>
    ⟨hI.static.longterm, hI.static.newNodes, hI.static.oldNodes,
      hI.static.re, hI.static.new, hI.static.issue, hI.static.receive, hI.static.nidx,
      hI.static.oidx, hI.static.dpub⟩
  have hunf : d.processResponse E (N.respMsg E j l) z =
      (if d.canIssue = false ∨ j ≠ d.oidx then (d.setVerifier j v', .ok none)
        else match d.dealer.processResponse E.toEnv (N.respMsg E j l).response z with
          | (dl, .err e) => ({ d.setVerifier j v' with dealer := dl }, .err (.vss e))
          | (dl, .panic) => ({ d.setVerifier j v' with dealer := dl }, .panic)
          | (dl, .ok none) => ({ d.setVerifier j v' with dealer := dl }, .ok none)
          | (dl, .ok (some jj)) =>
            match v'.processJustification E.suite jj with
            | (v, .err e) =>
              (({ d.setVerifier j v' with dealer := dl } : Dkg F G).setVerifier j v, .err (.vss e))
            | (v, .panic) =>
              (({ d.setVerifier j v' with dealer := dl } : Dkg F G).setVerifier j v, .panic)
            | (v, .ok ()) =>
              (({ d.setVerifier j v' with dealer := dl } : Dkg F G).setVerifier j v,
                .ok (some ⟨d.oidx, jj⟩))) := by
    unfold Dkg.processResponse
    rw [if_neg (by rw [hI.static.new]; simp)]
    have hv2 : d.verifiers.get (N.respMsg E j l).index = some v := hv
    simp only [hv2, e1]
    rfl
  by_cases hown : d.canIssue = false ∨ j ≠ d.oidx
  · rw [if_pos hown] at hunf
    refine ⟨?_, by show (d.processResponse E (N.respMsg E j l) z).2 = _; rw [hunf]⟩
    have hstep : dStep E d (N.callNew E z i (.resp j l)) = _ := congrArg Prod.fst hunf
    rw [hstep]
    refine ⟨hstat _, hver, hI.dealer, ?_⟩
    intro j' hj' hs hx
    obtain ⟨a1, a2, a3⟩ := hI.agg j' hj' hs hx
    refine ⟨a1, a2, fun l' => ?_⟩
    show d.dealer.aggregator.responses.get l' = _
    rw [a3]
    have hne : j' ≠ j := by
      rintro rfl
      rcases hown with hown | hown
      · rw [hI.static.issue, hs] at hown; cases hown
      · exact hown (by rw [hI.static.oidx]; exact (both_index h hi hj' hs hx).2.symm)
    simp [hne]
  · rw [if_neg hown] at hunf
    rw [not_or, Bool.not_eq_false, hI.static.issue, hI.static.oidx, ne_eq, not_not] at hown
    obtain ⟨hs, hoi⟩ := hown
    obtain ⟨j0, hj0, hx, -⟩ := h.both i hi hs
    have : j0 = j := by rw [hoi]; exact (both_index h hi hj0 hs hx).2.symm
    subst this
    obtain ⟨a1, a2, a3⟩ := hI.agg j0 hj hs hx
    have hagg := verifyResponse_new_ok E.suite d.dealer.aggregator (N.respMsg E j0 l).response
      (N.xn l • E.suite.base) (fun _ => by rw [a1]; exact hsid)
      (by rw [a2, hidx]; exact newPubs_get E N hl) (rrespMsg_verify hS h hl)
      (by rw [a3, hidx, if_neg hnew])
    have hdl : d.dealer.processResponse E.toEnv (N.respMsg E j0 l).response z =
        ({ d.dealer with aggregator := { d.dealer.aggregator with
          responses := d.dealer.aggregator.responses.insert l (N.respMsg E j0 l).response } },
          .ok none) := by
      unfold Dealer.processResponse
      rw [hagg]
      simp only
      rw [if_pos (by rfl)]
      rfl
    rw [hdl] at hunf
    simp only at hunf
    refine ⟨?_, by show (d.processResponse E (N.respMsg E j0 l) z).2 = _; rw [hunf]⟩
    have hstep : dStep E d (N.callNew E z i (.resp j0 l)) = _ := congrArg Prod.fst hunf
    rw [hstep]
    refine ⟨hstat _, hver, hI.dealer, ?_⟩
    intro j' hj' hs' hx'
    have : j' = j0 := (both_index h hi hj' hs' hx').2.symm.trans (both_index h hi hj hs hx).2
    subst this
    refine ⟨a1, a2, fun l' => ?_⟩
    show (d.dealer.aggregator.responses.insert l _).get l' = _
    rw [AMap.get_insert, a3]
    by_cases hll : l' = l
    · subst hll; simp
    · simp [hll]

omit hS hC in
theorem step_rdeals {i : Nat} (hi : i < N.m) {pre : List HMsg} {d : Dkg F G}
    (hI : RInv E N i pre d) (z : F) :
    dStep E d (N.callNew E z i .deals) = d ∧ N.SucceedsNew E z i d .deals := by
  cases hs : (N.nc i).share with
  | none =>
    have hz : d.deals E (N.dh (N.D i).oidx) (N.k (N.D i).oidx) (N.rnd (N.D i).oidx) z z = (d, .ok []) := by
      unfold Dkg.deals
      rw [if_pos (by rw [hI.static.issue, hs]; rfl)]
    refine ⟨congrArg Prod.fst hz, [], congrArg Prod.snd hz, fun _ => rfl, ?_⟩
    intro j _ h2; rw [hs] at h2; cases h2
  | some sh =>
    have hsome : (N.nc i).share.isSome = true := by rw [hs]; rfl
    obtain ⟨j, hj, hx, -⟩ := h.both i hi hsome
    obtain ⟨eO, eo⟩ := both_index h hi hj hsome hx
    obtain ⟨dd, h1, h2⟩ := reshare_deals hP hO h hj hI.static.re (by rw [hI.static.issue, hsome])
      (by rw [hI.static.oidx, eo]) (by rw [hI.static.longterm, hx]) hI.static.newNodes
      (by have := hI.dealer; rw [eO] at this; exact this) z z
    rw [← eo] at h1
    refine ⟨congrArg Prod.fst h1, dd, congrArg Prod.snd h1, (by intro h; rw [hs] at h; cases h), ?_⟩
    intro j' hj' _ hx'
    have : j' = j := (both_index h hi hj' hsome hx').2.symm.trans eo
    subst this
    exact h2

omit hS hP hO h hC in
theorem rinv_congr {i : Nat} {pre : List HMsg} {m : HMsg} {d : Dkg F G} (hm : m = .timeout ∨ m = .deals)
    (hI : RInv E N i pre d) : RInv E N i (pre ++ [m]) d := by
  have hg : ∀ j, HMsg.deal j ∈ pre ++ [m] ↔ HMsg.deal j ∈ pre := by
    intro j; rcases hm with rfl | rfl <;> simp
  have hr : ∀ j l, HMsg.resp j l ∈ pre ++ [m] ↔ HMsg.resp j l ∈ pre := by
    intro j l; rcases hm with rfl | rfl <;> simp
  have hst : ∀ j, rstored E N i (pre ++ [m]) j = rstored E N i pre j := by
    intro j; funext l; unfold rstored; simp only [hg, hr]
  refine ⟨hI.static, ?_, hI.dealer, ?_⟩
  · intro j hj
    rw [hst]; simp only [hg]; exact hI.ver j hj
  · simp only [hr]; exact hI.agg

omit hS hP hO h hC in
theorem step_rtimeout {i : Nat} {pre : List HMsg} {d : Dkg F G} (hI : RInv E N i pre d) :
    RInv E N i (pre ++ [.timeout]) d.setTimeout := by
  refine rinv_congr (Or.inl rfl) ⟨⟨hI.static.longterm, hI.static.newNodes, hI.static.oldNodes,
      hI.static.re, hI.static.new, hI.static.issue, hI.static.receive, hI.static.nidx,
      hI.static.oidx, hI.static.dpub⟩, ?_, hI.dealer, hI.agg⟩
  intro j hj
  obtain ⟨v, hv, h1, h2⟩ := hI.ver j hj
  refine ⟨v.setTimeout, ?_, (step_timeout h1 h2).1, (step_timeout h1 h2).2⟩
  show AMap.get (d.verifiers.map (fun e => (e.1, e.2.setTimeout))) j = _
  rw [get_map, hv]; rfl

omit hS hP hO h hC in
/-- Induction over a history: every step succeeds and keeps the invariant. -/
theorem history_induction {wanted : HMsg → Prop} {Inv : List HMsg → Dkg F G → Prop}
    {call : HMsg → DCall F G} {Succ : Dkg F G → HMsg → Prop} {d0 : Dkg F G} (h0 : Inv [] d0)
    (hstep : ∀ pre m d, Inv pre d → wanted m → (∀ m ∈ pre, wanted m) →
      (m ≠ .timeout → m ≠ .deals → m ∉ pre) → Inv (pre ++ [m]) (dStep E d (call m)) ∧ Succ d m)
    (s : List HMsg) (hs : ReNet.Sched wanted s) :
    Inv s (dRun E d0 (s.map call)) ∧
    ∀ pre m post, s = pre ++ m :: post → Succ (dRun E d0 (pre.map call)) m := by
  induction s using List.reverseRecOn with
  | nil => exact ⟨h0, by simp⟩
  | append_singleton s m ih =>
    have hs' : ReNet.Sched wanted s :=
      ⟨fun a ha => hs.wanted a (List.mem_append_left _ ha), fun a ha hb => by
        have := hs.once a ha hb
        rw [List.count_append] at this
        omega⟩
    obtain ⟨hI, hpre⟩ := ih hs'
    have hnew : m ≠ .timeout → m ≠ .deals → m ∉ s := by
      intro hm hm' hin
      have := hs.once m hm hm'
      rw [List.count_append, List.count_singleton_self] at this
      have := List.count_pos_iff.2 hin
      omega
    have hst := hstep s m _ hI (hs.wanted m (by simp)) hs'.wanted hnew
    refine ⟨?_, ?_⟩
    · rw [List.map_append]
      unfold dRun at hst ⊢
      rw [List.foldl_append]
      exact hst.1
    · intro pre m' post he
      rcases List.eq_nil_or_concat post with rfl | ⟨post', b, rfl⟩
      · obtain ⟨rfl, hb⟩ := List.append_inj' he rfl
        cases hb
        exact hst.2
      · rw [List.concat_eq_append] at he
        have he' : s ++ [m] = (pre ++ m' :: post') ++ [b] := by rw [he]; simp
        obtain ⟨rfl, -⟩ := List.append_inj' he' rfl
        exact hpre pre m' post' rfl

/-- The invariant holds after every history of a new node, and every call of it succeeds. -/
theorem rinv_run {i : Nat} (hi : i < N.m) (z : F) (s : List HMsg) (hs : ReNet.Sched (N.WantedNew i) s) :
    RInv E N i s (dRun E (N.D i) (s.map (N.callNew E z i))) ∧
    ∀ pre m post, s = pre ++ m :: post →
      N.SucceedsNew E z i (dRun E (N.D i) (pre.map (N.callNew E z i))) m := by
  refine history_induction (wanted := N.WantedNew i) (rinv_start h hi) ?_ s hs
  intro pre m d hI hw hwpre hnew
  cases m with
  | deals =>
    obtain ⟨e, hsu⟩ := step_rdeals hP hO h hi hI z
    rw [e]
    exact ⟨rinv_congr (Or.inr rfl) hI, hsu⟩
  | deal j => exact step_rdeal hS hP hO h hC hi hw hI (hnew (by simp) (by simp)) hwpre z
  | resp j l => exact step_rresp hS h hi hw.1 hw.2.1 hw.2.2 hI (hnew (by simp) (by simp)) z
  | timeout => exact ⟨step_rtimeout hI, trivial⟩

/-! ### Leaving nodes -/

/-- The state of old node `j`, which leaves, after `pre`. -/
structure LInv (E : DkgEnv F G) (N : ReNet F G) (j : Nat) (pre : List HMsg) (d : Dkg F G) : Prop where
  new : d.newPresent = false
  re : d.isResharing = true
  issue : d.canIssue = true
  oidx : d.oidx = j
  longterm : d.c.longterm = N.xo j
  newNodes : d.c.newNodes = N.newPubs E
  oldNodes : d.c.oldNodes = N.oldPubs E
  dealer : d.dealer = (N.O j).dealer
  agg : ∀ j', (d.oldAggregators.get j').getD (newEmptyAggregator (N.newPubs E)) =
    { (newEmptyAggregator (N.newPubs E) : Aggregator F G) with
      responses := ((d.oldAggregators.get j').map (fun a => a.responses)).getD [] }
  resp : ∀ j' l, ((d.oldAggregators.get j').getD (newEmptyAggregator (N.newPubs E))).responses.get l =
    if HMsg.resp j' l ∈ pre then some (N.respMsg E j' l).response else none

omit hC in
/-- The invariant holds after every history of a leaving node, and every call of it succeeds. -/
theorem linv_run {j : Nat} (hj : j < N.n) (hleave : N.xo j • E.suite.base ∉ N.newPubs E) (z : F) (s : List HMsg)
    (hs : ReNet.Sched N.WantedOld s) :
    LInv E N j s (dRun E (N.O j) (s.map (N.callOld E z j))) ∧
    ∀ pre m post, s = pre ++ m :: post →
      N.SucceedsOld E z j (dRun E (N.O j) (pre.map (N.callOld E z j))) m := by
  obtain ⟨o1, o2, o3, o4, o5, o6, o7, o8, -⟩ := old_start h hj
  have h0 : LInv E N j [] (N.O j) := by
    refine ⟨?_, o4, o3, o2, o5, o6, o7, rfl, ?_, ?_⟩
    · obtain ⟨s, h0⟩ := h.startO j hj
      have := (newDistKeyHandler_ok h0).nidx
      rw [(h.agreeO j hj).newNodes, (h.agreeO j hj).longterm] at this
      unfold findPub at this
      rw [List.findIdx?_eq_none_iff.2 (by
        intro q hq
        simp only [decide_eq_false_iff_not]
        rintro rfl
        exact hleave hq)] at this
      exact (Prod.mk.inj this).2.symm
    · intro j'; rw [o8]; rfl
    · intro j' l; rw [o8]; simp [newEmptyAggregator]
  refine history_induction (wanted := N.WantedOld) h0 ?_ s hs
  · intro pre m d hI hw _ hnew
    cases m with
    | deals =>
      obtain ⟨dd, h1, h2⟩ := reshare_deals hP hO h hj hI.re hI.issue hI.oidx hI.longterm hI.newNodes
        (by rw [hI.dealer]) z z
      refine ⟨?_, dd, congrArg Prod.snd h1, h2⟩
      have hstep : dStep E d (N.callOld E z j .deals) = d := congrArg Prod.fst h1
      rw [hstep]
      exact ⟨hI.new, hI.re, hI.issue, hI.oidx, hI.longterm, hI.newNodes, hI.oldNodes, hI.dealer, hI.agg,
        fun j' l => by rw [hI.resp]; simp⟩
    | deal j' => exact absurd hw id
    | timeout =>
      refine ⟨?_, trivial⟩
      exact ⟨hI.new, hI.re, hI.issue, hI.oidx, hI.longterm, hI.newNodes, hI.oldNodes, hI.dealer, hI.agg,
        fun j' l => by
          show ((d.oldAggregators.get j').getD (newEmptyAggregator (N.newPubs E))).responses.get l = _
          rw [hI.resp]
          simp⟩
    | resp j1 l1 =>
      have hidx : (N.respMsg E j1 l1).response.index = l1 := rfl
      set a := (d.oldAggregators.get j1).getD (newEmptyAggregator (N.newPubs E)) with ha
      have hagg := verifyResponse_new_ok E.suite a (N.respMsg E j1 l1).response
        (N.xn l1 • E.suite.base) (fun hne => absurd (by rw [ha, hI.agg]; rfl) hne)
        (by rw [ha, hI.agg, hidx]; exact newPubs_get E N hw.2) (rrespMsg_verify hS h hw.2)
        (by rw [ha, hI.resp, hidx, if_neg (hnew (by simp) (by simp))])
      have hproc : d.processResponse E (N.respMsg E j1 l1) z =
          ({ d with oldAggregators := (d.oldAggregators.insert j1
              ({ a with responses := a.responses.insert l1 (N.respMsg E j1 l1).response })) }, .ok none) := by
        unfold Dkg.processResponse
        rw [if_pos ⟨hI.re, hI.issue, hI.new⟩]
        unfold Dkg.processResharingResponse
        have hget : (d.oldAggregators.get (N.respMsg E j1 l1).index).getD
            (newEmptyAggregator d.c.newNodes) = a := by rw [hI.newNodes]; rfl
        rw [hget]; simp only [hagg]
        split
        · rfl
        · rw [if_pos (by rfl)]; rfl
      refine ⟨?_, congrArg Prod.snd hproc⟩
      have hstep : dStep E d (N.callOld E z j (.resp j1 l1)) = _ := congrArg Prod.fst hproc
      rw [hstep]
      refine ⟨hI.new, hI.re, hI.issue, hI.oidx, hI.longterm, hI.newNodes, hI.oldNodes, hI.dealer, ?_, ?_⟩
      · intro j'
        simp only [AMap.get_insert]
        by_cases hjj : j' = j1
        · subst hjj
          rw [if_pos rfl]
          simp only [Option.getD_some, Option.map_some]
          rw [ha, hI.agg]
        · rw [if_neg hjj]; exact hI.agg j'
      · intro j' l'
        simp only [AMap.get_insert]
        by_cases hjj : j' = j1
        · subst hjj
          rw [if_pos rfl]
          simp only [Option.getD_some, AMap.get_insert]
          rw [ha, hI.resp]
          by_cases hll : l' = l1
          · subst hll; simp
          · simp [hll]
        · rw [if_neg hjj, hI.resp]
          simp [hjj]

end Kyber.DkgP
