/-
The state of a participant of an honest Pedersen DKG after any part of its history.
-/
import Verif.Spec.DkgHonest
import Verif.Lemmas.DkgPedersenHonest
import Verif.Props.VssPedersen

set_option linter.unusedSectionVars false

namespace Kyber.DkgP

open Kyber.Poly Kyber.Spec Kyber.VssP

variable {F G : Type} [Field F] [AddCommGroup G] [SMul F G] [DecidableEq G]

/-! ### The messages -/

/-- The deal of `j` for `i`, in the clear. -/
def _root_.Kyber.Spec.Net.plain (N : Net F G) (j i : Nat) : VssP.Deal F G :=
  ⟨(N.D j).dealer.sessionId, (N.D j).dealer.secretPoly.eval i, (N.D j).newT, (N.D j).dealer.secretCommits⟩

theorem pubs_get (E : DkgEnv F G) (N : Net F G) {i : Nat} (h : i < N.n) :
    (N.pubs E)[i]? = some (N.x i • E.suite.base) := by
  unfold Net.pubs
  rw [List.getElem?_map, List.getElem?_range h]; rfl

theorem pubs_length (E : DkgEnv F G) (N : Net F G) : (N.pubs E).length = N.n := by
  unfold Net.pubs; simp

/-- A group in which all are honest. -/
theorem _root_.Kyber.Spec.Net.Honest.fair {E : DkgEnv F G} {N : Net F G} (h : N.Honest E) :
    N.Fair E (fun _ => True) :=
  ⟨h.nodup, h.x, h.k, h.rnd, h.vk, fun i hi _ => h.start i hi, fun _ _ hn => absurd trivial hn⟩

/-- What is constant about participant `i`. -/
structure Static (E : DkgEnv F G) (N : Net F G) (i : Nat) (d : Dkg F G) : Prop where
  longterm : d.c.longterm = N.x i
  newNodes : d.c.newNodes = N.pubs E
  oldNodes : d.c.oldNodes = N.pubs E
  re : d.isResharing = false
  new : d.newPresent = true
  issue : d.canIssue = true
  receive : d.canReceive = true
  nidx : d.nidx = i
  oidx : d.oidx = i
  newT : d.newT = (N.D i).newT

theorem honest_new {E : DkgEnv F G} {N : Net F G} {H : Nat → Prop} (h : N.Fair E H) {i : Nat} (hi : i < N.n) (hh : H i) :
    Static E N i (N.D i) ∧
    newDealer E.suite (N.x i) (N.sec i) (N.pubs E) (N.D i).newT (N.draws i) = .ok (N.D i).dealer ∧
    (N.D i).verifiers = startVers E.suite (N.D i).c i ∧ (N.D i).processed = false ∧
    (N.D i).c.threshold = N.t := by
  have h0 := h.start i hi hh
  have hst := newDistKeyHandler_ok h0
  have hf := findPub_nodup h.nodup (pubs_get E N hi)
  have hre : (N.D i).isResharing = false := hst.resharing
  have hnew : (N.D i).nidx = i ∧ (N.D i).newPresent = true := by
    have := hst.nidx
    simp only at this
    rw [hf] at this
    exact ⟨(Prod.mk.inj this).1.symm, (Prod.mk.inj this).2.symm⟩
  obtain ⟨ho, hiss, hdl⟩ := hst.fresh hre hnew.2
  have hold : (N.D i).oidx = i := by
    have := hst.oidx
    rw [ho] at this
    simp only at this
    rw [hf] at this
    exact (Prod.mk.inj this).1.symm
  refine ⟨⟨hst.longterm, hst.newNodes, ho, hre, hnew.2, hiss, ?_, hnew.1, hold, rfl⟩, hdl, ?_,
    hst.start.2.1, hst.threshold⟩
  · rw [hst.receive]; exact hnew.2
  · rw [hst.verifiers, if_pos ⟨hnew.2, by rw [ho]; exact h.nodup⟩, hnew.1]

theorem Static.evolve {E : DkgEnv F G} {N : Net F G} {i : Nat} {d d' : Dkg F G}
    (h : Static E N i d) (he : Evolves E d d') : Static E N i d' where
  longterm := by rw [he.c]; exact h.longterm
  newNodes := by rw [he.c]; exact h.newNodes
  oldNodes := by rw [he.c]; exact h.oldNodes
  re := he.isResharing.trans h.re
  new := he.newPresent.trans h.new
  issue := he.canIssue.trans h.issue
  receive := he.canReceive.trans h.receive
  nidx := he.nidx.trans h.nidx
  oidx := he.oidx.trans h.oidx
  newT := he.newT.trans h.newT

/-- What all dealers have in common. -/
theorem convincing {E : DkgEnv F G} (hl : Lin F E.suite.base) {N : Net F G} {H : Nat → Prop} (h : N.Fair E H)
    {j : Nat} (hj : j < N.n) : N.Convincing E H j := by
  by_cases hh : H j
  · obtain ⟨-, hdl, -⟩ := honest_new h hj hh
    obtain ⟨hv, -, h1, -, -, h4, -, h6, h7, h8, h9, h10, -⟩ := newDealer_ok hdl
    refine ⟨h1, h4, h9, h8, ?_, hv, fun i _ _ => ?_⟩
    · rw [h10, pubs_length]
    · rw [h6, h7]
      have hev := Props.C06_commit_eval (F := F) E.suite.base ⟨N.sec j :: (N.draws j).take ((N.D j).newT - 1)⟩ none
        hl (by simp) i
      unfold PubPoly.check
      show ((⟨none, _⟩ : PubPoly G).eval F i >>= _) = _
      rw [show (⟨none, List.map (fun c => c • E.suite.base) (N.sec j :: List.take ((N.D j).newT - 1) (N.draws j))⟩ :
        PubPoly G).eval F i = _ from hev]
      rw [Res.bind_ok, decide_eq_true rfl]
  · exact h.others j hj hh

theorem plain_deal {E : DkgEnv F G} (hl : Lin F E.suite.base) {N : Net F G} {H : Nat → Prop} (h : N.Fair E H)
    {j i : Nat} (hj : j < N.n) (hi : i < N.n) : (N.D j).dealer.deals[i]? = some (N.plain j i) := by
  rw [(convincing hl h hj).deals, List.getElem?_map, List.getElem?_range hi]
  rfl

theorem dealer_sid {E : DkgEnv F G} (hl : Lin F E.suite.base) {N : Net F G} {H : Nat → Prop} (h : N.Fair E H)
    {j : Nat} (hj : j < N.n) :
    VssP.sessionId E.suite (N.x j • E.suite.base) (N.pubs E) (N.D j).dealer.secretCommits
      (N.D j).newT = (N.D j).dealer.sessionId := (convincing hl h hj).sid.symm

theorem respMsg_reply {E : DkgEnv F G} (hl : Lin F E.suite.base) {N : Net F G} {H : Nat → Prop} (h : N.Fair E H) {j : Nat} (hj : j < N.n)
    (l i : Nat) : N.respMsg E j l = ⟨j, honestReply E.toEnv (N.x l) (N.pubs E) l (N.x j • E.suite.base)
      (N.plain j i) (N.vk l j)⟩ := by
  unfold Net.respMsg honestReply mkReply startVer Net.plain
  simp only [dealer_sid hl h hj]

theorem respMsg_verify {E : DkgEnv F G} (hS : E.suite.Lawful) {N : Net F G} {H : Nat → Prop} (h : N.Fair E H)
    {j l : Nat} (hl : l < N.n) :
    Schnorr.verify E.suite (N.x l • E.suite.base) ((N.respMsg E j l).response.hash E.suite)
      (N.respMsg E j l).response.signature = .ok () :=
  Props.C11_sign_verify E.suite hS _ _ _ (h.vk l j).1 (h.vk l j).2 (h.x l hl).1 (h.x l hl).2

theorem dealMsg_verify {E : DkgEnv F G} (hS : E.suite.Lawful) {N : Net F G} {H : Nat → Prop} (h : N.Fair E H)
    {j i : Nat} (hj : j < N.n) :
    Schnorr.verify E.suite (N.x j • E.suite.base) (E.encDist j (N.enc E j i))
      (N.dealMsg E j i).signature = .ok () :=
  Props.C11_sign_verify E.suite hS _ _ _ (h.rnd j i).1 (h.rnd j i).2 (h.x j hj).1 (h.x j hj).2

/-- HKDF and AES-GCM do not fail. -/
def PrimsOk (E : DkgEnv F G) : Prop :=
  (∀ ikm info, (E.prims.hkdf ikm info 32).isSome) ∧
  (∀ key nonce m aad, (E.prims.gcmSeal key nonce m aad).isSome)

theorem enc_ok {E : DkgEnv F G} (hS : E.suite.Lawful) (hP : E.prims.Lawful) (hO : PrimsOk E) {N : Net F G}
    {H : Nat → Prop} (h : N.Fair E H) {j i : Nat} (hj : j < N.n) (hi : i < N.n) :
    (N.D j).dealer.encryptedDeal E.toEnv i (N.dh j i) (N.k j i) = .ok (N.enc E j i) := by
  have hp : (N.D j).dealer.verifiers[i]? = some (N.x i • E.suite.base) := by
    rw [(convincing hS.base_lin h hj).verifiers]; exact pubs_get E N hi
  obtain ⟨key, hkey⟩ := Option.isSome_iff_exists.1
    (hO.1 (E.suite.encG (Dh.dhExchange (N.dh j i) (N.x i • E.suite.base))) (N.D j).dealer.hkdfContext)
  obtain ⟨c, hc⟩ := Option.isSome_iff_exists.1 (hO.2 key (List.replicate Dh.nonceSize 0)
    (E.codec.enc (N.plain j i)) (N.D j).dealer.hkdfContext)
  obtain ⟨e, he⟩ : ∃ e, (N.D j).dealer.encryptedDeal E.toEnv i (N.dh j i) (N.k j i) = .ok e := by
    unfold Dealer.encryptedDeal
    simp only [VssP.findPub, hp, Res.ofOption_some, Res.bind_ok, Dh.AEAD.new_ok hP hkey, Res.mapErr_ok,
      plain_deal hS.base_lin h hj hi, Res.unwrap_some, Dh.AEAD.seal_, Dh.aesEncrypt, Dh.copyOut]
    rw [if_neg (by simpa using hP.hkdf_length _ _ _ _ hkey)]
    simp [hc]
  unfold Net.enc
  rw [he]

/-! ### The invariant -/

/-- Participant `i` has the deal of `j`. -/
def got (i : Nat) (pre : List HMsg) (j : Nat) : Prop :=
  if j = i then HMsg.deals ∈ pre else HMsg.deal j ∈ pre

instance (i : Nat) (pre : List HMsg) (j : Nat) : Decidable (got i pre j) := by
  unfold got; infer_instance

/-- The responses to the deal of `j` that participant `i` has stored. -/
def stored (E : DkgEnv F G) (N : Net F G) (i : Nat) (pre : List HMsg) (j l : Nat) :
    Option VssP.Response :=
  if got i pre j ∧ l = i then some (N.respMsg E j i).response
  else if got i pre j ∧ l = j then some ⟨(N.D j).dealer.sessionId, j, true, []⟩
  else if HMsg.resp j l ∈ pre then some (N.respMsg E j l).response
  else none

/-- The state of participant `i` after `pre`. -/
structure Inv (E : DkgEnv F G) (N : Net F G) (i : Nat) (pre : List HMsg) (d : Dkg F G) : Prop where
  static : Static E N i d
  ver : ∀ j < N.n, ∃ v, d.verifiers.get j = some v ∧
    VSt E.suite (N.x i) (N.pubs E) i (N.x j • E.suite.base) v ∧
    VDyn v (if got i pre j then some (N.plain j i) else none) (stored E N i pre j)
  processed : d.processed = decide (HMsg.deals ∈ pre)
  dealer : { d.dealer with aggregator := (N.D i).dealer.aggregator } = (N.D i).dealer
  sid : d.dealer.aggregator.sid = (N.D i).dealer.sessionId
  aggv : d.dealer.aggregator.verifiers = N.pubs E
  resp : ∀ l, d.dealer.aggregator.responses.get l =
    if HMsg.resp i l ∈ pre then some (N.respMsg E i l).response else none

theorem inv_start {E : DkgEnv F G} {N : Net F G} {H : Nat → Prop} (h : N.Fair E H) {i : Nat} (hi : i < N.n) (hh : H i) :
    Inv E N i [] (N.D i) := by
  obtain ⟨hs, hdl, hv, hp, ht⟩ := honest_new h hi hh
  obtain ⟨-, -, -, -, -, -, -, -, -, -, -, -, h11⟩ := newDealer_ok hdl
  refine ⟨hs, ?_, by rw [hp]; rfl, rfl, by rw [h11]; rfl, by rw [h11]; rfl, ?_⟩
  · intro j hj
    refine ⟨startVer E.suite (N.x i) (N.pubs E) N.t i (N.x j • E.suite.base), ?_,
      startVer_st _ _ _ _ _ _, ?_⟩
    · rw [hv, startVers_get, hs.oldNodes, hs.longterm, hs.newNodes, ht, pubs_get E N hj]
      rfl
    · have : got i [] j = False := by unfold got; split <;> simp
      have h2 : stored E N i [] j = fun _ => none := by
        funext l; unfold stored; simp [this]
      rw [h2, if_neg (by rw [this]; exact id)]
      exact startVer_dyn _ _ _ _ _ _
  · intro l
    rw [h11]; simp [newAggregator]

theorem got_append (i : Nat) (pre : List HMsg) (m : HMsg) (j : Nat) :
    got i (pre ++ [m]) j ↔ got i pre j ∨ (if j = i then m = .deals else m = .deal j) := by
  unfold got
  split <;> simp [eq_comm]

/-! ### One step -/

variable {E : DkgEnv F G} (hS : E.suite.Lawful) (hP : E.prims.Lawful)
  (hO : PrimsOk E) {N : Net F G} {H : Nat → Prop} (h : N.Fair E H)
  (hC : ∀ j < N.n, ∀ dl ∈ (N.D j).dealer.deals, E.codec.dec (E.codec.enc dl) = some dl)

include hS hP hO h hC

/-- `process_deal` on an honest deal that was not received before. -/
theorem processDeal_fresh {i j : Nat} (hi : i < N.n) (hh : H i) (hj : j < N.n) {d : Dkg F G}
    (hs : Static E N i d) {v : Verifier F G} {R : Nat → Option VssP.Response}
    (hv : d.verifiers.get j = some v)
    (h1 : VSt E.suite (N.x i) (N.pubs E) i (N.x j • E.suite.base) v) (h2 : VDyn v none R)
    (hR : R i = none) (hRj : R j = none) (z : F) :
    ∃ v', d.processDeal E (N.dealMsg E j i) (N.vk i j) z =
        (d.setVerifier j v', .ok (N.respMsg E j i)) ∧
      VSt E.suite (N.x i) (N.pubs E) i (N.x j • E.suite.base) v' ∧
      VDyn v' (some (N.plain j i)) (fun l => if l = i then some (N.respMsg E j i).response
        else if l = j then some ⟨(N.D j).dealer.sessionId, j, true, []⟩ else R l) := by
  have hcv := convincing hS.base_lin h hj
  have hdec : v.decryptDeal E.toEnv (N.enc E j i) = .ok (N.plain j i) := by
    obtain ⟨deal', hdeal', hdec⟩ := decrypt_encrypted E.toEnv hS hP (hC j hj) (v := v)
      (by rw [hcv.verifiers, h1.longterm]; exact pubs_get E N hi)
      (by rw [hcv.long]; exact h1.dealer) (by rw [hcv.ctx]; exact h1.ctx) (by rw [hcv.long]; exact h.x j hj)
      (h.k j i) (enc_ok hS hP hO h hj hi)
    rw [plain_deal hS.base_lin h hj hi] at hdeal'
    cases hdeal'
    exact hdec
  have hcheck : (v.aggregator.remember (N.plain j i)).checkDeal E.suite (N.plain j i) = .ok () := by
    have hrem : v.aggregator.remember (N.plain j i) = { v.aggregator with
        commits := (N.plain j i).commitments, sid := (N.plain j i).sessionId, deal := some (N.plain j i),
        t := (N.plain j i).t } := by
      unfold Aggregator.remember; rw [h2.deal]
    have hch := hcv.check i hi hh
    unfold Aggregator.checkDeal
    rw [hrem]
    show (if validT (N.D j).newT v.aggregator.verifiers = false then _ else _) = _
    rw [h1.aggv, if_neg (by rw [hcv.valid]; simp), if_neg (by simp [Net.plain]), if_neg (by simp),
      if_neg (by rw [pubs_length]; show ¬ N.n ≤ i; omega)]
    unfold PubPoly.check at hch
    rw [show ((N.D j).dealer.secretPoly.eval i).i = i from rfl] at hch
    show ((((⟨none, (N.D j).dealer.secretCommits⟩ : PubPoly G).eval F i).mapErr VssError.poly) >>= _) = _
    cases hev : (⟨none, (N.D j).dealer.secretCommits⟩ : PubPoly G).eval F i with
    | ok p =>
      rw [hev, Res.bind_ok, Res.ok.injEq, decide_eq_true_eq] at hch
      rw [Res.mapErr_ok, Res.bind_ok, if_neg (by rw [hch]; simp [Net.plain])]
    | err e => rw [hev] at hch; cases hch
    | panic => rw [hev] at hch; cases hch
  obtain ⟨w, hw, g1, g2⟩ := step_deal_checked E.toEnv (pubs_get E N hi) (vk := N.vk i j) h1 h2 hR rfl hdec hcheck
  have hreply := respMsg_reply hS.base_lin h hj i i
  have hrep : honestReply E.toEnv (N.x i) (N.pubs E) i (N.x j • E.suite.base) (N.plain j i) (N.vk i j) =
      (N.respMsg E j i).response := by rw [hreply]
  rw [hrep] at hw g2
  obtain ⟨u1, u2⟩ := step_unsafe g1 g2 j true (by rw [pubs_length]; exact hj)
  have hsid : w.aggregator.sid = (N.D j).dealer.sessionId := by rw [g2.sid]; rfl
  refine ⟨w.unsafeSetResponseDkg j true, ?_, u1, ?_⟩
  · unfold Dkg.processDeal
    rw [if_neg (by rw [hs.new]; simp)]
    have hpub : (if d.isResharing then d.c.oldNodes else d.c.newNodes)[(N.dealMsg E j i).index]? =
        some (N.x j • E.suite.base) := by
      rw [hs.re, if_neg (by simp), hs.newNodes]; exact pubs_get E N hj
    rw [hpub]
    have hver : Schnorr.verify E.suite (N.x j • E.suite.base)
        (E.encDist (N.dealMsg E j i).index (N.dealMsg E j i).deal) (N.dealMsg E j i).signature =
        .ok () := dealMsg_verify hS h hj
    simp only [hver]
    have hv' : d.verifiers.get (N.dealMsg E j i).index = some v := hv
    have hw' : v.processEncryptedDeal E.toEnv (N.dealMsg E j i).deal (N.vk i j) =
      (w, .ok (N.respMsg E j i).response) := hw
    simp only [hv', hw', hs.re, Bool.false_and, Bool.false_eq_true, if_false, Bool.not_false,
      Bool.and_true]
    rw [hs.newNodes, findPub_nodup h.nodup (pubs_get E N hj), if_pos rfl]
    rfl
  · refine ⟨u2.deal, u2.sid, u2.t, fun l => ?_⟩
    rw [u2.resp]
    rw [hsid]
    by_cases hji : j = i
    · subst hji
      rw [if_pos (by rw [Function.update_self]; rfl), Function.update_apply]
      split
      · rfl
      · rfl
    · rw [if_neg (by rw [Function.update_of_ne hji, hRj]; simp), Function.update_apply,
        Function.update_apply]
      by_cases hlj : l = j
      · subst hlj
        rw [if_pos rfl, if_neg hji, if_pos rfl]
      · rw [if_neg hlj, if_neg hlj]

/-- The verifiers after a deal has been processed. -/
theorem ver_after_deal {i j : Nat} (hi : i < N.n) (hh : H i) (hj : j < N.n) {pre : List HMsg} {d d0 : Dkg F G}
    (hI : Inv E N i pre d) (hd0 : Static E N i d0) (hd0v : d0.verifiers = d.verifiers)
    {m : HMsg} (hm : if j = i then m = .deals else m = .deal j)
    (hg : ¬ got i pre j) (hw : ∀ m ∈ pre, m.Wanted N.n i) (z : F) :
    ∃ v', d0.processDeal E (N.dealMsg E j i) (N.vk i j) z =
        (d0.setVerifier j v', .ok (N.respMsg E j i)) ∧
      ∀ j' < N.n, ∃ v, (d.verifiers.insert j v').get j' = some v ∧
        VSt E.suite (N.x i) (N.pubs E) i (N.x j' • E.suite.base) v ∧
        VDyn v (if got i (pre ++ [m]) j' then some (N.plain j' i) else none)
          (stored E N i (pre ++ [m]) j') := by
  obtain ⟨v, hv, h1, h2⟩ := hI.ver j hj
  rw [if_neg hg] at h2
  have hno : ∀ l, HMsg.resp j l ∈ pre → l ≠ i ∧ l ≠ j := fun l hl =>
    ⟨(hw _ hl).2.2.1, (hw _ hl).2.2.2⟩
  have hRi : stored E N i pre j i = none := by
    unfold stored
    rw [if_neg (by simp [hg]), if_neg (by simp [hg]), if_neg]
    intro hc; exact (hno i hc).1 rfl
  have hRj : stored E N i pre j j = none := by
    unfold stored
    rw [if_neg (by simp [hg]), if_neg (by simp [hg]), if_neg]
    intro hc; exact (hno j hc).2 rfl
  obtain ⟨v', e1, e2, e3⟩ := processDeal_fresh hS hP hO h hC hi hh hj hd0 (by rw [hd0v]; exact hv)
    h1 h2 hRi hRj z
  refine ⟨v', e1, fun j' hj' => ?_⟩
  rw [AMap.get_insert]
  have hresp : ∀ a b, HMsg.resp a b ∈ pre ++ [m] ↔ HMsg.resp a b ∈ pre := by
    intro a b
    rw [List.mem_append, List.mem_singleton, or_iff_left]
    rintro rfl
    split at hm <;> cases hm
  by_cases hjj : j' = j
  · subst hjj
    have hg' : got i (pre ++ [m]) j' := (got_append i pre m j').2 (Or.inr hm)
    refine ⟨v', if_pos rfl, e2, ?_⟩
    rw [if_pos hg']
    have : stored E N i (pre ++ [m]) j' = fun l => if l = i then some (N.respMsg E j' i).response
        else if l = j' then some ⟨(N.D j').dealer.sessionId, j', true, []⟩ else
          stored E N i pre j' l := by
      funext l
      unfold stored
      simp only [hg', hg, true_and, false_and, if_false, hresp]
    rw [this]
    exact e3
  · obtain ⟨u, hu, k1, k2⟩ := hI.ver j' hj'
    have hg' : got i (pre ++ [m]) j' ↔ got i pre j' := by
      rw [got_append, or_iff_left]
      intro hm'
      split at hm <;> split at hm'
      · exact hjj (by omega)
      · subst hm; cases hm'
      · subst hm; cases hm'
      · subst hm; cases hm'; exact hjj rfl
    refine ⟨u, by rw [if_neg hjj]; exact hu, k1, ?_⟩
    have : stored E N i (pre ++ [m]) j' = stored E N i pre j' := by
      funext l
      unfold stored
      simp only [hg', hresp]
    rw [this]
    simp only [hg']
    exact k2

theorem step_hdeal {i j : Nat} (hi : i < N.n) (hh : H i) (hj : j < N.n) (hji : j ≠ i) {pre : List HMsg}
    {d : Dkg F G} (hI : Inv E N i pre d) (hnew : HMsg.deal j ∉ pre)
    (hw : ∀ m ∈ pre, m.Wanted N.n i) (z : F) :
    Inv E N i (pre ++ [.deal j]) (dStep E d ((HMsg.deal j).call E N z i)) ∧
    (HMsg.deal j).Succeeds E N z i d := by
  have hg : ¬ got i pre j := by unfold got; rw [if_neg hji]; exact hnew
  obtain ⟨v', e1, e2⟩ := ver_after_deal hS hP hO h hC hi hh hj hI hI.static rfl (m := .deal j)
    (by rw [if_neg hji]) hg hw z
  have hstep : dStep E d ((HMsg.deal j).call E N z i) = d.setVerifier j v' := by
    show (d.processDeal E (N.dealMsg E j i) (N.vk i j) z).1 = _
    rw [e1]
  refine ⟨?_, by show (d.processDeal E (N.dealMsg E j i) (N.vk i j) z).2 = _; rw [e1]⟩
  rw [hstep]
  refine ⟨?_, e2, ?_, hI.dealer, hI.sid, hI.aggv, ?_⟩
  · exact ⟨hI.static.longterm, hI.static.newNodes, hI.static.oldNodes, hI.static.re,
      hI.static.new, hI.static.issue, hI.static.receive, hI.static.nidx, hI.static.oidx,
      hI.static.newT⟩
  · show d.processed = _
    rw [hI.processed]; simp
  · intro l
    show d.dealer.aggregator.responses.get l = _
    rw [hI.resp]; simp

omit hS hP hO h hC in
theorem dealsLoop_others (i : Nat) (encs : List (EncryptedDeal G)) (rnd : Nat → F) (vk vk' : F)
    (l rest : List Nat) (d : Dkg F G) (hn : d.nidx = i) (hil : i ∉ l)
    (hl : ∀ j ∈ l, j < encs.length) (dd : AMap (Deal G)) :
    Dkg.dealsLoop E encs rnd vk vk' (l ++ rest) d dd =
      Dkg.dealsLoop E encs rnd vk vk' rest d (l.foldl (fun dd j => dd.insert j
        (d.signDeal E (encs.getD j ⟨0, [], [], []⟩) (rnd j))) dd) := by
  induction l generalizing dd with
  | nil => rfl
  | cons j l ih =>
    have hj := hl j (by simp)
    rw [List.cons_append, Dkg.dealsLoop, List.getElem?_eq_getElem hj]
    simp only
    rw [if_neg (by rintro ⟨e, -⟩; apply hil; rw [← hn, ← e]; simp),
      ih (by intro hc; exact hil (List.mem_cons_of_mem _ hc))
        (fun a ha => hl a (List.mem_cons_of_mem _ ha))]
    rw [List.foldl_cons]
    congr 3
    rw [List.getD_eq_getElem?_getD, List.getElem?_eq_getElem hj]; rfl

omit hS hP hO h hC in
theorem foldl_insert_get {α : Type} (f : Nat → α) (l : List Nat) (m : AMap α) (j : Nat) :
    (l.foldl (fun m i => m.insert i (f i)) m).get j = if j ∈ l then some (f j) else m.get j := by
  induction l generalizing m with
  | nil => simp
  | cons a l ih =>
    rw [List.foldl_cons, ih, AMap.get_insert]
    by_cases hja : j = a
    · subst hja; simp
    · simp [hja]

theorem step_deals {i : Nat} (hi : i < N.n) (hh : H i) {pre : List HMsg} {d : Dkg F G}
    (hI : Inv E N i pre d) (hnew : HMsg.deals ∉ pre) (hw : ∀ m ∈ pre, m.Wanted N.n i) (z : F) :
    Inv E N i (pre ++ [.deals]) (dStep E d (HMsg.deals.call E N z i)) ∧
    HMsg.deals.Succeeds E N z i d := by
  have hg : ¬ got i pre i := by unfold got; rw [if_pos rfl]; exact hnew
  obtain ⟨v', e1, e2⟩ := ver_after_deal hS hP hO h hC hi hh hi hI
    (d0 := { d with processed := true })
    ⟨hI.static.longterm, hI.static.newNodes, hI.static.oldNodes, hI.static.re,
      hI.static.new, hI.static.issue, hI.static.receive, hI.static.nidx, hI.static.oidx,
      hI.static.newT⟩ rfl (m := .deals) (by rw [if_pos rfl]) hg hw z
  have hdealer : ∀ j dh k, d.dealer.encryptedDeal E.toEnv j dh k =
      (N.D i).dealer.encryptedDeal E.toEnv j dh k := by
    intro j dh k
    rw [← hI.dealer]; rfl
  have hdv : d.dealer.verifiers = N.pubs E := by
    have h4 := (convincing hS.base_lin h hi).verifiers
    have := congrArg Dealer.verifiers hI.dealer
    exact this.trans h4
  have hencs : (List.range d.dealer.verifiers.length).mapM
      (fun j => d.dealer.encryptedDeal E.toEnv j (N.dh i j) (N.k i j)) =
      .ok ((List.range N.n).map (fun j => N.enc E i j)) := by
    rw [hdv, pubs_length]
    have hgen : ∀ l : List Nat, (∀ j ∈ l, j < N.n) →
        l.mapM (fun j => d.dealer.encryptedDeal E.toEnv j (N.dh i j) (N.k i j)) =
          .ok (l.map (fun j => N.enc E i j)) := by
      intro l
      induction l with
      | nil => intro _; rfl
      | cons a l ih =>
        intro hl
        rw [List.mapM_cons, hdealer, enc_ok hS hP hO h hi (hl a (by simp)), Res.bind_ok,
          ih (fun j hj => hl j (List.mem_cons_of_mem _ hj))]
        rfl
    exact hgen _ (fun j hj => List.mem_range.1 hj)
  set encs := (List.range N.n).map (fun j => N.enc E i j) with hencs'
  have hel : encs.length = N.n := by simp [hencs']
  have hsplit : List.range N.n = List.range i ++ i :: (List.range (N.n - i - 1)).map (· + (i + 1)) := by
    have : N.n = i + (1 + (N.n - i - 1)) := by omega
    conv_lhs => rw [this]
    rw [List.range_add, List.range_add]
    simp [List.range_succ, Function.comp_def]
    intro a _
    omega
  set rest := (List.range (N.n - i - 1)).map (· + (i + 1)) with hrest
  have hil1 : i ∉ List.range i := by simp
  have hil2 : i ∉ rest := by simp [hrest]; intro a _; omega
  have hl1 : ∀ j ∈ List.range i, j < encs.length := by
    intro j hj; rw [hel]; have := List.mem_range.1 hj; omega
  have hl2 : ∀ j ∈ rest, j < encs.length := by
    intro j hj
    rw [hrest] at hj
    obtain ⟨a, ha, rfl⟩ := List.mem_map.1 hj
    have := List.mem_range.1 ha
    rw [hel]; omega
  have hgetD : ∀ j < N.n, encs.getD j ⟨0, [], [], []⟩ = N.enc E i j := by
    intro j hj
    rw [hencs', List.getD_eq_getElem?_getD, List.getElem?_map, List.getElem?_range hj]; rfl
  have hsign : ∀ (d' : Dkg F G), Static E N i d' → ∀ j, 
      d'.signDeal E (N.enc E i j) (N.rnd i j) = N.dealMsg E i j := by
    intro d' hs j
    unfold Dkg.signDeal Net.dealMsg
    rw [hs.oidx, hs.longterm]
  set d1 : Dkg F G := ({ d with processed := true } : Dkg F G).setVerifier i v' with hd1
  have hs1 : Static E N i d1 := ⟨hI.static.longterm, hI.static.newNodes, hI.static.oldNodes,
      hI.static.re, hI.static.new, hI.static.issue, hI.static.receive, hI.static.nidx,
      hI.static.oidx, hI.static.newT⟩
  obtain ⟨dd, hdd, hddget⟩ : ∃ dd, d.deals E (N.dh i) (N.k i) (N.rnd i) (N.vk i i) z = (d1, .ok dd) ∧
      ∀ j, dd.get j = if j < N.n ∧ j ≠ i then some (N.dealMsg E i j) else none := by
    unfold Dkg.deals
    rw [if_neg (by rw [hI.static.issue]; simp), hencs]
    simp only
    rw [hI.static.newNodes, pubs_length, hsplit,
      dealsLoop_others i encs _ _ _ _ _ d hI.static.nidx hil1 hl1, Dkg.dealsLoop]
    have hei : encs[i]? = some (N.enc E i i) := by
      rw [hencs', List.getElem?_map, List.getElem?_range hi]; rfl
    rw [hei]
    simp only
    rw [if_pos ⟨hI.static.nidx.symm, hI.static.new, hI.static.re⟩,
      if_neg (by rw [hI.processed]; simpa using hnew), hsign d hI.static, e1]
    simp only
    rw [if_neg (by simp [Net.respMsg, statusApproval])]
    have := dealsLoop_others (E := E) i encs (N.rnd i) (N.vk i i) z rest [] d1 hs1.nidx hil2 hl2
      (List.foldl (fun dd j => AMap.insert dd j
        (d.signDeal E (encs.getD j ⟨0, [], [], []⟩) (N.rnd i j))) [] (List.range i))
    rw [List.append_nil] at this
    rw [this]
    refine ⟨_, rfl, fun j => ?_⟩
    rw [foldl_insert_get, foldl_insert_get]
    have hjr : j ∈ rest ↔ i < j ∧ j < N.n := by
      rw [hrest, List.mem_map]
      constructor
      · rintro ⟨a, ha, rfl⟩
        have := List.mem_range.1 ha
        omega
      · rintro ⟨a, b⟩
        exact ⟨j - i - 1, List.mem_range.2 (by omega), by omega⟩
    simp only [hjr, List.mem_range]
    by_cases hjn : j < N.n
    · rw [hgetD j hjn, hsign d1 hs1, hsign d hI.static]
      rcases lt_trichotomy j i with hlt | heq | hgt
      · rw [if_neg (by omega), if_pos hlt, if_pos ⟨hjn, by omega⟩]
      · subst heq; simp
      · rw [if_pos ⟨hgt, hjn⟩, if_pos ⟨hjn, by omega⟩]
    · rw [if_neg (by omega), if_neg (by omega), if_neg (by omega)]; rfl
  have hstep : dStep E d (HMsg.deals.call E N z i) = d1 := by
    show (d.deals E (N.dh i) (N.k i) (N.rnd i) (N.vk i i) z).1 = _
    rw [hdd]
  refine ⟨?_, dd, by rw [hdd], hddget⟩
  rw [hstep]
  refine ⟨hs1, e2, ?_, hI.dealer, hI.sid, hI.aggv, ?_⟩
  · show true = _; simp
  · intro l
    show d.dealer.aggregator.responses.get l = _
    rw [hI.resp]; simp

omit hP hC hO in
theorem step_hresp {i j l : Nat} (hi : i < N.n) (hj : j < N.n) (hl : l < N.n) (hli : l ≠ i)
    (hlj : l ≠ j) {pre : List HMsg} {d : Dkg F G} (hI : Inv E N i pre d)
    (hnew : HMsg.resp j l ∉ pre) (z : F) :
    Inv E N i (pre ++ [.resp j l]) (dStep E d ((HMsg.resp j l).call E N z i)) ∧
    (HMsg.resp j l).Succeeds E N z i d := by
  obtain ⟨v, hv, h1, h2⟩ := hI.ver j hj
  have hidx : (N.respMsg E j l).response.index = l := rfl
  have hsid : (N.respMsg E j l).response.sessionId = (N.D j).dealer.sessionId := rfl
  have hst0 : stored E N i pre j l = none := by
    unfold stored
    rw [if_neg (by simp [hli]), if_neg (by simp [hlj]), if_neg hnew]
  obtain ⟨v', e1, e2, e3⟩ := step_response h1 h2 (N.respMsg E j l).response (N.x l • E.suite.base)
    (by
      intro dl hdl
      split at hdl
      · cases hdl; exact hsid
      · cases hdl)
    (by rw [hidx]; exact pubs_get E N hl) (respMsg_verify hS h hl) (by rw [hidx]; exact hst0)
  have hver : ∀ j' < N.n, ∃ v, (d.verifiers.insert j v').get j' = some v ∧
      VSt E.suite (N.x i) (N.pubs E) i (N.x j' • E.suite.base) v ∧
      VDyn v (if got i (pre ++ [.resp j l]) j' then some (N.plain j' i) else none)
        (stored E N i (pre ++ [.resp j l]) j') := by
    intro j' hj'
    have hg : got i (pre ++ [.resp j l]) j' ↔ got i pre j' := by
      rw [got_append, or_iff_left]
      split <;> simp
    rw [AMap.get_insert]
    by_cases hjj : j' = j
    · subst hjj
      refine ⟨v', if_pos rfl, e2, ?_⟩
      have : stored E N i (pre ++ [.resp j' l]) j' =
          Function.update (stored E N i pre j') l (some (N.respMsg E j' l).response) := by
        funext l'
        rw [Function.update_apply]
        unfold stored
        simp only [hg, List.mem_append, List.mem_singleton, HMsg.resp.injEq, true_and]
        by_cases hll : l' = l
        · subst hll; simp [hli, hlj]
        · simp [hll]
      rw [this]
      simp only [hg]
      exact e3
    · obtain ⟨u, hu, k1, k2⟩ := hI.ver j' hj'
      refine ⟨u, by rw [if_neg hjj]; exact hu, k1, ?_⟩
      have : stored E N i (pre ++ [.resp j l]) j' = stored E N i pre j' := by
        funext l'
        unfold stored
        simp [hg, hjj]
      rw [this]
      simp only [hg]
      exact k2
  have hstat : ∀ dl : Dealer F G, Static E N i { d.setVerifier j v' with dealer := dl } := fun dl =>
    ⟨hI.static.longterm, hI.static.newNodes, hI.static.oldNodes,
      hI.static.re, hI.static.new, hI.static.issue, hI.static.receive, hI.static.nidx,
      hI.static.oidx, hI.static.newT⟩
  have hproc : d.processed = decide (HMsg.deals ∈ pre ++ [.resp j l]) := by
    rw [hI.processed]; simp
  have hunf : d.processResponse E (N.respMsg E j l) z =
      (if d.canIssue = false ∨ j ≠ d.oidx then (d.setVerifier j v', .ok none)
        else match d.dealer.processResponse E.toEnv (N.respMsg E j l).response z with
          | (dl, .err e) => ({ d.setVerifier j v' with dealer := dl }, .err (.vss e))
          | (dl, .panic) => ({ d.setVerifier j v' with dealer := dl }, .panic)
          | (dl, .ok none) => ({ d.setVerifier j v' with dealer := dl }, .ok none)
          | (dl, .ok (some jj)) =>
            match v'.processJustification E.suite jj with
            | (v, .err e) =>
              (({ d.setVerifier j v' with dealer := dl } : Dkg F G).setVerifier j v, .err (.vss e))
            | (v, .panic) =>
              (({ d.setVerifier j v' with dealer := dl } : Dkg F G).setVerifier j v, .panic)
            | (v, .ok ()) =>
              (({ d.setVerifier j v' with dealer := dl } : Dkg F G).setVerifier j v,
                .ok (some ⟨d.oidx, jj⟩))) := by
    unfold Dkg.processResponse
    rw [if_neg (by rw [hI.static.re]; simp)]
    have hv2 : d.verifiers.get (N.respMsg E j l).index = some v := hv
    simp only [hv2, e1]
    rfl
  by_cases hji : j = i
  · subst hji
    have hagg := verifyResponse_new_ok E.suite d.dealer.aggregator (N.respMsg E j l).response
      (N.x l • E.suite.base) (fun _ => by rw [hI.sid]; exact hsid)
      (by rw [hI.aggv, hidx]; exact pubs_get E N hl) (respMsg_verify hS h hl)
      (by rw [hI.resp, hidx, if_neg hnew])
    have hdl : d.dealer.processResponse E.toEnv (N.respMsg E j l).response z =
        ({ d.dealer with aggregator := { d.dealer.aggregator with
          responses := d.dealer.aggregator.responses.insert l (N.respMsg E j l).response } },
          .ok none) := by
      unfold Dealer.processResponse
      rw [hagg]
      simp only
      rw [if_pos (by rfl)]
      rfl
    rw [hdl, if_neg (by rw [hI.static.issue, hI.static.oidx]; simp)] at hunf
    simp only at hunf
    refine ⟨?_, by show (d.processResponse E (N.respMsg E j l) z).2 = _; rw [hunf]⟩
    have hstep : dStep E d ((HMsg.resp j l).call E N z j) = _ := congrArg Prod.fst hunf
    rw [hstep]
    refine ⟨hstat _, hver, hproc, hI.dealer, hI.sid, hI.aggv, ?_⟩
    intro l'
    show (d.dealer.aggregator.responses.insert l _).get l' = _
    rw [AMap.get_insert, hI.resp]
    by_cases hll : l' = l
    · subst hll; simp
    · simp [hll]
  · rw [if_pos (Or.inr (by rw [hI.static.oidx]; exact hji))] at hunf
    refine ⟨?_, by show (d.processResponse E (N.respMsg E j l) z).2 = _; rw [hunf]⟩
    have hstep : dStep E d ((HMsg.resp j l).call E N z i) = _ := congrArg Prod.fst hunf
    rw [hstep]
    refine ⟨hstat _, hver, hproc, hI.dealer, hI.sid, hI.aggv, ?_⟩
    intro l'
    show d.dealer.aggregator.responses.get l' = _
    rw [hI.resp]
    simp [Ne.symm hji]

omit hS hP hO h hC in
theorem step_htimeout {i : Nat} {pre : List HMsg} {d : Dkg F G} (hI : Inv E N i pre d) :
    Inv E N i (pre ++ [.timeout]) d.setTimeout := by
  have hg : ∀ j, got i (pre ++ [.timeout]) j ↔ got i pre j := by
    intro j
    rw [got_append, or_iff_left]
    split <;> simp
  have hst : ∀ j, stored E N i (pre ++ [.timeout]) j = stored E N i pre j := by
    intro j; funext l; unfold stored; simp [hg]
  refine ⟨⟨hI.static.longterm, hI.static.newNodes, hI.static.oldNodes,
      hI.static.re, hI.static.new, hI.static.issue, hI.static.receive, hI.static.nidx,
      hI.static.oidx, hI.static.newT⟩, ?_, ?_, hI.dealer, hI.sid, hI.aggv, ?_⟩
  · intro j hj
    obtain ⟨v, hv, h1, h2⟩ := hI.ver j hj
    refine ⟨v.setTimeout, ?_, (step_timeout h1 h2).1, ?_⟩
    · show AMap.get (d.verifiers.map (fun e => (e.1, e.2.setTimeout))) j = _
      rw [get_map, hv]; rfl
    · rw [hst]; simp only [hg]; exact (step_timeout h1 h2).2
  · show d.processed = _
    rw [hI.processed]; simp
  · intro l
    show d.dealer.aggregator.responses.get l = _
    rw [hI.resp]; simp

/-- The invariant holds after every history, and every call of it succeeds. -/
theorem inv_run {i : Nat} (hi : i < N.n) (hh : H i) (z : F) (s : List HMsg) (hs : Schedule N.n i s) :
    Inv E N i s (dRun E (N.D i) (s.map (HMsg.call E N z i))) ∧
    ∀ pre m post, s = pre ++ m :: post →
      m.Succeeds E N z i (dRun E (N.D i) (pre.map (HMsg.call E N z i))) := by
  induction s using List.reverseRecOn with
  | nil => exact ⟨inv_start h hi hh, by simp⟩
  | append_singleton s m ih =>
    have hs' : Schedule N.n i s := ⟨fun a ha => hs.wanted a (List.mem_append_left _ ha), fun a ha => by
      have := hs.once a ha
      rw [List.count_append] at this
      omega⟩
    obtain ⟨hI, hpre⟩ := ih hs'
    have hnew : m ≠ .timeout → m ∉ s := by
      intro hm hin
      have := hs.once m hm
      rw [List.count_append, List.count_singleton_self] at this
      have := List.count_pos_iff.2 hin
      omega
    have hwant := hs.wanted m (by simp)
    have hstep : Inv E N i (s ++ [m])
        (dStep E (dRun E (N.D i) (s.map (HMsg.call E N z i))) (m.call E N z i)) ∧
        m.Succeeds E N z i (dRun E (N.D i) (s.map (HMsg.call E N z i))) := by
      cases m with
      | deals => exact step_deals hS hP hO h hC hi hh hI (hnew (by simp)) hs'.wanted z
      | deal j => exact step_hdeal hS hP hO h hC hi hh hwant.1 hwant.2 hI (hnew (by simp)) hs'.wanted z
      | resp j l =>
        exact step_hresp hS h hi hwant.1 hwant.2.1 hwant.2.2.1 hwant.2.2.2 hI (hnew (by simp)) z
      | timeout => exact ⟨step_htimeout hI, trivial⟩
    refine ⟨?_, ?_⟩
    · rw [List.map_append]
      unfold dRun at hstep ⊢
      rw [List.foldl_append]
      exact hstep.1
    · intro pre m' post he
      rcases List.eq_nil_or_concat post with rfl | ⟨post', b, rfl⟩
      · obtain ⟨rfl, hb⟩ := List.append_inj' he rfl
        cases hb
        exact hstep.2
      · rw [List.concat_eq_append] at he
        have he' : s ++ [m] = (pre ++ m' :: post') ++ [b] := by rw [he]; simp
        obtain ⟨rfl, -⟩ := List.append_inj' he' rfl
        exact hpre pre m' post' rfl

end Kyber.DkgP
