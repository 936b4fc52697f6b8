/-
The state of a participant of an honest Rabin DKG after any part of its history.
-/
import Verif.Spec.DkgRabinHonest
import Verif.Lemmas.DkgRabinInv
import Verif.Lemmas.DkgPedersenRun
import Verif.Props.VssRabin

set_option linter.unusedSectionVars false

namespace Kyber.DkgR

open Kyber.Poly Kyber.Spec Kyber.VssR
open Kyber.VssP (EncryptedDeal context findPub validT)

variable {F G : Type} [Field F] [AddCommGroup G] [DistribSMul F G] [DecidableEq G]

/-! ### The messages -/

theorem pubs_get (E : Env F G) (N : RNet F G) {i : Nat} (h : i < N.n) :
    (N.pubs E)[i]? = some (N.x i • E.suite.base) := by
  unfold RNet.pubs
  rw [List.getElem?_map, List.getElem?_range h]; rfl

theorem pubs_length (E : Env F G) (N : RNet F G) : (N.pubs E).length = N.n := by
  unfold RNet.pubs; simp

/-- The blinding polynomial of participant `j`. -/
def _root_.Kyber.Spec.RNet.blind (N : RNet F G) (j : Nat) : List F := (N.gD j).take N.t

/-- The deal of `j` for `i`, in the clear. -/
def _root_.Kyber.Spec.RNet.plain (E : Env F G) (N : RNet F G) (j i : Nat) : VssR.Deal F G :=
  ⟨(N.D j).dealer.sessionId, (⟨N.poly j⟩ : PriPoly F).eval i, (⟨N.blind j⟩ : PriPoly F).eval i, N.t,
    commitsOf E.suite.base (deriveH E (N.pubs E)) (N.poly j) (N.blind j)⟩

/-- HKDF and AES-GCM do not fail. -/
def PrimsOkR (E : Env F G) : Prop :=
  (∀ ikm info, (E.prims.hkdf ikm info 32).isSome) ∧
  (∀ key nonce m aad, (E.prims.gcmSeal key nonce m aad).isSome)

/-- What is constant about participant `i`. -/
structure Static (E : Env F G) (N : RNet F G) (i : Nat) (d : Dkg F G) : Prop where
  long : d.long = N.x i
  participants : d.participants = N.pubs E
  index : d.index = i
  t : d.t = N.t
  dealer : { d.dealer with aggregator := (N.D i).dealer.aggregator } = (N.D i).dealer

/-- What an aggregator holds. -/
structure AggSt (pubs : List G) (a : Aggregator F G) (deal : Option (VssR.Deal F G)) (sid : Bytes)
    (t : Nat) (R : Nat → Option VssP.Response) : Prop where
  verifiers : a.verifiers = pubs
  nodup : a.responses.keys.Nodup
  deal : a.deal = deal
  sid : a.sid = sid
  t : a.t = t
  bad : a.badDealer = false
  resp : ∀ l, a.responses.get l = R l

/-- The dealer of participant `j`. -/
structure DealerSt (E : Env F G) (N : RNet F G) (j : Nat) : Prop where
  new : newDealer E (N.x j) (N.sec j) (N.pubs E) N.t (N.fD j) (N.gD j) = .ok (N.D j).dealer
  len : (N.poly j).length = N.t
  blen : (N.blind j).length = N.t
  valid : 2 ≤ N.t ∧ N.t ≤ N.n
  long : (N.D j).dealer.long = N.x j
  verifiers : (N.D j).dealer.verifiers = N.pubs E
  commits : (N.D j).dealer.secretCommits = (N.poly j).map (· • E.suite.base)
  sid : VssP.sessionId E.suite (N.x j • E.suite.base) (N.pubs E)
    (commitsOf E.suite.base (deriveH E (N.pubs E)) (N.poly j) (N.blind j)) N.t =
      (N.D j).dealer.sessionId
  deals : ∀ i < N.n, (N.D j).dealer.deals[i]? = some (N.plain E j i)
  agg : AggSt (N.pubs E) (N.D j).dealer.aggregator none (N.D j).dealer.sessionId N.t (fun _ => none)

theorem honest_dealer {E : Env F G} {N : RNet F G} (h : N.Honest E) {j : Nat} (hj : j < N.n) :
    DealerSt E N j := by
  obtain ⟨-, h2, -⟩ := newDistKeyGenerator_ok (h.start j hj)
  obtain ⟨f, g, hfl, hgl, -, hf, hg, hv, h1, -, -, h4, -, h6, h7, h8, h9, h10⟩ := newDealer_ok h2
  have hf' : f = N.poly j := hf
  have hg' : g = N.blind j := hg
  subst hf'
  subst hg'
  simp only [validT, Bool.and_eq_true, decide_eq_true_eq, pubs_length] at hv
  refine ⟨h2, hfl, hgl, hv.1, h1, h4, h6, h8.symm, ?_, ?_⟩
  · intro i hi
    rw [h9, List.getElem?_map, List.getElem?_range (by rw [pubs_length]; exact hi)]
    rfl
  · rw [h10]
    exact ⟨rfl, List.nodup_nil, rfl, rfl, rfl, rfl, fun _ => rfl⟩

theorem honest_static {E : Env F G} {N : RNet F G} (h : N.Honest E) {i : Nat} (hi : i < N.n) :
    Static E N i (N.D i) ∧ (N.D i).verifiers = [] ∧ (N.D i).commitments = [] := by
  obtain ⟨h1, -, h3, -, h5, h6, h7, h8, -⟩ := newDistKeyGenerator_ok (h.start i hi)
  refine ⟨⟨h3, h5, ?_, h6, rfl⟩, h7, h8⟩
  obtain ⟨hl, he, hlt⟩ := List.findIdx?_eq_some_iff_getElem.1 h1
  simp only [decide_eq_true_eq] at he
  have hp := pubs_get E N hi
  obtain ⟨hl', he'⟩ := List.getElem?_eq_some_iff.1 hp
  exact (List.Nodup.getElem_inj_iff h.nodup).1 (he.trans he'.symm)

theorem enc_ok {E : Env F G} (hP : E.prims.Lawful) (hO : PrimsOkR E) {N : RNet F G}
    (h : N.Honest E) {j i : Nat} (hj : j < N.n) (hi : i < N.n) :
    (N.D j).dealer.encryptedDeal E i (N.dh j i) (N.k j i) = .ok (N.enc E j i) := by
  have hd := honest_dealer h hj
  have hp : (N.D j).dealer.verifiers[i]? = some (N.x i • E.suite.base) := by
    rw [hd.verifiers]; exact pubs_get E N hi
  have hdl := hd.deals i hi
  obtain ⟨key, hkey⟩ := Option.isSome_iff_exists.1
    (hO.1 (E.suite.encG (Dh.dhExchange (N.dh j i) (N.x i • E.suite.base)))
      (N.D j).dealer.hkdfContext)
  obtain ⟨c, hc⟩ := Option.isSome_iff_exists.1 (hO.2 key (List.replicate Dh.nonceSize 0)
    (E.codec.enc (N.plain E j i)) (N.D j).dealer.hkdfContext)
  have : ∃ e, (N.D j).dealer.encryptedDeal E i (N.dh j i) (N.k j i) = .ok e := by
    unfold Dealer.encryptedDeal
    simp only [findPub, hp, Res.ofOption_some, Res.bind_ok, Dh.AEAD.new_ok hP hkey, Res.mapErr_ok,
      hdl, Res.unwrap_some, Dh.AEAD.seal_, Dh.aesEncrypt, Dh.copyOut]
    rw [if_neg (by simpa using hP.hkdf_length _ _ _ _ hkey)]
    simp [hc]
  obtain ⟨e, he⟩ := this
  unfold RNet.enc
  rw [he]

theorem respMsg_verify {E : Env F G} (hS : E.suite.Lawful) {N : RNet F G} (h : N.Honest E)
    {j l : Nat} (hl : l < N.n) :
    Schnorr.verify E.suite (N.x l • E.suite.base) ((N.respMsg E j l).response.hash E.suite)
      (N.respMsg E j l).response.signature = .ok () :=
  Props.C11_sign_verify E.suite hS _ _ _ (h.vk l j).1 (h.vk l j).2 (h.x l hl).1 (h.x l hl).2

theorem commitMsg_verify {E : Env F G} (hS : E.suite.Lawful) {N : RNet F G} (h : N.Honest E)
    {j : Nat} (hj : j < N.n) :
    Schnorr.verify E.suite (N.x j • E.suite.base) ((N.commitMsg E j).hash E.suite)
      (N.commitMsg E j).signature = .ok () :=
  Props.C11_sign_verify E.suite hS _ _ _ (h.ck j).1 (h.ck j).2 (h.x j hj).1 (h.x j hj).2

/-! ### Aggregators -/

theorem AggSt.wf {pubs : List G} {a : Aggregator F G} {deal : Option (VssR.Deal F G)} {sid : Bytes}
    {t : Nat} {R : Nat → Option VssP.Response} (h : AggSt pubs a deal sid t R)
    (hR : ∀ l r, R l = some r → r.index = l ∧ l < pubs.length) : Wf pubs a :=
  ⟨h.verifiers, h.nodup, fun i r hr => hR i r (by rw [← h.resp]; exact hr)⟩

theorem AggSt.add {pubs : List G} {a : Aggregator F G} {deal : Option (VssR.Deal F G)} {sid : Bytes}
    {t : Nat} {R : Nat → Option VssP.Response} (h : AggSt pubs a deal sid t R) (r : VssP.Response)
    (hr : r.index < pubs.length) (hn : R r.index = none) :
    (a.addResponse r).2 = .ok () ∧
    AggSt pubs (a.addResponse r).1 deal sid t (Function.update R r.index (some r)) := by
  have he : a.addResponse r = ({ a with responses := a.responses.insert r.index r }, .ok ()) := by
    unfold Aggregator.addResponse
    rw [if_neg (by simpa [findPub, h.verifiers] using hr), if_neg (by rw [h.resp, hn]; simp)]
  rw [he]
  refine ⟨rfl, h.verifiers, AMap.nodup_insert h.nodup _ _, h.deal, h.sid, h.t, h.bad, ?_⟩
  intro l
  show (a.responses.insert r.index r).get l = _
  rw [AMap.get_insert, Function.update_apply, h.resp]

theorem AggSt.add_dup {pubs : List G} {a : Aggregator F G} {deal : Option (VssR.Deal F G)}
    {sid : Bytes} {t : Nat} {R : Nat → Option VssP.Response} (h : AggSt pubs a deal sid t R)
    (r : VssP.Response) (hn : (R r.index).isSome) :
    AggSt pubs (a.addResponse r).1 deal sid t R := by
  have he : (a.addResponse r).1 = a := by
    unfold Aggregator.addResponse
    rw [h.resp, hn]
    split <;> simp
  rw [he]; exact h

theorem AggSt.verify {E : Env F G} {pubs : List G} {a : Aggregator F G}
    {deal : Option (VssR.Deal F G)} {sid : Bytes}
    {t : Nat} {R : Nat → Option VssP.Response} (h : AggSt pubs a deal sid t R) (r : VssP.Response)
    (hsid : r.sessionId = sid) (pub : G) (hp : pubs[r.index]? = some pub)
    (hv : Schnorr.verify E.suite pub (r.hash E.suite) r.signature = .ok ()) (hn : R r.index = none) :
    (a.verifyResponse E.suite r).2 = .ok () ∧
    AggSt pubs (a.verifyResponse E.suite r).1 deal sid t (Function.update R r.index (some r)) := by
  have hl : r.index < pubs.length := (List.getElem?_eq_some_iff.1 hp).1
  have he : a.verifyResponse E.suite r = a.addResponse r := by
    unfold Aggregator.verifyResponse
    rw [if_neg (by rw [h.sid, hsid]; simp)]
    have : findPub a.verifiers r.index = some pub := by rw [h.verifiers]; exact hp
    rw [this]
    simp only [hv]
  rw [he]
  exact h.add r hl hn

theorem AggSt.clean {pubs : List G} {a : Aggregator F G} {deal : Option (VssR.Deal F G)} {sid : Bytes}
    {t : Nat} {R : Nat → Option VssP.Response} (h : AggSt pubs a deal sid t R)
    (hR : ∀ l < pubs.length, (R l).isSome) : AggSt pubs a.cleanVerifiers deal sid t R := by
  refine ⟨h.verifiers, nodup_cleanFold _ _ _ h.nodup, h.deal, h.sid, h.t, h.bad, ?_⟩
  intro l
  rw [cleanVerifiers_get, h.resp, h.verifiers]
  cases hl : R l with
  | some r => rfl
  | none =>
    simp only
    split
    · rename_i hlt
      have := hR l hlt
      rw [hl] at this; cases this
    · rfl

theorem AggSt.certified {pubs : List G} {a : Aggregator F G} {deal : Option (VssR.Deal F G)}
    {sid : Bytes} {t : Nat} {R : Nat → Option VssP.Response} (h : AggSt pubs a deal sid t R)
    (hR : ∀ l r, R l = some r → r.index = l ∧ l < pubs.length) (ht : t ≤ pubs.length)
    (hall : ∀ l < pubs.length, ∃ r, R l = some r ∧ r.status = true) : a.dealCertified = true := by
  refine certified_of_all (h.wf hR) h.bad (by rw [h.t]; exact ht) ?_
  intro j hj
  rw [h.resp]; exact hall j hj

/-! ### The invariant -/

/-- Participant `i` has the deal of `j`. -/
def got (i : Nat) (pre : List RMsg) (j : Nat) : Prop := RMsg.dealOf i j ∈ pre

instance (i : Nat) (pre : List RMsg) (j : Nat) : Decidable (got i pre j) := by
  unfold got; infer_instance

/-- The responses to the deal of `j` that participant `i` has stored. -/
def stored (E : Env F G) (N : RNet F G) (i : Nat) (pre : List RMsg) (j l : Nat) :
    Option VssP.Response :=
  if l = i then some (N.respMsg E j i).response
  else if l = j then some ⟨(N.D j).dealer.sessionId, j, true, []⟩
  else if RMsg.resp j l ∈ pre then some (N.respMsg E j l).response
  else none

/-- The responses that the dealer of participant `i` has stored. -/
def storedOwn (E : Env F G) (N : RNet F G) (i : Nat) (pre : List RMsg) (l : Nat) :
    Option VssP.Response :=
  if l = i then
    if RMsg.deals ∈ pre then some ⟨(N.D i).dealer.sessionId, i, true, []⟩ else none
  else if RMsg.resp i l ∈ pre then some (N.respMsg E i l).response
  else none

/-- The commitments of `j` have arrived. -/
def gotC (i : Nat) (pre : List RMsg) (j : Nat) : Prop :=
  if j = i then RMsg.ownCommits ∈ pre else RMsg.commits j ∈ pre

instance (i : Nat) (pre : List RMsg) (j : Nat) : Decidable (gotC i pre j) := by
  unfold gotC; infer_instance

/-- The verifier for `j` at participant `i`. -/
def VerSt (E : Env F G) (N : RNet F G) (i : Nat) (pre : List RMsg) (j : Nat)
    (o : Option (Verifier F G)) : Prop :=
  if got i pre j then ∃ v a, o = some v ∧ v.aggregator = some a ∧
    AggSt (N.pubs E) a (some (N.plain E j i)) (N.D j).dealer.sessionId N.t (stored E N i pre j)
  else o = none

/-- The state of participant `i` after `pre`. -/
structure Inv (E : Env F G) (N : RNet F G) (i : Nat) (pre : List RMsg) (d : Dkg F G) : Prop where
  static : Static E N i d
  keys : ∀ j v, d.verifiers.get j = some v → j < N.n
  nodup : d.verifiers.keys.Nodup
  ver : ∀ j < N.n, VerSt E N i pre j (d.verifiers.get j)
  agg : AggSt (N.pubs E) d.dealer.aggregator none (N.D i).dealer.sessionId N.t (storedOwn E N i pre)
  comm : ∀ j < N.n, d.commitments.get j =
    if gotC i pre j then some ⟨some E.suite.base, (N.poly j).map (· • E.suite.base)⟩ else none

theorem inv_start {E : Env F G} {N : RNet F G} (h : N.Honest E) {i : Nat} (hi : i < N.n) :
    Inv E N i [] (N.D i) := by
  obtain ⟨hs, hv, hc⟩ := honest_static h hi
  refine ⟨hs, ?_, by rw [hv]; exact List.nodup_nil, ?_, ?_, ?_⟩
  · intro j v hj; rw [hv] at hj; cases hj
  · intro j hj
    have hng : ¬ got i [] j := by unfold got; simp
    unfold VerSt
    rw [if_neg hng, hv]; rfl
  · have := (honest_dealer h hi).agg
    have he : storedOwn E N i [] = fun _ => none := by
      funext l; unfold storedOwn; simp
    rw [he]; exact this
  · intro j hj
    rw [hc, if_neg (by unfold gotC; split <;> simp)]; rfl

theorem stored_index {E : Env F G} {N : RNet F G} {i : Nat} (hi : i < N.n) {pre : List RMsg}
    (hw : ∀ m ∈ pre, m.Wanted N.n i) {j : Nat} (hj : j < N.n) (l : Nat) (r : VssP.Response)
    (h : stored E N i pre j l = some r) : r.index = l ∧ l < (N.pubs E).length := by
  rw [pubs_length]
  unfold stored at h
  split at h
  · cases h; rename_i e; subst e; exact ⟨rfl, hi⟩
  · split at h
    · cases h; rename_i e; subst e; exact ⟨rfl, hj⟩
    · split at h
      · cases h; rename_i hm; exact ⟨rfl, (hw _ hm).2.1⟩
      · cases h

theorem storedOwn_index {E : Env F G} {N : RNet F G} {i : Nat} (hi : i < N.n) {pre : List RMsg}
    (hw : ∀ m ∈ pre, m.Wanted N.n i) (l : Nat) (r : VssP.Response)
    (h : storedOwn E N i pre l = some r) : r.index = l ∧ l < (N.pubs E).length := by
  rw [pubs_length]
  unfold storedOwn at h
  split at h
  · split at h
    · cases h; rename_i e _; subst e; exact ⟨rfl, hi⟩
    · cases h
  · split at h
    · cases h; rename_i hm; exact ⟨rfl, (hw _ hm).2.1⟩
    · cases h

/-- The deal of `j` is certified at participant `i` once everything about it has arrived. -/
theorem cert_of_all {E : Env F G} {N : RNet F G} (h : N.Honest E) {i : Nat} (hi : i < N.n)
    {pre : List RMsg} {d : Dkg F G} (hI : Inv E N i pre d) (hw : ∀ m ∈ pre, m.Wanted N.n i)
    {j : Nat} (hj : j < N.n) (hg : got i pre j)
    (hr : ∀ l < N.n, l ≠ i → l ≠ j → RMsg.resp j l ∈ pre) :
    ∃ v a, d.verifiers.get j = some v ∧ v.aggregator = some a ∧ a.dealCertified = true ∧
      a.deal = some (N.plain E j i) ∧ a.sid = (N.D j).dealer.sessionId := by
  have := hI.ver j hj
  unfold VerSt at this
  rw [if_pos hg] at this
  obtain ⟨v, a, h1, h2, h3⟩ := this
  refine ⟨v, a, h1, h2, h3.certified (stored_index hi hw hj) ?_ ?_, h3.deal, h3.sid⟩
  · rw [pubs_length]; exact (honest_dealer h hj).valid.2
  · intro l hl
    rw [pubs_length] at hl
    unfold stored
    split
    · exact ⟨_, rfl, rfl⟩
    · split
      · exact ⟨_, rfl, rfl⟩
      · rw [if_pos (hr l hl (by assumption) (by assumption))]
        exact ⟨_, rfl, rfl⟩

/-! ### One step -/

variable {E : Env F G} (hS : E.suite.Lawful) (hP : E.prims.Lawful)
  (hH : ∀ b, Lin F (E.pickFrom b))
  (hO : PrimsOkR E) {N : RNet F G} (h : N.Honest E)
  (hC : ∀ j < N.n, ∀ dl ∈ (N.D j).dealer.deals, E.codec.dec (E.codec.enc dl) = some dl)

include hS hP hH hO h hC

/-- `process_deal` on an honest deal that was not received before. -/
theorem processDeal_fresh {i j : Nat} (hi : i < N.n) (hj : j < N.n) {d : Dkg F G}
    (hs : Static E N i d) (hv : d.verifiers.get j = none) {pre : List RMsg}
    (hno : ∀ l, RMsg.resp j l ∉ pre) :
    ∃ v' a, d.processDeal E (N.dealMsg E j i) (N.vk i j) = (setVer d j v', .ok (N.respMsg E j i)) ∧
      v'.aggregator = some a ∧
      AggSt (N.pubs E) a (some (N.plain E j i)) (N.D j).dealer.sessionId N.t (stored E N i pre j) := by
  have hd := honest_dealer h hj
  obtain ⟨v, v', r, a, g1, g2, g3, g4, g5, g6, g7, g8, g9, g10, g11, g12, g13, -⟩ :=
    Props.C30_honest_approval E hS hP hH (N.x j) (N.sec j) (N.pubs E) h.nodup N.t (N.fD j) (N.gD j)
      (N.D j).dealer hd.new (hC j hj) (h.x j hj) i (N.x i) (pubs_get E N hi) (N.dh j i) (N.k j i) (N.vk i j)
      (h.k j i) (N.enc E j i) (enc_ok hP hO h hj hi)
  obtain ⟨f1, f2, f3, f4, f5, f6⟩ := newVerifier_fields g1
  have hrr : r = (N.respMsg E j i).response := by
    rcases processEncryptedDeal_cases E v (N.enc E j i) (N.vk i j) with (⟨_, e⟩ | e) |
      ⟨dl, hdl, hi', hn', ⟨-, e⟩ | ⟨st, hst, e, e'⟩⟩
    · rw [g2] at e; cases congrArg Prod.snd e
    · rw [g2] at e; cases congrArg Prod.snd e
    · rw [g2] at e; cases congrArg Prod.snd e
    · rw [g2] at e'
      simp only at e'
      have e'' := e'.symm
      rw [Res.bind_eq_ok] at e''
      obtain ⟨_, -, e''⟩ := e''
      simp only [Res.ok.injEq] at e''
      have h1 : (mkReply E v dl (N.vk i j) st).status = true := by rw [e'']; exact g3
      have h2 : (mkReply E v dl (N.vk i j) st).index = i := by rw [e'']; exact g4
      have h3 : (mkReply E v dl (N.vk i j) st).sessionId = (N.D j).dealer.sessionId := by
        rw [e'']; exact g5
      rw [← e'']
      simp only [mkReply] at h1 h2 h3
      unfold mkReply RNet.respMsg
      simp only [h1, h2, h3, f4]
  rw [hrr] at g2 g13
  have ha : AggSt (N.pubs E) a (some (N.plain E j i)) (N.D j).dealer.sessionId N.t
      (fun l => if l = i then some (N.respMsg E j i).response else none) := by
    refine ⟨g11, by rw [g13]; simp [AMap.keys], by rw [g7, hd.deals i hi], g9, g10, g12, ?_⟩
    intro l
    rw [g13, AMap.get_cons]; rfl
  refine ⟨v'.onAggregator (fun a => a.unsafeSetResponseDkg j true), a.unsafeSetResponseDkg j true,
    ?_, ?_, ?_⟩
  · unfold Dkg.processDeal
    have hp : d.participants[(N.dealMsg E j i).index]? = some (N.x j • E.suite.base) := by
      rw [hs.participants]; exact pubs_get E N hj
    have g1' : newVerifier E.suite d.long (N.x j • E.suite.base) d.participants = .ok v := by
      rw [hs.long, hs.participants]; exact g1
    rw [hp]
    simp only
    rw [if_neg (by
      show ¬ d.verifiers.contains j = true
      simp [AMap.contains, hv]), g1']
    simp only
    have : v.processEncryptedDeal E (N.dealMsg E j i).deal (N.vk i j) =
      (v', .ok (N.respMsg E j i).response) := g2
    rw [this]
    rfl
  · unfold Verifier.onAggregator; rw [g6]; rfl
  · unfold Aggregator.unsafeSetResponseDkg
    have hst : ∀ l, stored E N i pre j l = if l = i then some (N.respMsg E j i).response
        else if l = j then some ⟨(N.D j).dealer.sessionId, j, true, []⟩ else none := by
      intro l
      unfold stored
      rw [if_neg (hno l)]
    by_cases hji : j = i
    · have := ha.add_dup ⟨a.sid, j, true, []⟩ (by simp [hji])
      refine ⟨this.verifiers, this.nodup, this.deal, this.sid, this.t, this.bad, fun l => ?_⟩
      rw [this.resp, hst]
      split
      · rfl
      · rw [if_neg (by rw [hji]; assumption)]
    · have := (ha.add ⟨a.sid, j, true, []⟩ (by rw [pubs_length]; exact hj) (by simp [hji])).2
      refine ⟨this.verifiers, this.nodup, this.deal, this.sid, this.t, this.bad, fun l => ?_⟩
      rw [this.resp, hst, Function.update_apply]
      simp only [g9]
      by_cases hlj : l = j
      · subst hlj; rw [if_pos rfl, if_neg hji, if_pos rfl]
      · rw [if_neg hlj, if_neg hlj]

omit hS hP hH hO h hC in
theorem static_setVer {i j : Nat} {d : Dkg F G} (hs : Static E N i d) (v : Verifier F G) :
    Static E N i (setVer d j v) := ⟨hs.long, hs.participants, hs.index, hs.t, hs.dealer⟩

omit hS hP hH hO h hC in
theorem dealOf_resp (i j a b : Nat) : RMsg.dealOf i j ≠ RMsg.resp a b := by
  unfold RMsg.dealOf; split <;> simp

omit hS hP hH hO h hC in
theorem dealOf_inj {i j j' : Nat} (he : RMsg.dealOf i j = RMsg.dealOf i j') : j = j' := by
  unfold RMsg.dealOf at he
  split at he <;> split at he <;> simp_all

omit hS hP hH hO h hC in
/-- A message that is neither a deal nor a response leaves the verifiers as they are. -/
theorem verSt_other {i j : Nat} {pre : List RMsg} {m : RMsg} {o : Option (Verifier F G)}
    (h1 : ∀ j, m ≠ RMsg.dealOf i j) (h2 : ∀ l, m ≠ RMsg.resp j l) (hv : VerSt E N i pre j o) :
    VerSt E N i (pre ++ [m]) j o := by
  unfold VerSt at hv ⊢
  have hg : got i (pre ++ [m]) j ↔ got i pre j := by
    unfold got
    rw [List.mem_append, List.mem_singleton, or_iff_left]
    intro e; exact h1 j e.symm
  have hst : stored E N i (pre ++ [m]) j = stored E N i pre j := by
    funext l
    unfold stored
    have : RMsg.resp j l ∈ pre ++ [m] ↔ RMsg.resp j l ∈ pre := by
      rw [List.mem_append, List.mem_singleton, or_iff_left]
      intro e; exact h2 l e.symm
    simp only [this]
  simp only [hg, hst]
  exact hv

omit hS hP hH hO h hC in
/-- The verifiers after the deal of `j`. -/
theorem verSt_deal {i j : Nat} {pre : List RMsg} {d : Dkg F G} (hI : Inv E N i pre d)
    {v' : Verifier F G} {a : Aggregator F G} (ha : v'.aggregator = some a)
    (hA : AggSt (N.pubs E) a (some (N.plain E j i)) (N.D j).dealer.sessionId N.t (stored E N i pre j)) :
    ∀ j' < N.n, VerSt E N i (pre ++ [RMsg.dealOf i j]) j' ((d.verifiers.insert j v').get j') := by
  intro j' hj'
  have hst : stored E N i (pre ++ [RMsg.dealOf i j]) j' = stored E N i pre j' := by
    funext l
    unfold stored
    have : RMsg.resp j' l ∈ pre ++ [RMsg.dealOf i j] ↔ RMsg.resp j' l ∈ pre := by
      rw [List.mem_append, List.mem_singleton, or_iff_left]
      intro e; exact dealOf_resp _ _ _ _ e.symm
    simp only [this]
  rw [AMap.get_insert]
  by_cases hjj : j' = j
  · subst hjj
    rw [if_pos rfl]
    unfold VerSt
    rw [if_pos (by unfold got; simp), hst]
    exact ⟨v', a, rfl, ha, hA⟩
  · rw [if_neg hjj]
    have := hI.ver j' hj'
    unfold VerSt at this ⊢
    have hg : got i (pre ++ [RMsg.dealOf i j]) j' ↔ got i pre j' := by
      unfold got
      rw [List.mem_append, List.mem_singleton, or_iff_left]
      intro e; exact hjj (dealOf_inj e)
    simp only [hg, hst]
    exact this

omit hS hP hH hO h hC in
theorem gotC_other {i j : Nat} {pre : List RMsg} {m : RMsg} (h1 : m ≠ .ownCommits)
    (h2 : ∀ j, m ≠ .commits j) : gotC i (pre ++ [m]) j ↔ gotC i pre j := by
  unfold gotC
  split
  · rw [List.mem_append, List.mem_singleton, or_iff_left (fun e => h1 e.symm)]
  · rw [List.mem_append, List.mem_singleton, or_iff_left (fun e => h2 j e.symm)]

omit hS hP hH hO h hC in
theorem storedOwn_other {i : Nat} {pre : List RMsg} {m : RMsg} (h1 : m ≠ .deals)
    (h2 : ∀ l, m ≠ .resp i l) : storedOwn E N i (pre ++ [m]) = storedOwn E N i pre := by
  funext l
  unfold storedOwn
  have e1 : RMsg.deals ∈ pre ++ [m] ↔ RMsg.deals ∈ pre := by
    rw [List.mem_append, List.mem_singleton, or_iff_left (fun e => h1 e.symm)]
  have e2 : RMsg.resp i l ∈ pre ++ [m] ↔ RMsg.resp i l ∈ pre := by
    rw [List.mem_append, List.mem_singleton, or_iff_left (fun e => h2 l e.symm)]
  simp only [e1, e2]

omit hS hP hH hO h hC in
theorem keys_insert_lt {i j : Nat} (hj : j < N.n) {pre : List RMsg} {d : Dkg F G}
    (hI : Inv E N i pre d) (v : Verifier F G) :
    ∀ j' w, (d.verifiers.insert j v).get j' = some w → j' < N.n := by
  intro j' w hw
  rw [AMap.get_insert] at hw
  split at hw
  · rename_i e; subst e; exact hj
  · exact hI.keys j' w hw

theorem step_deal {i j : Nat} (hi : i < N.n) (hj : j < N.n) (hji : j ≠ i) {pre : List RMsg}
    {d : Dkg F G} (hI : Inv E N i pre d) (hnew : RMsg.deal j ∉ pre)
    (hno : ∀ l, RMsg.resp j l ∉ pre) (z : F) (ord : MapOrder) :
    Inv E N i (pre ++ [.deal j]) (qStep E d ((RMsg.deal j).call E N z ord i)) ∧
    (RMsg.deal j).Succeeds E N z ord i d := by
  have hof : RMsg.dealOf i j = .deal j := by unfold RMsg.dealOf; rw [if_neg hji]
  have hv : d.verifiers.get j = none := by
    have hng : ¬ got i pre j := by unfold got; rw [hof]; exact hnew
    have := hI.ver j hj
    unfold VerSt at this
    rw [if_neg hng] at this
    exact this
  obtain ⟨v', a, e1, e2, e3⟩ := processDeal_fresh hS hP hH hO h hC hi hj hI.static hv hno
  have hstep : qStep E d ((RMsg.deal j).call E N z ord i) = setVer d j v' := by
    show (d.processDeal E (N.dealMsg E j i) (N.vk i j)).1 = _
    rw [e1]
  refine ⟨?_, by show (d.processDeal E (N.dealMsg E j i) (N.vk i j)).2 = _; rw [e1]⟩
  rw [hstep]
  refine ⟨static_setVer hI.static _, keys_insert_lt hj hI v', AMap.nodup_insert hI.nodup _ _, ?_,
    ?_, ?_⟩
  · have := verSt_deal hI e2 e3
    rw [hof] at this
    exact this
  · rw [storedOwn_other (by simp) (by simp)]; exact hI.agg
  · intro j' hj'
    simp only [gotC_other (m := .deal j) (i := i) (j := j') (pre := pre) (by simp) (by simp)]
    exact hI.comm j' hj'

omit hS hP hH hO h hC in
theorem dealsLoop_others (i : Nat) (encs : List (EncryptedDeal G)) (vk : F)
    (l rest : List Nat) (d : Dkg F G) (hn : d.index = i) (hil : i ∉ l)
    (hl : ∀ j ∈ l, j < encs.length) (dd : AMap (Deal G)) :
    Dkg.dealsLoop E encs vk (l ++ rest) d dd =
      Dkg.dealsLoop E encs vk rest d (l.foldl (fun dd j => dd.insert j
        ⟨i, encs.getD j ⟨0, [], [], []⟩⟩) dd) := by
  induction l generalizing dd with
  | nil => rfl
  | cons j l ih =>
    have hj := hl j (by simp)
    rw [List.cons_append, Dkg.dealsLoop, List.getElem?_eq_getElem hj]
    simp only
    rw [if_neg (by intro e; apply hil; rw [← hn, ← e]; simp),
      ih (by intro hc; exact hil (List.mem_cons_of_mem _ hc))
        (fun a ha => hl a (List.mem_cons_of_mem _ ha))]
    rw [List.foldl_cons, hn]
    congr 4
    rw [List.getD_eq_getElem?_getD, List.getElem?_eq_getElem hj]; rfl

theorem step_deals {i : Nat} (hi : i < N.n) {pre : List RMsg} {d : Dkg F G}
    (hI : Inv E N i pre d) (hnew : RMsg.deals ∉ pre) (hno : ∀ l, RMsg.resp i l ∉ pre) (z : F)
    (ord : MapOrder) :
    Inv E N i (pre ++ [.deals]) (qStep E d (RMsg.deals.call E N z ord i)) ∧
    RMsg.deals.Succeeds E N z ord i d := by
  have hof : RMsg.dealOf i i = .deals := by unfold RMsg.dealOf; rw [if_pos rfl]
  have hv : d.verifiers.get i = none := by
    have hng : ¬ got i pre i := by unfold got; rw [hof]; exact hnew
    have := hI.ver i hi
    unfold VerSt at this
    rw [if_neg hng] at this
    exact this
  obtain ⟨v', a, e1, e2, e3⟩ := processDeal_fresh hS hP hH hO h hC hi hi hI.static hv hno
  have hdealer : ∀ j dh k, d.dealer.encryptedDeal E j dh k =
      (N.D i).dealer.encryptedDeal E j dh k := by
    intro j dh k
    rw [← hI.static.dealer]; rfl
  have hdv : d.dealer.verifiers = N.pubs E := by
    have := congrArg Dealer.verifiers hI.static.dealer
    exact this.trans (honest_dealer h hi).verifiers
  have hencs : (List.range d.dealer.verifiers.length).mapM
      (fun j => d.dealer.encryptedDeal E j (N.dh i j) (N.k i j)) =
      .ok ((List.range N.n).map (fun j => N.enc E i j)) := by
    rw [hdv, pubs_length]
    have hgen : ∀ l : List Nat, (∀ j ∈ l, j < N.n) →
        l.mapM (fun j => d.dealer.encryptedDeal E j (N.dh i j) (N.k i j)) =
          .ok (l.map (fun j => N.enc E i j)) := by
      intro l
      induction l with
      | nil => intro _; rfl
      | cons a l ih =>
        intro hl
        rw [List.mapM_cons, hdealer, enc_ok hP hO h hi (hl a (by simp)), Res.bind_ok,
          ih (fun j hj => hl j (List.mem_cons_of_mem _ hj))]
        rfl
    exact hgen _ (fun j hj => List.mem_range.1 hj)
  set encs := (List.range N.n).map (fun j => N.enc E i j) with hencs'
  have hel : encs.length = N.n := by simp [hencs']
  have hsplit : List.range N.n = List.range i ++ i :: (List.range (N.n - i - 1)).map (· + (i + 1)) := by
    have : N.n = i + (1 + (N.n - i - 1)) := by omega
    conv_lhs => rw [this]
    rw [List.range_add, List.range_add]
    simp [List.range_succ, Function.comp_def]
    intro a _
    omega
  set rest := (List.range (N.n - i - 1)).map (· + (i + 1)) with hrest
  have hil1 : i ∉ List.range i := by simp
  have hil2 : i ∉ rest := by simp [hrest]; intro a _; omega
  have hl1 : ∀ j ∈ List.range i, j < encs.length := by
    intro j hj; rw [hel]; have := List.mem_range.1 hj; omega
  have hl2 : ∀ j ∈ rest, j < encs.length := by
    intro j hj
    rw [hrest] at hj
    obtain ⟨a, ha, rfl⟩ := List.mem_map.1 hj
    have := List.mem_range.1 ha
    rw [hel]; omega
  have hgetD : ∀ j < N.n, encs.getD j ⟨0, [], [], []⟩ = N.enc E i j := by
    intro j hj
    rw [hencs', List.getD_eq_getElem?_getD, List.getElem?_map, List.getElem?_range hj]; rfl
  set d1 : Dkg F G := approveOwn (setVer d i v') with hd1
  have hd1i : d1.index = i := hI.static.index
  obtain ⟨dd, hdd, hddget⟩ : ∃ dd, d.deals E (N.dh i) (N.k i) (N.vk i i) = (d1, .ok dd) ∧
      ∀ j, dd.get j = if j < N.n ∧ j ≠ i then some (N.dealMsg E i j) else none := by
    unfold Dkg.deals
    rw [hencs]
    simp only
    rw [hI.static.participants, pubs_length, hsplit,
      dealsLoop_others i encs _ _ _ d hI.static.index hil1 hl1, Dkg.dealsLoop]
    have hei : encs[i]? = some (N.enc E i i) := by
      rw [hencs', List.getElem?_map, List.getElem?_range hi]; rfl
    rw [hei]
    simp only
    have e1' : d.processDeal E ⟨d.index, N.enc E i i⟩ (N.vk i i) =
        (setVer d i v', .ok (N.respMsg E i i)) := by
      rw [hI.static.index]; exact e1
    rw [if_pos hI.static.index.symm, if_neg (by simp [AMap.contains, hI.static.index, hv]), e1']
    simp only
    rw [if_neg (by simp [RNet.respMsg])]
    have := dealsLoop_others (E := E) i encs (N.vk i i) rest [] d1 hd1i hil2 hl2
      (List.foldl (fun dd j => AMap.insert dd j
        (⟨i, encs.getD j ⟨0, [], [], []⟩⟩ : Deal G)) [] (List.range i))
    rw [List.append_nil] at this
    refine ⟨_, this, fun j => ?_⟩
    rw [DkgP.foldl_insert_get, DkgP.foldl_insert_get]
    have hjr : j ∈ rest ↔ i < j ∧ j < N.n := by
      rw [hrest, List.mem_map]
      constructor
      · rintro ⟨a, ha, rfl⟩
        have := List.mem_range.1 ha
        omega
      · rintro ⟨a, b⟩
        exact ⟨j - i - 1, List.mem_range.2 (by omega), by omega⟩
    simp only [hjr, List.mem_range]
    by_cases hjn : j < N.n
    · rw [hgetD j hjn]
      rcases lt_trichotomy j i with hlt | heq | hgt
      · rw [if_neg (by omega), if_pos hlt, if_pos ⟨hjn, by omega⟩]; rfl
      · subst heq; simp
      · rw [if_pos ⟨hgt, hjn⟩, if_pos ⟨hjn, by omega⟩]; rfl
    · rw [if_neg (by omega), if_neg (by omega), if_neg (by omega)]; rfl
  have hstep : qStep E d (RMsg.deals.call E N z ord i) = d1 := by
    show (d.deals E (N.dh i) (N.k i) (N.vk i i)).1 = _
    rw [hdd]
  refine ⟨?_, dd, by rw [hdd], hddget⟩
  rw [hstep]
  refine ⟨⟨hI.static.long, hI.static.participants, hI.static.index, hI.static.t,
    hI.static.dealer⟩, keys_insert_lt hi hI v', AMap.nodup_insert hI.nodup _ _, ?_, ?_, ?_⟩
  · have := verSt_deal hI e2 e3
    rw [hof] at this
    exact this
  · show AggSt (N.pubs E) (d.dealer.aggregator.addResponse
      ⟨d.dealer.aggregator.sid, d.index, true, []⟩).1 _ _ _ _
    have hown : storedOwn E N i pre i = none := by unfold storedOwn; rw [if_pos rfl, if_neg hnew]
    have := (hI.agg.add ⟨d.dealer.aggregator.sid, d.index, true, []⟩
      (by rw [pubs_length, hI.static.index]; exact hi) (by rw [hI.static.index]; exact hown)).2
    refine ⟨this.verifiers, this.nodup, this.deal, this.sid, this.t, this.bad, fun l => ?_⟩
    rw [this.resp, Function.update_apply]
    simp only [hI.static.index, hI.agg.sid]
    unfold storedOwn
    by_cases hl : l = i
    · subst hl; simp
    · simp [hl]
  · intro j' hj'
    simp only [gotC_other (m := .deals) (i := i) (j := j') (pre := pre) (by simp) (by simp)]
    exact hI.comm j' hj'

omit hP hH hC hO in
theorem step_resp {i j l : Nat} (hi : i < N.n) (hj : j < N.n) (hl : l < N.n) (hli : l ≠ i)
    (hlj : l ≠ j) {pre : List RMsg} {d : Dkg F G} (hI : Inv E N i pre d)
    (hnew : RMsg.resp j l ∉ pre) (hg : got i pre j) (z : F) (ord : MapOrder) :
    Inv E N i (pre ++ [.resp j l]) (qStep E d ((RMsg.resp j l).call E N z ord i)) ∧
    (RMsg.resp j l).Succeeds E N z ord i d := by
  have hvs := hI.ver j hj
  unfold VerSt at hvs
  rw [if_pos hg] at hvs
  obtain ⟨v, a, hv, ha, hA⟩ := hvs
  have hidx : (N.respMsg E j l).response.index = l := rfl
  have hst0 : stored E N i pre j l = none := by
    unfold stored
    rw [if_neg hli, if_neg hlj, if_neg hnew]
  obtain ⟨k1, k2⟩ := hA.verify (E := E) (N.respMsg E j l).response rfl (N.x l • E.suite.base)
    (by rw [hidx]; exact pubs_get E N hl) (respMsg_verify hS h hl) (by rw [hidx]; exact hst0)
  rw [hidx] at k2
  obtain ⟨v', hv'⟩ : ∃ v', { v with aggregator := some (a.verifyResponse E.suite
    (N.respMsg E j l).response).1 } = v' := ⟨_, rfl⟩
  have hproc : v.processResponse E.suite (N.respMsg E j l).response = (v', .ok ()) := by
    unfold Verifier.processResponse
    rw [ha]
    simp only [k1, hv']
  have hgot : ∀ j', got i (pre ++ [.resp j l]) j' ↔ got i pre j' := by
    intro j'
    unfold got
    rw [List.mem_append, List.mem_singleton, or_iff_left]
    exact dealOf_resp _ _ _ _
  have hver : ∀ j' < N.n, VerSt E N i (pre ++ [.resp j l]) j' ((d.verifiers.insert j v').get j') := by
    intro j' hj'
    rw [AMap.get_insert]
    by_cases hjj : j' = j
    · subst hjj
      rw [if_pos rfl]
      unfold VerSt
      rw [if_pos ((hgot j').2 hg)]
      refine ⟨v', _, rfl, by rw [← hv'], ?_⟩
      have : stored E N i (pre ++ [.resp j' l]) j' =
          Function.update (stored E N i pre j') l (some (N.respMsg E j' l).response) := by
        funext l'
        rw [Function.update_apply]
        unfold stored
        simp only [List.mem_append, List.mem_singleton, RMsg.resp.injEq, true_and]
        by_cases hll : l' = l
        · subst hll; simp [hli, hlj]
        · simp [hll]
      rw [this]
      exact k2
    · rw [if_neg hjj]
      have := hI.ver j' hj'
      unfold VerSt at this ⊢
      have hst : stored E N i (pre ++ [.resp j l]) j' = stored E N i pre j' := by
        funext l'
        unfold stored
        simp [hjj]
      simp only [hgot, hst]
      exact this
  have hcomm : ∀ j' < N.n, d.commitments.get j' = if gotC i (pre ++ [.resp j l]) j' then
      some ⟨some E.suite.base, (N.poly j').map (· • E.suite.base)⟩ else none := by
    intro j' hj'
    simp only [gotC_other (m := .resp j l) (i := i) (j := j') (pre := pre) (by simp) (by simp)]
    exact hI.comm j' hj'
  have hgetv : d.verifiers.get (N.respMsg E j l).index = some v := hv
  by_cases hji : j = i
  · subst hji
    have hown : storedOwn E N j pre l = none := by
      unfold storedOwn; rw [if_neg hli, if_neg hnew]
    obtain ⟨m1, m2⟩ := hI.agg.verify (E := E) (N.respMsg E j l).response rfl (N.x l • E.suite.base)
      (by rw [hidx]; exact pubs_get E N hl) (respMsg_verify hS h hl) (by rw [hidx]; exact hown)
    rw [hidx] at m2
    have hdl : d.dealer.processResponse E (N.respMsg E j l).response z =
        ({ d.dealer with aggregator := (d.dealer.aggregator.verifyResponse E.suite
          (N.respMsg E j l).response).1 }, .ok none) := by
      unfold Dealer.processResponse
      simp only [m1]
      rw [if_pos (by rfl)]
    have hunf : d.processResponse E (N.respMsg E j l) z =
        ({ setVer d j v' with dealer := { d.dealer with
            aggregator := (d.dealer.aggregator.verifyResponse E.suite
              (N.respMsg E j l).response).1 } }, .ok none) := by
      unfold Dkg.processResponse
      simp only [hgetv, hproc]
      rw [if_neg (by
        show ¬ j ≠ d.index
        rw [hI.static.index]; simp), hdl]
      rfl
    refine ⟨?_, by show (d.processResponse E (N.respMsg E j l) z).2 = _; rw [hunf]⟩
    have hstep : qStep E d ((RMsg.resp j l).call E N z ord j) = _ := congrArg Prod.fst hunf
    rw [hstep]
    refine ⟨⟨hI.static.long, hI.static.participants, hI.static.index, hI.static.t,
      hI.static.dealer⟩, keys_insert_lt hj hI v', AMap.nodup_insert hI.nodup _ _, hver, ?_, hcomm⟩
    have : storedOwn E N j (pre ++ [.resp j l]) =
        Function.update (storedOwn E N j pre) l (some (N.respMsg E j l).response) := by
      funext l'
      rw [Function.update_apply]
      unfold storedOwn
      by_cases hll : l' = l
      · subst hll; simp [hli]
      · simp [hll]
    rw [this]
    exact m2
  · have hunf : d.processResponse E (N.respMsg E j l) z = (setVer d j v', .ok none) := by
      unfold Dkg.processResponse
      simp only [hgetv, hproc]
      rw [if_pos (by
        show j ≠ d.index
        rw [hI.static.index]; exact hji)]
      rfl
    refine ⟨?_, by show (d.processResponse E (N.respMsg E j l) z).2 = _; rw [hunf]⟩
    have hstep : qStep E d ((RMsg.resp j l).call E N z ord i) = _ := congrArg Prod.fst hunf
    rw [hstep]
    refine ⟨static_setVer hI.static _, keys_insert_lt hj hI v', AMap.nodup_insert hI.nodup _ _, hver,
      ?_, hcomm⟩
    rw [storedOwn_other (by simp) (by simp [hji])]; exact hI.agg

omit hS hP hH hO h hC in
theorem step_timeout {i : Nat} (_hi : i < N.n) {pre : List RMsg} {d : Dkg F G} (hI : Inv E N i pre d)
    (hr : ∀ j < N.n, ∀ l < N.n, l ≠ i → l ≠ j → RMsg.resp j l ∈ pre) :
    Inv E N i (pre ++ [.timeout]) d.setTimeout := by
  have hd : ∀ j, RMsg.timeout ≠ RMsg.dealOf i j := by
    intro j; unfold RMsg.dealOf; split <;> simp
  refine ⟨⟨hI.static.long, hI.static.participants, hI.static.index, hI.static.t,
      hI.static.dealer⟩, ?_, ?_, ?_, ?_, ?_⟩
  · intro j v hv
    have hv' : AMap.get (d.verifiers.map (fun e => (e.1, e.2.setTimeout))) j = some v := hv
    rw [get_map] at hv'
    cases hg : d.verifiers.get j with
    | none => rw [hg] at hv'; cases hv'
    | some w => exact hI.keys j w hg
  · show (AMap.keys (d.verifiers.map (fun e => (e.1, e.2.setTimeout)))).Nodup
    have : AMap.keys (d.verifiers.map (fun e => (e.1, e.2.setTimeout))) = d.verifiers.keys := by
      unfold AMap.keys; rw [List.map_map]; rfl
    rw [this]; exact hI.nodup
  · intro j hj
    apply verSt_other hd (by simp)
    show VerSt E N i pre j (AMap.get (d.verifiers.map (fun e => (e.1, e.2.setTimeout))) j)
    rw [get_map]
    have := hI.ver j hj
    unfold VerSt at this ⊢
    split
    · rename_i hg
      rw [if_pos hg] at this
      obtain ⟨v, a, h1, h2, h3⟩ := this
      refine ⟨v.setTimeout, a.cleanVerifiers, by rw [h1]; rfl, ?_, h3.clean ?_⟩
      · unfold Verifier.setTimeout; rw [h2]; rfl
      · intro l hl
        rw [pubs_length] at hl
        unfold stored
        split
        · rfl
        · split
          · rfl
          · rw [if_pos (hr j hj l hl (by assumption) (by assumption))]; rfl
    · rename_i hg
      rw [if_neg hg] at this
      rw [this]; rfl
  · rw [storedOwn_other (by simp) (by simp)]; exact hI.agg
  · intro j' hj'
    simp only [gotC_other (m := .timeout) (i := i) (j := j') (pre := pre) (by simp) (by simp)]
    exact hI.comm j' hj'

omit hS hP hH hC hO in
theorem step_ownCommits {i : Nat} (hi : i < N.n) {pre : List RMsg} {d : Dkg F G}
    (hI : Inv E N i pre d) (hw : ∀ m ∈ pre, m.Wanted N.n i) (hdl : RMsg.deals ∈ pre)
    (hr : ∀ l < N.n, l ≠ i → RMsg.resp i l ∈ pre) (z : F) (ord : MapOrder) :
    Inv E N i (pre ++ [.ownCommits]) (qStep E d (RMsg.ownCommits.call E N z ord i)) ∧
    RMsg.ownCommits.Succeeds E N z ord i d := by
  have hD := honest_dealer h hi
  have hcert : d.dealer.aggregator.dealCertified = true := by
    refine hI.agg.certified (storedOwn_index hi hw) (by rw [pubs_length]; exact hD.valid.2) ?_
    intro l hl
    rw [pubs_length] at hl
    unfold storedOwn
    by_cases hli : l = i
    · rw [if_pos hli, if_pos hdl]; exact ⟨_, rfl, rfl⟩
    · rw [if_neg hli, if_pos (hr l hl hli)]; exact ⟨_, rfl, rfl⟩
  have hsc : d.dealer.secretCommits = (N.poly i).map (· • E.suite.base) := by
    have := congrArg Dealer.secretCommits hI.static.dealer
    exact this.trans hD.commits
  have hsid : d.dealer.sessionId = (N.D i).dealer.sessionId := by
    have := congrArg Dealer.sessionId hI.static.dealer
    exact this
  have hcm : d.dealer.commits = some ((N.poly i).map (· • E.suite.base)) := by
    unfold Dealer.commits
    rw [if_neg (by simp [hcert, dealCertified_enough hcert]), hsc]
  have hrun : d.secretCommits E.suite (N.ck i) =
      (setCommit d i ⟨some E.suite.base, (N.poly i).map (· • E.suite.base)⟩, .ok (N.commitMsg E i)) := by
    have hi' := hI.static.index
    have hl' := hI.static.long
    unfold Dkg.secretCommits
    rw [if_neg (by simp [hcert])]
    simp only [hcm]
    obtain ⟨index, long, pubb, participants, t, dealer, verifiers, commitments, pend, recon⟩ := d
    simp only at hi' hl' hsid ⊢
    subst hi'
    rw [hsid, hl']
    rfl
  have hd' : ∀ j, RMsg.ownCommits ≠ RMsg.dealOf i j := by
    intro j; unfold RMsg.dealOf; split <;> simp
  refine ⟨?_, by show (d.secretCommits E.suite (N.ck i)).2 = _; rw [hrun]⟩
  have hstep : qStep E d (RMsg.ownCommits.call E N z ord i) = _ := congrArg Prod.fst hrun
  rw [hstep]
  refine ⟨⟨hI.static.long, hI.static.participants, hI.static.index, hI.static.t,
      hI.static.dealer⟩, hI.keys, hI.nodup, fun j hj => verSt_other hd' (by simp) (hI.ver j hj), ?_, ?_⟩
  · rw [storedOwn_other (by simp) (by simp)]; exact hI.agg
  · intro j hj
    show (d.commitments.insert i _).get j = _
    rw [AMap.get_insert]
    by_cases hji : j = i
    · subst hji
      rw [if_pos rfl, if_pos (by unfold gotC; rw [if_pos rfl]; simp)]
    · rw [if_neg hji, hI.comm j hj]
      have : gotC i (pre ++ [.ownCommits]) j ↔ gotC i pre j := by
        unfold gotC; rw [if_neg hji, if_neg hji]; simp
      simp only [this]

omit hP hH hC hO in
theorem step_commits {i j : Nat} (hi : i < N.n) (hj : j < N.n) (hji : j ≠ i) {pre : List RMsg}
    {d : Dkg F G} (hI : Inv E N i pre d) (hw : ∀ m ∈ pre, m.Wanted N.n i) (hdl : RMsg.deal j ∈ pre)
    (hr : ∀ l < N.n, l ≠ i → l ≠ j → RMsg.resp j l ∈ pre) (z : F) (ord : MapOrder) :
    Inv E N i (pre ++ [.commits j]) (qStep E d ((RMsg.commits j).call E N z ord i)) ∧
    (RMsg.commits j).Succeeds E N z ord i d := by
  have hD := honest_dealer h hj
  have hg : got i pre j := by unfold got RMsg.dealOf; rw [if_neg hji]; exact hdl
  obtain ⟨v, a, g1, g2, g3, g4, g5⟩ := cert_of_all h hi hI hw hj hg hr
  have hq : d.isInQual ord j = true := (isInQual_iff hI.nodup ord j).2 ⟨v, a, g1, g2, g3⟩
  have hdeal : v.deal = some (N.plain E j i) := by rw [deal_of_certified g2 g3, g4]
  have hck : (⟨some E.suite.base, (N.poly j).map (· • E.suite.base)⟩ : PubPoly G).check E.suite.base
      (N.plain E j i).secShare = .ok true := by
    rw [check_iff]
    refine ⟨?_, ?_⟩
    · unfold RNet.poly; simp
    · refine ⟨fun _ => ?_, fun _ => rfl⟩
      rw [pointVal_map_smul _ hS.base_lin]
      show _ = ((⟨N.poly j⟩ : PriPoly F).eval i).v • E.suite.base
      rw [eval_v]
      rfl
  have hrun : d.processSecretCommits E ord (N.commitMsg E j) z =
      (setCommit d j ⟨some E.suite.base, (N.poly j).map (· • E.suite.base)⟩, .ok none) := by
    unfold Dkg.processSecretCommits
    have hp : d.participants[(N.commitMsg E j).index]? = some (N.x j • E.suite.base) := by
      rw [hI.static.participants]; exact pubs_get E N hj
    have hv : d.verifiers.get (N.commitMsg E j).index = some v := g1
    have hq' : d.isInQual ord (N.commitMsg E j).index = true := hq
    have hs : sessionIdV v = (N.commitMsg E j).sessionId := by
      unfold sessionIdV; rw [g2]; exact g5
    have hcc : (⟨some E.suite.base, (N.commitMsg E j).commitments⟩ : PubPoly G).check E.suite.base
      (N.plain E j i).secShare = .ok true := hck
    simp only [hp]
    rw [if_neg (by simp [hq'])]
    simp only [hv]
    rw [if_neg (by simp [hs])]
    simp only [commitMsg_verify hS h hj, hdeal, hcc]
    rfl
  have hd' : ∀ j', RMsg.commits j ≠ RMsg.dealOf i j' := by
    intro j; unfold RMsg.dealOf; split <;> simp
  refine ⟨?_, by show (d.processSecretCommits E ord (N.commitMsg E j) z).2 = _; rw [hrun]⟩
  have hstep : qStep E d ((RMsg.commits j).call E N z ord i) = _ := congrArg Prod.fst hrun
  rw [hstep]
  refine ⟨⟨hI.static.long, hI.static.participants, hI.static.index, hI.static.t,
      hI.static.dealer⟩, hI.keys, hI.nodup, fun j hj => verSt_other hd' (by simp) (hI.ver j hj), ?_, ?_⟩
  · rw [storedOwn_other (by simp) (by simp)]; exact hI.agg
  · intro j' hj'
    show (d.commitments.insert j _).get j' = _
    rw [AMap.get_insert]
    by_cases hjj : j' = j
    · subst hjj
      rw [if_pos rfl, if_pos (by unfold gotC; rw [if_neg hji]; simp)]
    · rw [if_neg hjj, hI.comm j' hj']
      have : gotC i (pre ++ [.commits j]) j' ↔ gotC i pre j' := by
        unfold gotC; split <;> simp [hjj]
      simp only [this]

/-- The invariant holds after every history, and every call of it succeeds. -/
theorem inv_run {i : Nat} (hi : i < N.n) (z : F) (ord : MapOrder) (s : List RMsg)
    (hs : RSchedule N.n i s) :
    Inv E N i s (qRun E (N.D i) (s.map (RMsg.call E N z ord i))) ∧
    ∀ pre m post, s = pre ++ m :: post →
      m.Succeeds E N z ord i (qRun E (N.D i) (pre.map (RMsg.call E N z ord i))) := by
  induction s using List.reverseRecOn with
  | nil => exact ⟨inv_start h hi, by simp⟩
  | append_singleton s m ih =>
    have hs' : RSchedule N.n i s := by
      refine ⟨fun a ha => hs.wanted a (List.mem_append_left _ ha), fun a ha => ?_, ?_⟩
      · have := hs.once a ha
        rw [List.count_append] at this
        omega
      · intro pre m' post he
        exact hs.causal pre m' (post ++ [m]) (by rw [he]; simp)
    obtain ⟨hI, hpre⟩ := ih hs'
    have hnew : m ≠ .timeout → m ∉ s := by
      intro hm hin
      have := hs.once m hm
      rw [List.count_append, List.count_singleton_self] at this
      have := List.count_pos_iff.2 hin
      omega
    have hwant := hs.wanted m (by simp)
    have hneed := hs.causal s m [] rfl
    have hresp : ∀ j l, RMsg.resp j l ∈ s → RMsg.dealOf i j ∈ s := by
      intro j l hm
      obtain ⟨a, b, rfl⟩ := List.append_of_mem hm
      have := hs'.causal a _ b rfl (RMsg.dealOf i j) rfl
      exact List.mem_append_left _ this
    have hstep : Inv E N i (s ++ [m])
        (qStep E (qRun E (N.D i) (s.map (RMsg.call E N z ord i))) (m.call E N z ord i)) ∧
        m.Succeeds E N z ord i (qRun E (N.D i) (s.map (RMsg.call E N z ord i))) := by
      cases m with
      | deals =>
        refine step_deals hS hP hH hO h hC hi hI (hnew (by simp)) ?_ z ord
        intro l hl
        have := hresp i l hl
        unfold RMsg.dealOf at this
        rw [if_pos rfl] at this
        exact hnew (by simp) this
      | deal j =>
        refine step_deal hS hP hH hO h hC hi hwant.1 hwant.2 hI (hnew (by simp)) ?_ z ord
        intro l hl
        have := hresp j l hl
        unfold RMsg.dealOf at this
        rw [if_neg hwant.2] at this
        exact hnew (by simp) this
      | resp j l =>
        exact step_resp hS h hi hwant.1 hwant.2.1 hwant.2.2.1 hwant.2.2.2 hI (hnew (by simp))
          (hneed _ rfl) z ord
      | timeout =>
        refine ⟨step_timeout hi hI ?_, trivial⟩
        intro j hj l hl h1 h2
        exact hneed _ ⟨⟨hj, hl, h1, h2⟩, Or.inr (Or.inr ⟨j, l, rfl⟩)⟩
      | ownCommits =>
        exact step_ownCommits h hi hI hs'.wanted (hneed _ (Or.inl rfl))
          (fun l hl hli => hneed _ (Or.inr ⟨l, hl, hli, rfl⟩)) z ord
      | commits j =>
        exact step_commits hS h hi hwant.1 hwant.2 hI hs'.wanted (hneed _ (Or.inl rfl))
          (fun l hl hli hlj => hneed _ (Or.inr ⟨l, hl, hli, hlj, rfl⟩)) z ord
    refine ⟨?_, ?_⟩
    · rw [List.map_append]
      unfold qRun at hstep ⊢
      rw [List.foldl_append]
      exact hstep.1
    · intro pre m' post he
      rcases List.eq_nil_or_concat post with rfl | ⟨post', b, rfl⟩
      · obtain ⟨rfl, hb⟩ := List.append_inj' he rfl
        cases hb
        exact hstep.2
      · rw [List.concat_eq_append] at he
        have he' : s ++ [m] = (pre ++ m' :: post') ++ [b] := by rw [he]; simp
        obtain ⟨rfl, -⟩ := List.append_inj' he' rfl
        exact hpre pre m' post' rfl

end Kyber.DkgR
