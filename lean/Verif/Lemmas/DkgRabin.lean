/-
Lemmas about the Rabin DKG model: what every history preserves.
-/
import Verif.Spec.DkgRabin
import Verif.Lemmas.VssRabinHonest
import Verif.Lemmas.DkgPedersenKey

set_option linter.unusedSectionVars false

namespace Kyber.DkgR

open Kyber.Poly Kyber.Spec Kyber.VssR

variable {F G : Type} [Field F] [AddCommGroup G] [SMul F G] [DecidableEq G]

/-- The calls on a stored verifier that the DKG makes. -/
def viaDkg : RCall F G → Prop
  | .response _ | .justification _ | .timeout => True
  | .verifyDeal _ inclusion => inclusion = false
  | _ => False

/-- Where a stored verifier comes from: a fresh one that answered a first deal, marked as approved by
the dealer, and then only changed by the calls above. -/
def Stored (E : Env F G) (long : F) (pubs : List G) (i : Nat) (v : Verifier F G) : Prop :=
  ∃ pub v0 e k v1 resp cs, pubs[i]? = some pub ∧ newVerifier E.suite long pub pubs = .ok v0 ∧
    v0.processEncryptedDeal E e k = (v1, .ok resp) ∧ (∀ c ∈ cs, viaDkg c) ∧
    v = rRun E v1 (.unsafeSet i true :: cs)

/-- What does not change of the dealer. -/
structure SameDealer (dl dl' : Dealer F G) : Prop where
  long : dl'.long = dl.long
  pubb : dl'.pubb = dl.pubb
  secret : dl'.secret = dl.secret
  secretCommits : dl'.secretCommits = dl.secretCommits
  verifiers : dl'.verifiers = dl.verifiers
  hkdfContext : dl'.hkdfContext = dl.hkdfContext
  t : dl'.t = dl.t
  sessionId : dl'.sessionId = dl.sessionId
  deals : dl'.deals = dl.deals
  agg : Ext dl.aggregator dl'.aggregator

theorem SameDealer.refl (dl : Dealer F G) : SameDealer dl dl :=
  ⟨rfl, rfl, rfl, rfl, rfl, rfl, rfl, rfl, rfl, Ext.refl _⟩

theorem SameDealer.trans {a b c : Dealer F G} (h : SameDealer a b) (h' : SameDealer b c) :
    SameDealer a c :=
  ⟨h'.long.trans h.long, h'.pubb.trans h.pubb, h'.secret.trans h.secret,
    h'.secretCommits.trans h.secretCommits, h'.verifiers.trans h.verifiers,
    h'.hkdfContext.trans h.hkdfContext, h'.t.trans h.t, h'.sessionId.trans h.sessionId,
    h'.deals.trans h.deals, h.agg.trans h'.agg⟩

/-- What every call preserves. -/
structure Evolves (E : Env F G) (d d' : Dkg F G) : Prop where
  index : d'.index = d.index
  long : d'.long = d.long
  pubb : d'.pubb = d.pubb
  participants : d'.participants = d.participants
  t : d'.t = d.t
  dealer : SameDealer d.dealer d'.dealer
  nodup : d.verifiers.keys.Nodup → d'.verifiers.keys.Nodup
  kept : ∀ i v, d.verifiers.get i = some v →
    ∃ cs, (∀ c ∈ cs, viaDkg c) ∧ d'.verifiers.get i = some (rRun E v cs)
  new : ∀ i v, d.verifiers.get i = none → d'.verifiers.get i = some v →
    Stored E d.long d.participants i v

/-- What every call preserves that does not process a first deal. -/
structure Keeps (E : Env F G) (d d' : Dkg F G) : Prop extends Evolves E d d' where
  none : ∀ i, d.verifiers.get i = none → d'.verifiers.get i = none

theorem rRun_append (E : Env F G) (v : Verifier F G) (cs cs' : List (RCall F G)) :
    rRun E v (cs ++ cs') = rRun E (rRun E v cs) cs' := by simp [rRun]

theorem Stored.run {E : Env F G} {long : F} {pubs : List G} {i : Nat} {v : Verifier F G}
    (h : Stored E long pubs i v) (cs : List (RCall F G)) (hcs : ∀ c ∈ cs, viaDkg c) :
    Stored E long pubs i (rRun E v cs) := by
  obtain ⟨pub, v0, e, k, v1, resp, cs0, h1, h2, h3, h4, rfl⟩ := h
  refine ⟨pub, v0, e, k, v1, resp, cs0 ++ cs, h1, h2, h3, ?_, ?_⟩
  · intro c hc
    rcases List.mem_append.1 hc with h | h
    · exact h4 c h
    · exact hcs c h
  · rw [← List.cons_append, rRun_append]

theorem Evolves.refl (E : Env F G) (d : Dkg F G) : Evolves E d d :=
  ⟨rfl, rfl, rfl, rfl, rfl, SameDealer.refl _, fun h => h,
    fun _ v h => ⟨[], by simp, h⟩, fun i v h h' => by rw [h] at h'; cases h'⟩

theorem Evolves.trans {E : Env F G} {a b c : Dkg F G} (h : Evolves E a b) (h' : Evolves E b c) :
    Evolves E a c := by
  refine ⟨h'.index.trans h.index, h'.long.trans h.long, h'.pubb.trans h.pubb,
    h'.participants.trans h.participants, h'.t.trans h.t, h.dealer.trans h'.dealer,
    fun hn => h'.nodup (h.nodup hn), ?_, ?_⟩
  · intro i v hv
    obtain ⟨cs, h1, h2⟩ := h.kept i v hv
    obtain ⟨cs', h3, h4⟩ := h'.kept i _ h2
    refine ⟨cs ++ cs', ?_, by rw [h4, rRun_append]⟩
    intro c hc
    rcases List.mem_append.1 hc with hc | hc
    · exact h1 c hc
    · exact h3 c hc
  · intro i v hn hv
    cases hb : b.verifiers.get i with
    | none =>
      have := h'.new i v hb hv
      rw [h.long, h.participants] at this
      exact this
    | some w =>
      obtain ⟨cs, h3, h4⟩ := h'.kept i w hb
      rw [hv] at h4
      cases h4
      exact (h.new i w hn hb).run cs h3

theorem Keeps.refl (E : Env F G) (d : Dkg F G) : Keeps E d d := ⟨Evolves.refl E d, fun _ h => h⟩

theorem Keeps.trans {E : Env F G} {a b c : Dkg F G} (h : Keeps E a b) (h' : Keeps E b c) :
    Keeps E a c := ⟨h.toEvolves.trans h'.toEvolves, fun i hi => h'.none i (h.none i hi)⟩

/-- Replacing a stored verifier by what a call makes of it. -/
theorem evolves_set (E : Env F G) (d d' : Dkg F G) (i : Nat) (v : Verifier F G)
    (hv : d.verifiers.get i = some v) (cs : List (RCall F G)) (hcs : ∀ c ∈ cs, viaDkg c)
    (h1 : d'.index = d.index) (h2 : d'.long = d.long) (h3 : d'.pubb = d.pubb)
    (h4 : d'.participants = d.participants) (h5 : d'.t = d.t)
    (h6 : SameDealer d.dealer d'.dealer)
    (h7 : d'.verifiers = d.verifiers.insert i (rRun E v cs)) : Keeps E d d' := by
  refine ⟨⟨h1, h2, h3, h4, h5, h6, fun hn => by rw [h7]; exact AMap.nodup_insert hn _ _, ?_, ?_⟩, ?_⟩
  · intro j w hw
    rw [h7, AMap.get_insert]
    by_cases hj : j = i
    · subst hj
      rw [hv] at hw; cases hw
      exact ⟨cs, hcs, by rw [if_pos rfl]⟩
    · exact ⟨[], by simp, by rw [if_neg hj]; exact hw⟩
  · intro j w hn hw
    rw [h7, AMap.get_insert] at hw
    by_cases hj : j = i
    · subst hj; rw [hv] at hn; cases hn
    · rw [if_neg hj, hn] at hw; cases hw
  · intro j hn
    rw [h7, AMap.get_insert, if_neg]
    · exact hn
    · rintro rfl; rw [hv] at hn; cases hn

/-- Nothing but the commitments and the reconstruction changes. -/
theorem evolves_same (E : Env F G) (d d' : Dkg F G)
    (h1 : d'.index = d.index) (h2 : d'.long = d.long) (h3 : d'.pubb = d.pubb)
    (h4 : d'.participants = d.participants) (h5 : d'.t = d.t)
    (h6 : SameDealer d.dealer d'.dealer) (h7 : d'.verifiers = d.verifiers) : Keeps E d d' := by
  refine ⟨⟨h1, h2, h3, h4, h5, h6, fun hn => by rw [h7]; exact hn, ?_, ?_⟩,
    fun j hj => by rw [h7]; exact hj⟩
  · intro j w hw
    exact ⟨[], by simp, by rw [h7]; exact hw⟩
  · intro j w hn hw
    rw [h7, hn] at hw; cases hw

/-! ### The calls -/

/-- `d` with the verifier of dealer `i` replaced. -/
abbrev setVer (d : Dkg F G) (i : Nat) (v : Verifier F G) : Dkg F G :=
  { d with verifiers := d.verifiers.insert i v }

/-- `d` with commitments for dealer `i`. -/
abbrev setCommit (d : Dkg F G) (i : Nat) (p : PubPoly G) : Dkg F G :=
  { d with commitments := d.commitments.insert i p }

/-- All outcomes of `process_deal`. -/
theorem processDeal_cases (E : Env F G) (d : Dkg F G) (dd : Deal G) (k : F) :
    ((∃ e, d.processDeal E dd k = (d, .err e)) ∨ d.processDeal E dd k = (d, .panic)) ∨
    ∃ pub v0 v1 resp, d.participants[dd.index]? = some pub ∧ d.verifiers.get dd.index = none ∧
      newVerifier E.suite d.long pub d.participants = .ok v0 ∧
      v0.processEncryptedDeal E dd.deal k = (v1, .ok resp) ∧
      d.processDeal E dd k = (setVer d dd.index (rStep E v1 (.unsafeSet dd.index true)),
        .ok ⟨dd.index, resp⟩) := by
  unfold Dkg.processDeal
  split
  · exact Or.inl (Or.inl ⟨_, rfl⟩)
  · rename_i pub hp
    split
    · exact Or.inl (Or.inl ⟨_, rfl⟩)
    · rename_i hc
      have hn : d.verifiers.get dd.index = none := by
        simpa [AMap.contains] using hc
      split
      · exact Or.inl (Or.inl ⟨_, rfl⟩)
      · exact Or.inl (Or.inr rfl)
      · rename_i v0 hv0
        split
        · exact Or.inl (Or.inl ⟨_, rfl⟩)
        · exact Or.inl (Or.inr rfl)
        · rename_i v1 resp hv1
          exact Or.inr ⟨pub, v0, v1, resp, hp, hn, hv0, hv1, rfl⟩

theorem processDeal_evolves (E : Env F G) (d : Dkg F G) (dd : Deal G) (k : F) :
    Evolves E d (d.processDeal E dd k).1 := by
  rcases processDeal_cases E d dd k with (⟨e, h⟩ | h) | ⟨pub, v0, v1, resp, hp, hn, hv0, hv1, h⟩
    <;> rw [h]
  · exact Evolves.refl E d
  · exact Evolves.refl E d
  · refine ⟨rfl, rfl, rfl, rfl, rfl, SameDealer.refl _, fun hn => AMap.nodup_insert hn _ _, ?_, ?_⟩
    · intro j w hw
      refine ⟨[], by simp, ?_⟩
      show (d.verifiers.insert dd.index _).get j = _
      rw [AMap.get_insert, if_neg]
      · exact hw
      · rintro rfl; rw [hn] at hw; cases hw
    · intro j w hjn hw
      change (d.verifiers.insert dd.index _).get j = _ at hw
      rw [AMap.get_insert] at hw
      by_cases hj : j = dd.index
      · subst hj
        rw [if_pos rfl] at hw
        cases hw
        exact ⟨pub, v0, dd.deal, k, v1, resp, [], hp, hv0, hv1, by simp, rfl⟩
      · rw [if_neg hj, hjn] at hw; cases hw

/-- The own approval in the dealer, dkg.rs:502-503. -/
def approveOwn (d : Dkg F G) : Dkg F G :=
  { d with dealer := { d.dealer with
      aggregator := d.dealer.aggregator.unsafeSetResponseDkg d.index true } }

theorem approveOwn_keeps (E : Env F G) (d : Dkg F G) : Keeps E d (approveOwn d) :=
  evolves_same E _ _ rfl rfl rfl rfl rfl
    ⟨rfl, rfl, rfl, rfl, rfl, rfl, rfl, rfl, rfl, addResponse_ext _ _⟩ rfl

theorem dealsLoop_evolves (E : Env F G) (encs : List (VssP.EncryptedDeal G)) (vk : F) (l : List Nat)
    (d : Dkg F G) (dd : AMap (Deal G)) : Evolves E d (Dkg.dealsLoop E encs vk l d dd).1 := by
  induction l generalizing d dd with
  | nil => exact Evolves.refl E d
  | cons i l ih =>
    unfold Dkg.dealsLoop
    split
    · exact Evolves.refl E d
    · rename_i e he
      split
      · split
        · exact ih d dd
        · have h0 := processDeal_evolves E d ⟨d.index, e⟩ vk
          split
          · rename_i d' r hd'
            rw [hd'] at h0
            split
            · exact h0
            · refine (h0.trans ?_).trans (ih _ _)
              exact (approveOwn_keeps E d').toEvolves
          · rename_i d' r hd'; rw [hd'] at h0; exact h0
          · rename_i d' hd'; rw [hd'] at h0; exact h0
      · exact ih _ _

theorem dealerProcessResponse_same (E : Env F G) (dl : Dealer F G) (r : VssP.Response) (k : F) :
    SameDealer dl (dl.processResponse E r k).1 := by
  have hx := verifyResponse_ext E.suite dl.aggregator r
  unfold Dealer.processResponse
  simp only
  split
  · exact ⟨rfl, rfl, rfl, rfl, rfl, rfl, rfl, rfl, rfl, hx⟩
  · exact ⟨rfl, rfl, rfl, rfl, rfl, rfl, rfl, rfl, rfl, hx⟩
  · split
    · exact ⟨rfl, rfl, rfl, rfl, rfl, rfl, rfl, rfl, rfl, hx⟩
    · split <;> exact ⟨rfl, rfl, rfl, rfl, rfl, rfl, rfl, rfl, rfl, hx⟩

theorem rRun_one (E : Env F G) (v : Verifier F G) (c : RCall F G) : rRun E v [c] = rStep E v c := rfl

theorem processResponse_keeps (E : Env F G) (d : Dkg F G) (r : Response) (k : F) :
    Keeps E d (d.processResponse E r k).1 := by
  unfold Dkg.processResponse
  split
  · exact Keeps.refl E d
  · rename_i v hv
    have hset : ∀ (w : Verifier F G) (res : Res VssP.VssError Unit) (d' : Dkg F G),
        v.processResponse E.suite r.response = (w, res) →
        d'.index = d.index → d'.long = d.long → d'.pubb = d.pubb →
        d'.participants = d.participants → d'.t = d.t → SameDealer d.dealer d'.dealer →
        d'.verifiers = d.verifiers.insert r.index w → Keeps E d d' := by
      intro w res d' hw h1 h2 h3 h4 h5 h6 h7
      refine evolves_set E d d' r.index v hv [.response r.response] (by simp [viaDkg])
        h1 h2 h3 h4 h5 h6 ?_
      rw [h7, rRun_one]
      show _ = d.verifiers.insert r.index (v.processResponse E.suite r.response).1
      rw [hw]
    split
    · rename_i w e hw
      exact hset w _ _ hw rfl rfl rfl rfl rfl (SameDealer.refl _) rfl
    · rename_i w hw
      exact hset w _ _ hw rfl rfl rfl rfl rfl (SameDealer.refl _) rfl
    · rename_i w hw
      simp only
      split
      · exact hset w _ _ hw rfl rfl rfl rfl rfl (SameDealer.refl _) rfl
      · have hdl := dealerProcessResponse_same E d.dealer r.response k
        split
        · rename_i dl e hd; rw [hd] at hdl
          exact hset w _ _ hw rfl rfl rfl rfl rfl hdl rfl
        · rename_i dl hd; rw [hd] at hdl
          exact hset w _ _ hw rfl rfl rfl rfl rfl hdl rfl
        · rename_i dl hd; rw [hd] at hdl
          exact hset w _ _ hw rfl rfl rfl rfl rfl hdl rfl
        · rename_i dl j hd; rw [hd] at hdl
          have hfin : ∀ d' : Dkg F G, d'.index = d.index → d'.long = d.long → d'.pubb = d.pubb →
              d'.participants = d.participants → d'.t = d.t → SameDealer d.dealer d'.dealer →
              d'.verifiers = (d.verifiers.insert r.index w).insert r.index
                (w.processJustification E j).1 → Keeps E d d' := by
            intro d' h1 h2 h3 h4 h5 h6 h7
            refine (hset w _ { d with verifiers := d.verifiers.insert r.index w } hw rfl rfl rfl rfl
              rfl (SameDealer.refl _) rfl).trans ?_
            exact evolves_set E _ d' r.index w (by
              show (d.verifiers.insert r.index w).get r.index = _
              rw [AMap.get_insert, if_pos rfl]) [.justification j] (by simp [viaDkg])
              h1 h2 h3 h4 h5 h6 h7
          split <;> exact hfin _ rfl rfl rfl rfl rfl hdl rfl

theorem processJustification_keeps (E : Env F G) (d : Dkg F G) (j : Justification F G) :
    Keeps E d (d.processJustification E j).1 := by
  unfold Dkg.processJustification
  split
  · exact Keeps.refl E d
  · rename_i v hv
    exact evolves_set E d _ j.index v hv [.justification j.justification] (by simp [viaDkg])
      rfl rfl rfl rfl rfl (SameDealer.refl _) rfl

theorem get_map {α β : Type} (m : AMap α) (f : α → β) (i : Nat) :
    AMap.get (m.map (fun e => (e.1, f e.2))) i = (m.get i).map f := by
  induction m with
  | nil => rfl
  | cons e m ih =>
    obtain ⟨j, v⟩ := e
    rw [List.map_cons, AMap.get_cons, AMap.get_cons, ih]
    split <;> rfl

theorem setTimeout_keeps (E : Env F G) (d : Dkg F G) : Keeps E d d.setTimeout := by
  refine ⟨⟨rfl, rfl, rfl, rfl, rfl, SameDealer.refl _, ?_, ?_, ?_⟩, ?_⟩
  · intro hn
    have : d.setTimeout.verifiers.keys = d.verifiers.keys := by
      unfold Dkg.setTimeout AMap.keys
      simp [Function.comp_def]
    rw [this]; exact hn
  · intro i v hv
    refine ⟨[.timeout], by simp [viaDkg], ?_⟩
    show AMap.get (d.verifiers.map _) i = _
    rw [get_map, hv]; rfl
  · intro i v hn hv
    change AMap.get (d.verifiers.map _) i = _ at hv
    rw [get_map, hn] at hv; cases hv
  · intro i hn
    show AMap.get (d.verifiers.map _) i = _
    rw [get_map, hn]; rfl

theorem secretCommits_keeps (E : Env F G) (d : Dkg F G) (k : F) :
    Keeps E d (d.secretCommits E.suite k).1 := by
  unfold Dkg.secretCommits
  split
  · exact Keeps.refl E d
  · split
    · exact Keeps.refl E d
    · exact evolves_same E _ _ rfl rfl rfl rfl rfl (SameDealer.refl _) rfl

/-- All outcomes of `process_secret_commits`. -/
theorem processSecretCommits_cases (E : Env F G) (ord : MapOrder) (d : Dkg F G) (sc : SecretCommits G)
    (k : F) :
    (d.processSecretCommits E ord sc k).1 = d ∧ (d.processSecretCommits E ord sc k).2 ≠ .ok none ∨
    ∃ pub v deal, d.participants[sc.index]? = some pub ∧ d.isInQual ord sc.index = true ∧
      d.verifiers.get sc.index = some v ∧ sessionIdV v = sc.sessionId ∧
      Schnorr.verify E.suite pub (sc.hash E.suite) sc.signature = .ok () ∧ v.deal = some deal ∧
      (⟨some E.suite.base, sc.commitments⟩ : PubPoly G).check E.suite.base deal.secShare = .ok true ∧
      d.processSecretCommits E ord sc k =
        (setCommit d sc.index ⟨some E.suite.base, sc.commitments⟩, .ok none) := by
  unfold Dkg.processSecretCommits
  split
  · exact Or.inl ⟨rfl, by simp⟩
  · rename_i pub hp
    split
    · exact Or.inl ⟨rfl, by simp⟩
    · rename_i hq
      split
      · exact Or.inl ⟨rfl, by simp⟩
      · rename_i v hv
        split
        · exact Or.inl ⟨rfl, by simp⟩
        · rename_i hs
          split
          · exact Or.inl ⟨rfl, by simp⟩
          · exact Or.inl ⟨rfl, by simp⟩
          · rename_i hsig
            split
            · exact Or.inl ⟨rfl, by simp⟩
            · rename_i deal hdeal
              simp only
              split
              · exact Or.inl ⟨rfl, by simp⟩
              · exact Or.inl ⟨rfl, by simp⟩
              · exact Or.inl ⟨rfl, by simp⟩
              · rename_i hc
                exact Or.inr ⟨pub, v, deal, hp, by simpa using hq, hv, by simpa using hs, hsig,
                  hdeal, hc, rfl⟩

theorem processSecretCommits_keeps (E : Env F G) (ord : MapOrder) (d : Dkg F G)
    (sc : SecretCommits G) (k : F) : Keeps E d (d.processSecretCommits E ord sc k).1 := by
  rcases processSecretCommits_cases E ord d sc k with ⟨h, -⟩ | ⟨_, _, _, -, -, -, -, -, -, -, h⟩ <;>
    rw [h]
  · exact Keeps.refl E d
  · exact evolves_same E _ _ rfl rfl rfl rfl rfl (SameDealer.refl _) rfl

/-- The verifiers after a complaint whose deal was checked. -/
def afterCheck (E : Env F G) (d : Dkg F G) (cc : ComplaintCommits F G) (v : Verifier F G) : Dkg F G :=
  setVer d cc.dealerIndex (rStep E v (.verifyDeal cc.deal false))

/-- All outcomes of `process_complaint_commits`. -/
theorem processComplaintCommits_cases (E : Env F G) (ord : MapOrder) (d : Dkg F G)
    (cc : ComplaintCommits F G) (k : F) :
    ((d.processComplaintCommits E ord cc k).1 = d ∨
      ∃ v, d.verifiers.get cc.dealerIndex = some v ∧
        (d.processComplaintCommits E ord cc k).1 = afterCheck E d cc v) ∧
      (∀ rc, (d.processComplaintCommits E ord cc k).2 ≠ .ok rc) ∨
    ∃ issuer v a p deal, d.participants[cc.index]? = some issuer ∧ d.isInQual ord cc.index = true ∧
      Schnorr.verify E.suite issuer (cc.hash E) cc.signature = .ok () ∧
      d.verifiers.get cc.dealerIndex = some v ∧ v.aggregator = some a ∧
      (a.verifyDeal E cc.deal false).2 = .ok () ∧ d.commitments.get cc.dealerIndex = some p ∧
      p.check E.suite.base cc.deal.secShare = .ok false ∧
      (rStep E v (.verifyDeal cc.deal false)).deal = some deal ∧
      ∃ rc, rc.sessionId = cc.deal.sessionId ∧ rc.index = d.index ∧
        rc.dealerIndex = cc.dealerIndex ∧ rc.share = deal.secShare ∧
        rc.signature = Schnorr.sign E.suite k d.long (rc.hash E.suite) ∧
        d.processComplaintCommits E ord cc k = ({ afterCheck E d cc v with
          commitments := d.commitments.remove cc.dealerIndex
          pendingReconstruct := d.pendingReconstruct.insert cc.dealerIndex
            ((d.pendingReconstruct.get cc.dealerIndex).getD [] ++ [rc]) }, .ok rc) := by
  unfold Dkg.processComplaintCommits
  split
  · exact Or.inl ⟨Or.inl rfl, by simp⟩
  · rename_i issuer hp
    split
    · exact Or.inl ⟨Or.inl rfl, by simp⟩
    · rename_i hq
      split
      · exact Or.inl ⟨Or.inl rfl, by simp⟩
      · exact Or.inl ⟨Or.inl rfl, by simp⟩
      · rename_i hsig
        split
        · exact Or.inl ⟨Or.inl rfl, by simp⟩
        · rename_i v hv
          split
          · exact Or.inl ⟨Or.inl rfl, by simp⟩
          · rename_i a ha
            have hv' : { v with aggregator := some (a.verifyDeal E cc.deal false).1 } =
                rStep E v (.verifyDeal cc.deal false) := by
              simp [rStep, Verifier.onAggregator, ha]
            simp only [hv']
            have hst : setVer d cc.dealerIndex (rStep E v (.verifyDeal cc.deal false)) =
              afterCheck E d cc v := rfl
            simp only [hst]
            split
            · exact Or.inl ⟨Or.inr ⟨v, hv, rfl⟩, by simp⟩
            · exact Or.inl ⟨Or.inr ⟨v, hv, rfl⟩, by simp⟩
            · rename_i hver
              split
              · exact Or.inl ⟨Or.inr ⟨v, hv, rfl⟩, by simp⟩
              · rename_i p hpc
                split
                · exact Or.inl ⟨Or.inr ⟨v, hv, rfl⟩, by simp⟩
                · exact Or.inl ⟨Or.inr ⟨v, hv, rfl⟩, by simp⟩
                · exact Or.inl ⟨Or.inr ⟨v, hv, rfl⟩, by simp⟩
                · rename_i hck
                  split
                  · exact Or.inl ⟨Or.inr ⟨v, hv, rfl⟩, by simp⟩
                  · rename_i deal hdeal
                    exact Or.inr ⟨issuer, v, a, p, deal, hp, by simpa using hq, hsig, hv, ha, hver,
                      hpc, hck, hdeal, _, rfl, rfl, rfl, rfl, rfl, rfl⟩

theorem afterCheck_keeps (E : Env F G) (d : Dkg F G) (cc : ComplaintCommits F G) (v : Verifier F G)
    (hv : d.verifiers.get cc.dealerIndex = some v) : Keeps E d (afterCheck E d cc v) :=
  evolves_set E d _ cc.dealerIndex v hv [.verifyDeal cc.deal false] (by simp [viaDkg])
    rfl rfl rfl rfl rfl (SameDealer.refl _) rfl

theorem processComplaintCommits_keeps (E : Env F G) (ord : MapOrder) (d : Dkg F G)
    (cc : ComplaintCommits F G) (k : F) : Keeps E d (d.processComplaintCommits E ord cc k).1 := by
  rcases processComplaintCommits_cases E ord d cc k with ⟨h | ⟨v, hv, h⟩, -⟩ |
    ⟨_, v, _, _, _, -, -, -, hv, -, -, -, -, -, rc, -, -, -, -, -, h⟩ <;> rw [h]
  · exact Keeps.refl E d
  · exact afterCheck_keeps E d cc v hv
  · exact (afterCheck_keeps E d cc v hv).trans
      (evolves_same E _ _ rfl rfl rfl rfl rfl (SameDealer.refl _) rfl)

/-- All outcomes of `process_reconstruct_commits`: no change of the commitments, or the polynomial
through the pending shares. -/
theorem processReconstructCommits_cases (E : Env F G) (ord : MapOrder) (d : Dkg F G)
    (rc : ReconstructCommits F) :
    ((d.processReconstructCommits E ord rc).1 = d ∨ ∃ arr,
      (d.processReconstructCommits E ord rc).1 =
        { d with pendingReconstruct := d.pendingReconstruct.insert rc.dealerIndex arr } ∧
      (arr = (d.pendingReconstruct.get rc.dealerIndex).getD [] ∨
       arr = (d.pendingReconstruct.get rc.dealerIndex).getD [] ++ [rc] ∧
        ∃ pub, d.participants[rc.index]? = some pub ∧
          Schnorr.verify E.suite pub (rc.hash E.suite) rc.signature = .ok () ∧
          Dkg.scanPending rc ((d.pendingReconstruct.get rc.dealerIndex).getD []) = none)) ∨
    ∃ pub arr pri, d.reconstructed.get rc.dealerIndex = none ∧
      d.commitments.get rc.dealerIndex = none ∧ d.participants[rc.index]? = some pub ∧
      Schnorr.verify E.suite pub (rc.hash E.suite) rc.signature = .ok () ∧
      arr = (d.pendingReconstruct.get rc.dealerIndex).getD [] ++ [rc] ∧
      Dkg.scanPending rc ((d.pendingReconstruct.get rc.dealerIndex).getD []) = none ∧
      d.t ≤ arr.length ∧ recoverPriPoly ord (arr.map (fun r => some r.share)) d.t = .ok pri ∧
      d.processReconstructCommits E ord rc = ({ d with
        commitments := d.commitments.insert rc.dealerIndex
          ⟨some E.suite.base, pri.coeffs.map (· • E.suite.base)⟩
        reconstructed := d.reconstructed.insert rc.dealerIndex true
        pendingReconstruct := (d.pendingReconstruct.insert rc.dealerIndex arr).remove
          rc.dealerIndex }, .ok ()) := by
  unfold Dkg.processReconstructCommits
  split
  · exact Or.inl (Or.inl rfl)
  · rename_i h1
    split
    · exact Or.inl (Or.inl rfl)
    · rename_i h2
      split
      · exact Or.inl (Or.inl rfl)
      · rename_i pub hp
        split
        · exact Or.inl (Or.inl rfl)
        · exact Or.inl (Or.inl rfl)
        · rename_i hsig
          simp only
          split
          · exact Or.inl (Or.inr ⟨_, rfl, Or.inl rfl⟩)
          · rename_i hscan
            split
            · rename_i ht
              split
              · exact Or.inl (Or.inr ⟨_, rfl, Or.inr ⟨rfl, pub, hp, hsig, hscan⟩⟩)
              · exact Or.inl (Or.inr ⟨_, rfl, Or.inr ⟨rfl, pub, hp, hsig, hscan⟩⟩)
              · rename_i pri hpri
                exact Or.inr ⟨pub, _, pri, by simpa [AMap.contains] using h1,
                  by simpa [AMap.contains] using h2, hp, hsig, rfl, hscan, ht, hpri, rfl⟩
            · exact Or.inl (Or.inr ⟨_, rfl, Or.inr ⟨rfl, pub, hp, hsig, hscan⟩⟩)

theorem processReconstructCommits_keeps (E : Env F G) (ord : MapOrder) (d : Dkg F G)
    (rc : ReconstructCommits F) : Keeps E d (d.processReconstructCommits E ord rc).1 := by
  rcases processReconstructCommits_cases E ord d rc with (h | ⟨arr, h, -⟩) |
    ⟨_, _, _, -, -, -, -, -, -, -, -, h⟩ <;> rw [h]
  · exact Keeps.refl E d
  · exact evolves_same E _ _ rfl rfl rfl rfl rfl (SameDealer.refl _) rfl
  · exact evolves_same E _ _ rfl rfl rfl rfl rfl (SameDealer.refl _) rfl

theorem qStep_evolves (E : Env F G) (d : Dkg F G) (c : QCall F G) : Evolves E d (qStep E d c) := by
  cases c with
  | deals dh k vk =>
    show Evolves E d (d.deals E dh k vk).1
    unfold Dkg.deals
    split
    · exact Evolves.refl E d
    · exact Evolves.refl E d
    · exact dealsLoop_evolves E _ _ _ _ _
  | deal dd k => exact processDeal_evolves E d dd k
  | response r k => exact (processResponse_keeps E d r k).toEvolves
  | justification j => exact (processJustification_keeps E d j).toEvolves
  | timeout => exact (setTimeout_keeps E d).toEvolves
  | ownCommits k => exact (secretCommits_keeps E d k).toEvolves
  | commits ord sc k => exact (processSecretCommits_keeps E ord d sc k).toEvolves
  | complaint ord cc k => exact (processComplaintCommits_keeps E ord d cc k).toEvolves
  | reconstruct ord rc => exact (processReconstructCommits_keeps E ord d rc).toEvolves

theorem qRun_evolves (E : Env F G) (d : Dkg F G) (cs : List (QCall F G)) : Evolves E d (qRun E d cs) := by
  induction cs generalizing d with
  | nil => exact Evolves.refl E d
  | cons c cs ih => exact (qStep_evolves E d c).trans (ih (qStep E d c))

/-- What `new_dist_key_generator` returns. -/
theorem newDistKeyGenerator_ok {E : Env F G} {x : F} {pubs : List G} {t : Nat} {secret : F}
    {fD gD : List F} {d : Dkg F G} (h : newDistKeyGenerator E x pubs t secret fD gD = .ok d) :
    pubs.findIdx? (fun p => decide (p = x • E.suite.base)) = some d.index ∧
    newDealer E x secret pubs t fD gD = .ok d.dealer ∧ d.long = x ∧ d.pubb = x • E.suite.base ∧
    d.participants = pubs ∧ d.t = t ∧ d.verifiers = [] ∧ d.commitments = [] ∧
    d.pendingReconstruct = [] ∧ d.reconstructed = [] := by
  unfold newDistKeyGenerator at h
  simp only at h
  split at h
  · cases h
  · rename_i i hi
    simp only [Res.bind_eq_ok, Res.mapErr_eq_ok, Res.ok.injEq] at h
    obtain ⟨dl, hdl, rfl⟩ := h
    exact ⟨hi, hdl, rfl, rfl, rfl, rfl, rfl, rfl, rfl, rfl⟩

/-- Every stored verifier of a reachable state. -/
theorem reach_stored {E : Env F G} {x : F} {pubs : List G} {t : Nat} {secret : F}
    {fD gD : List F} {d : Dkg F G} (h : newDistKeyGenerator E x pubs t secret fD gD = .ok d)
    (cs : List (QCall F G)) {i : Nat} {v : Verifier F G}
    (hv : (qRun E d cs).verifiers.get i = some v) : Stored E x pubs i v := by
  obtain ⟨-, -, h1, -, h2, -, h3, -⟩ := newDistKeyGenerator_ok h
  have := (qRun_evolves E d cs).new i v (by rw [h3]; rfl) hv
  rw [h1, h2] at this
  exact this

theorem reach_nodup {E : Env F G} {x : F} {pubs : List G} {t : Nat} {secret : F}
    {fD gD : List F} {d : Dkg F G} (h : newDistKeyGenerator E x pubs t secret fD gD = .ok d)
    (cs : List (QCall F G)) : (qRun E d cs).verifiers.keys.Nodup := by
  obtain ⟨-, -, -, -, -, -, h3, -⟩ := newDistKeyGenerator_ok h
  exact (qRun_evolves E d cs).nodup (by rw [h3]; exact List.nodup_nil)

end Kyber.DkgR
