/-
Property C77 (no message makes a participant panic) of the Pedersen DKG
(`src/share/dkg/pedersen/dkg.rs`).
-/
import Verif.Props.DkgPedersenQual
import Verif.Props.Signatures

set_option linter.unusedSectionVars false

namespace Kyber.DkgP

open Kyber.Poly Kyber.Spec Kyber.VssP

variable {F G : Type} [Field F] [AddCommGroup G] [SMul F G] [DecidableEq G]

theorem schnorr_ne_panic (S : Suite F G) (P : G) (m s : Bytes) : Schnorr.verify S P m s ≠ .panic :=
  Props.C12_never_panics S (S.encG P) m s

theorem addResponse_ne_panic (a : Aggregator F G) (r : VssP.Response) : (a.addResponse r).2 ≠ .panic := by
  rcases addResponse_cases a r with ⟨e, h⟩ | ⟨-, -, h⟩ <;> rw [h] <;> simp

theorem verifyResponse_ne_panic (S : Suite F G) (a : Aggregator F G) (r : VssP.Response) :
    (a.verifyResponse S r).2 ≠ .panic := by
  unfold Aggregator.verifyResponse
  split
  · simp
  split
  · simp
  split
  · exact addResponse_ne_panic a r
  · simp
  · rename_i h; exact absurd h (schnorr_ne_panic S _ _ _)

theorem verifyResponse_ok {S : Suite F G} {a : Aggregator F G} {r : VssP.Response}
    (h : (a.verifyResponse S r).2 = .ok ()) : r.index < a.verifiers.length := by
  rcases verifyResponse_cases S a r with ⟨e, h'⟩ | h' | ⟨pub, -, h2, -, -⟩
  · rw [h'] at h; cases h
  · rw [h'] at h; cases h
  · exact (List.getElem?_eq_some_iff.1 h2).1

theorem checkDeal_panic {S : Suite F G} {a : Aggregator F G} {d : VssP.Deal F G} :
    a.checkDeal S d = .panic ↔ validT d.t a.verifiers = true ∧ d.t = a.t ∧ a.sid = d.sessionId ∧
      d.secShare.i < a.verifiers.length ∧ d.commitments = [] := by
  unfold Aggregator.checkDeal
  by_cases h1 : validT d.t a.verifiers = false
  · rw [if_pos h1, h1]; simp
  rw [if_neg h1]
  by_cases h2 : d.t ≠ a.t
  · rw [if_pos h2]; simp [h2]
  rw [if_neg h2]
  by_cases h3 : a.sid ≠ d.sessionId
  · rw [if_pos h3]; simp [h3]
  rw [if_neg h3]
  by_cases h4 : a.verifiers.length ≤ d.secShare.i
  · rw [if_pos h4]
    constructor
    · intro h; cases h
    · rintro ⟨-, -, -, h, -⟩; omega
  rw [if_neg h4]
  push Not at h2 h3 h4
  unfold PubPoly.eval
  by_cases h5 : d.commitments = []
  · simp only [h5, List.length_nil, if_true]
    simp only [Bool.not_eq_false] at h1
    exact ⟨fun _ => ⟨h1, h2, h3, h4, trivial⟩, fun _ => rfl⟩
  · rw [if_neg (by simpa using h5)]
    simp only [Res.mapErr_ok, Res.bind_ok]
    constructor
    · intro h; split at h <;> cases h
    · rintro ⟨-, -, -, -, h⟩; exact absurd h h5

theorem verifyJustification_panic {S : Suite F G} {a : Aggregator F G} {j : VssP.Justification F G} :
    (a.verifyJustification S j).2 = .panic ↔ j.index < a.verifiers.length ∧
      (∃ r, a.responses.get j.index = some r ∧ r.status = statusComplaint) ∧
      (a.remember j.deal).checkDeal S j.deal = .panic := by
  unfold Aggregator.verifyJustification
  have hlt : (VssP.findPub a.verifiers j.index).isNone = true ↔ ¬ j.index < a.verifiers.length := by
    unfold VssP.findPub; rw [Option.isNone_iff_eq_none, List.getElem?_eq_none_iff, not_lt]
  by_cases h1 : (VssP.findPub a.verifiers j.index).isNone = true
  · rw [if_pos h1]
    rw [hlt] at h1
    simp [h1]
  rw [if_neg h1]
  rw [hlt, not_not] at h1
  cases hg : a.responses.get j.index with
  | none => simp
  | some r =>
    simp only
    by_cases h2 : r.status ≠ statusComplaint
    · rw [if_pos h2]; simp [h2]
    rw [if_neg h2]
    push Not at h2
    have : (a.verifyDeal S j.deal false).2 = (a.remember j.deal).checkDeal S j.deal := by
      unfold Aggregator.verifyDeal; rw [Bool.and_false]; rfl
    rw [this]
    cases hc : (a.remember j.deal).checkDeal S j.deal <;> simp [h1, h2]

/-! ### The dealer's part -/

theorem processDeal_dealer (E : DkgEnv F G) (d : Dkg F G) (dd : Deal G) (k k' : F) :
    (d.processDeal E dd k k').1.dealer = d.dealer := by
  unfold Dkg.processDeal
  split; · rfl
  split; · rfl
  split; · rfl
  · rfl
  split; · rfl
  split
  · rfl
  · rfl
  · simp only
    split
    · split
      · split <;> rfl
      · rfl
    · rfl

theorem dealsLoop_dealer (E : DkgEnv F G) (encs : List (EncryptedDeal G)) (rnd : Nat → F) (vk vk' : F)
    (l : List Nat) (d : Dkg F G) (dd : AMap (Deal G)) :
    (Dkg.dealsLoop E encs rnd vk vk' l d dd).1.dealer = d.dealer := by
  induction l generalizing d dd with
  | nil => rfl
  | cons i l ihl =>
    unfold Dkg.dealsLoop
    split
    · rfl
    · rename_i e he
      simp only
      split
      · split
        · exact ihl _ _
        · have h1 := processDeal_dealer E { d with processed := true } (d.signDeal E e (rnd i)) vk vk'
          split
          · rename_i d' r hd'
            rw [hd'] at h1
            split
            · exact h1
            · rw [ihl]; exact h1
          · rename_i d' r hd'
            rw [hd'] at h1; exact h1
          · rename_i d' hd'
            rw [hd'] at h1; exact h1
      · exact ihl _ _

/-- Only responses change the dealer, and only its aggregator. -/
theorem dStep_dealer (E : DkgEnv F G) (d : Dkg F G) (c : DCall F G) :
    (dStep E d c).dealer = d.dealer ∨ ∃ r, (dStep E d c).dealer =
      { d.dealer with aggregator := (d.dealer.aggregator.verifyResponse E.suite r).1 } := by
  cases c with
  | deals dh k rnd vk vk' =>
    left
    show (d.deals E dh k rnd vk vk').1.dealer = _
    unfold Dkg.deals
    split
    · rfl
    split
    · rfl
    · rfl
    · exact dealsLoop_dealer E _ _ _ _ _ _ _
  | deal dd k k' => exact Or.inl (processDeal_dealer E d dd k k')
  | response r k =>
    show (d.processResponse E r k).1.dealer = _ ∨ ∃ r', (d.processResponse E r k).1.dealer = _
    unfold Dkg.processResponse
    split
    · left
      unfold Dkg.processResharingResponse
      simp only
      split
      · rfl
      · rfl
      · split
        · rfl
        · split
          · rfl
          · split <;> rfl
    · split
      · exact Or.inl rfl
      · split
        · exact Or.inl rfl
        · exact Or.inl rfl
        · rename_i v hv w hw
          by_cases hc : (d.setVerifier r.index w).canIssue = false ∨ r.index ≠ (d.setVerifier r.index w).oidx
          · left
            simp only
            rw [if_pos hc]; rfl
          · right
            refine ⟨r.response, ?_⟩
            simp only
            rw [if_neg hc]
            have hd := dealer_processResponse E.toEnv (d.setVerifier r.index w).dealer r.response k
            split
            · rename_i dl e h; rw [h] at hd; exact hd
            · rename_i dl h; rw [h] at hd; exact hd
            · rename_i dl h; rw [h] at hd; exact hd
            · rename_i dl j h
              rw [h] at hd
              split <;> exact hd
  | justification j =>
    left
    show (d.processJustification E j).1.dealer = _
    unfold Dkg.processJustification
    split <;> rfl
  | timeout => exact Or.inl rfl

/-- A dealer can always answer a complaint. -/
def DealerOk (dl : Dealer F G) : Prop :=
  dl.aggregator.verifiers.length = dl.deals.length ∧ ∀ x ∈ dl.deals, x.commitments ≠ []

theorem reach_dealerOk {E : DkgEnv F G} {c : Config F G} {secret : F} {draws : List F} {d0 : Dkg F G}
    (h0 : newDistKeyHandler E.suite c secret draws = .ok d0) (cs : List (DCall F G))
    (hi : d0.canIssue = true) : DealerOk (dRun E d0 cs).dealer := by
  have hst := newDistKeyHandler_ok h0
  have hbase : DealerOk d0.dealer := by
    have : ∃ s, newDealer E.suite c.longterm s c.newNodes d0.newT draws = .ok d0.dealer := by
      cases hs : c.share with
      | some sh => exact ⟨_, hst.issue sh hs⟩
      | none =>
        by_cases hre : d0.isResharing = true
        · have := (hst.reshare hre).2.2.2
          rw [hi, hs] at this; cases this
        · rw [Bool.not_eq_true] at hre
          by_cases hp : d0.newPresent = true
          · exact ⟨_, (hst.fresh hre hp).2.2⟩
          · -- not in the new list and not resharing: no dealer
            exfalso
            rw [Bool.not_eq_true] at hp
            have h1 := hst.nidx
            have h2 := hst.resharing
            rw [hre] at h2
            unfold newDistKeyHandler at h0
            rw [Res.ite_err_eq_ok] at h0
            simp only at h0
            rw [Res.ite_err_eq_ok, Res.ite_err_eq_ok, Res.ite_err_eq_ok] at h0
            obtain ⟨-, -, -, -, h0⟩ := h0
            rw [hs, h1, hp] at h0
            simp only [Bool.false_eq_true, and_false, if_false, Res.bind_ok] at h0
            rw [Res.ok.injEq] at h0
            rw [← h0] at hi
            simp [prepare] at hi
    obtain ⟨s, hs⟩ := this
    obtain ⟨-, -, -, -, -, -, -, -, hsc, -, -, hdl, hag⟩ := newDealer_ok hs
    refine ⟨?_, ?_⟩
    · rw [hag, hdl]; simp [newAggregator]
    · intro x hx
      rw [hdl, List.mem_map] at hx
      obtain ⟨i, -, rfl⟩ := hx
      simp only [hsc]
      simp
  induction cs using List.reverseRecOn with
  | nil => exact hbase
  | append_singleton cs c ih =>
    have hrun : dRun E d0 (cs ++ [c]) = dStep E (dRun E d0 cs) c := by
      simp [dRun, List.foldl_append]
    rw [hrun]
    rcases dStep_dealer E (dRun E d0 cs) c with h | ⟨r, h⟩ <;> rw [h]
    · exact ih
    · refine ⟨?_, ih.2⟩
      show ((dRun E d0 cs).dealer.aggregator.verifyResponse E.suite r).1.verifiers.length = _
      rw [(verifyResponse_ext E.suite _ r).verifiers]; exact ih.1

theorem processResponse_dealer_ne_panic (E : Env F G) (dl : Dealer F G) (h : DealerOk dl)
    (r : VssP.Response) (k : F) : (dl.processResponse E r k).2 ≠ .panic ∧
    ∀ j, (dl.processResponse E r k).2 = .ok (some j) → j.deal.commitments ≠ [] := by
  unfold Dealer.processResponse
  simp only
  split
  · simp
  · rename_i hp; exact absurd hp (verifyResponse_ne_panic _ _ _)
  · rename_i hok
    have hlt := verifyResponse_ok hok
    rw [h.1] at hlt
    split
    · simp
    · rw [List.getElem?_eq_getElem hlt]
      simp only [ne_eq, reduceCtorEq, not_false_eq_true, Res.ok.injEq, Option.some.injEq, true_and]
      rintro j rfl
      exact h.2 _ (List.getElem_mem hlt)

/-- `decrypt_deal` panics only on a nonce of the wrong length, in a message the dealer signed. -/
theorem decryptDeal_panic {E : Env F G} {v : Verifier F G} {e : EncryptedDeal G}
    (h : v.decryptDeal E e = .panic) : e.nonce.length ≠ Dh.nonceSize := by
  by_contra hn
  unfold Verifier.decryptDeal at h
  simp only [hn, ne_eq, not_true_eq_false, if_false] at h
  cases hv : Schnorr.verify E.suite v.dealer (E.suite.encG e.dhkey) e.signature with
  | err x => rw [hv] at h; cases h
  | panic => exact absurd hv (schnorr_ne_panic _ _ _ _)
  | ok u =>
    rw [hv] at h
    simp only [Res.mapErr_ok, Res.bind_ok] at h
    unfold Dh.AEAD.new Dh.hkdf at h
    generalize E.prims.hkdf _ _ _ = o at h
    cases o with
    | none => cases h
    | some key =>
      simp only [Res.ofOption_some, Res.bind_ok] at h
      by_cases hk : key.length ≠ 32
      · rw [if_pos hk] at h; cases h
      rw [if_neg hk] at h
      simp only [Res.mapErr_ok, Res.bind_ok] at h
      unfold Dh.AEAD.open_ Dh.aesDecrypt at h
      rw [if_neg hk] at h
      generalize E.prims.gcmOpen _ _ _ _ = o at h
      cases o with
      | none => cases h
      | some m =>
        simp only [Res.ofOption_some, Res.bind_ok, Dh.copyOut, Res.mapErr_ok] at h
        generalize E.codec.dec _ = o at h
        cases o <;> cases h

end Kyber.DkgP

namespace Kyber.Props

open Kyber Kyber.Poly Kyber.Spec Kyber.VssP Kyber.DkgP

variable {F G : Type} [Field F] [AddCommGroup G] [SMul F G] [DecidableEq G]

/-- C77, the intended property: no message, whatever its origin, makes a participant panic. The node
lists have no duplicates, and there is a threshold. -/
def C77_statement : Prop :=
  ∀ (F G : Type) (_ : Field F) (_ : AddCommGroup G) (_ : Module F G) (_ : DecidableEq G)
    (E : DkgEnv F G) (_ : E.suite.Lawful) (_ : E.prims.Lawful)
    (_ : ∀ d, E.codec.dec (E.codec.enc d) = some d)
    (c : Config F G) (_ : c.newNodes.Nodup) (_ : c.oldNodes.Nodup) (_ : c.threshold ≠ 0)
    (secret : F) (draws : List F) (d0 : Dkg F G)
    (_ : newDistKeyHandler E.suite c secret draws = .ok d0) (cs : List (DCall F G)),
    (∀ dd k k', ((dRun E d0 cs).processDeal E dd k k').2 ≠ .panic) ∧
    (∀ r k, ((dRun E d0 cs).processResponse E r k).2 ≠ .panic) ∧
    (∀ j, ((dRun E d0 cs).processJustification E j).2 ≠ .panic)

/-- C77 for responses: in every reachable state no response causes a panic. -/
theorem C77_response (E : DkgEnv F G) (c : Config F G) (secret : F) (draws : List F) (d0 : Dkg F G)
    (h0 : newDistKeyHandler E.suite c secret draws = .ok d0) (cs : List (DCall F G))
    (r : DkgP.Response) (k : F) : ((dRun E d0 cs).processResponse E r k).2 ≠ .panic := by
  have hev := dRun_evolves E d0 cs
  have hdo := fun hi => reach_dealerOk h0 cs hi
  generalize hd : dRun E d0 cs = d at *
  unfold Dkg.processResponse
  split
  · unfold Dkg.processResharingResponse
    simp only
    split
    · simp
    · rename_i h; exact absurd h (verifyResponse_ne_panic _ _ _)
    · split
      · simp
      · split
        · simp
        · unfold Dealer.plaintextDeal
          generalize (d.dealer.deals[r.response.index]?) = o
          cases o <;> simp [Res.ofOption]
  · split
    · simp
    · rename_i v hv
      split
      · simp
      · rename_i w h
        have : (v.processResponse E.suite r.response).2 = .panic := by rw [h]
        exact absurd this (verifyResponse_ne_panic _ _ _)
      · rename_i w hw
        simp only
        by_cases hc : (d.setVerifier r.index w).canIssue = false ∨ r.index ≠ (d.setVerifier r.index w).oidx
        · rw [if_pos hc]; simp
        · rw [if_neg hc]
          push Not at hc
          have hci : d0.canIssue = true := by
            rw [← hev.canIssue]; simpa [Dkg.setVerifier] using hc.1
          have hp := processResponse_dealer_ne_panic E.toEnv (d.setVerifier r.index w).dealer
            (hdo hci) r.response k
          split
          · simp
          · rename_i dl h; exact absurd (by rw [h]) hp.1
          · simp
          · rename_i dl j h
            have hne := hp.2 j (by rw [h])
            split
            · simp
            · rename_i u hu
              have : (w.processJustification E.suite j).2 = .panic := by rw [hu]
              have h3 := (verifyJustification_panic.1 this).2.2
              exact absurd (checkDeal_panic.1 h3).2.2.2.2 hne
            · simp

/-- C77 for justifications: one causes a panic exactly if it names a dealer, there is a complaint of
the share holder it names, and its deal has no commitments but passes the other checks. -/
theorem C77_justification (E : DkgEnv F G) (d : Dkg F G) (j : DkgP.Justification F G) :
    (d.processJustification E j).2 = .panic ↔ ∃ v, d.verifiers.get j.index = some v ∧
      j.justification.index < v.aggregator.verifiers.length ∧
      (∃ r, v.aggregator.responses.get j.justification.index = some r ∧ r.status = statusComplaint) ∧
      j.justification.deal.commitments = [] ∧
      validT j.justification.deal.t v.aggregator.verifiers = true ∧
      j.justification.deal.secShare.i < v.aggregator.verifiers.length ∧
      (v.aggregator.deal.isSome → j.justification.deal.t = v.aggregator.t ∧
        v.aggregator.sid = j.justification.deal.sessionId) := by
  unfold Dkg.processJustification
  cases hv : d.verifiers.get j.index with
  | none => simp
  | some v =>
    simp only [Option.some.injEq, exists_eq_left']
    have hm : ∀ r : Res VssError Unit, r.mapErr DkgError.vss = .panic ↔ r = .panic := by
      intro r; cases r <;> simp [Res.mapErr]
    rw [hm]
    show (v.aggregator.verifyJustification E.suite j.justification).2 = .panic ↔ _
    rw [verifyJustification_panic, checkDeal_panic, (remember_ext _ _).verifiers]
    unfold Aggregator.remember
    cases hdl : v.aggregator.deal with
    | none => simp; tauto
    | some dl => simp; tauto

/-- C77 for deals: in every reachable state of a participant with a verifier for each dealer, a deal
that causes a panic carries a valid signature of the dealer, and has a nonce of the wrong length, or
decrypts to a deal without commitments, or the old group has no commitments. -/
theorem C77_deal_partial (E : DkgEnv F G) (c : Config F G) (secret : F) (draws : List F)
    (d0 : Dkg F G) (h0 : newDistKeyHandler E.suite c secret draws = .ok d0)
    (hnd : d0.c.oldNodes.Nodup) (cs : List (DCall F G)) (dd : DkgP.Deal G) (k k' : F)
    (h : ((dRun E d0 cs).processDeal E dd k k').2 = .panic) :
    ∃ P v, d0.c.oldNodes[dd.index]? = some P ∧
      Schnorr.verify E.suite P (E.encDist dd.index dd.deal) dd.signature = .ok () ∧
      (dRun E d0 cs).verifiers.get dd.index = some v ∧
      (dd.deal.nonce.length ≠ Dh.nonceSize ∨
       (∃ dl, v.decryptDeal E.toEnv dd.deal = .ok dl ∧ dl.commitments = []) ∨
       (d0.isResharing = true ∧ d0.dpub.commits = [])) := by
  have hst := newDistKeyHandler_ok h0
  have hev := dRun_evolves E d0 cs
  generalize hd : dRun E d0 cs = d at *
  unfold Dkg.processDeal at h
  split at h
  · cases h
  rename_i hp
  rw [Bool.not_eq_false] at hp
  have hp0 : d0.newPresent = true := by rw [← hev.newPresent]; exact hp
  have hnodes : (if d.isResharing then d.c.oldNodes else d.c.newNodes) = d0.c.oldNodes := by
    rw [hev.isResharing, hev.c]
    cases hr : d0.isResharing with
    | true => rfl
    | false => exact hst.newNodes.trans (hst.fresh hr hp0).1.symm
  rw [hnodes] at h
  split at h
  · cases h
  rename_i P hP
  have hvn : ∃ v, d.verifiers.get dd.index = some v := by
    rw [← Option.isSome_iff_exists, AMap.get_isSome, hev.keys, hst.verifiers, if_pos ⟨hp0, hnd⟩,
      startVers_keys, List.mem_range]
    exact (List.getElem?_eq_some_iff.1 hP).1
  obtain ⟨v, hv⟩ := hvn
  split at h
  · cases h
  · rename_i hpan; exact absurd hpan (schnorr_ne_panic _ _ _ _)
  rename_i hver
  refine ⟨P, v, hP, hver, hv, ?_⟩
  rw [hv] at h
  simp only at h
  by_contra hcon
  push Not at hcon
  obtain ⟨hn, hcm, hre⟩ := hcon
  rcases processEncryptedDeal_cases E.toEnv v dd.deal k with
    (⟨e, hc⟩ | hc) | ⟨dl, hdec, hidx, hnone, ⟨hchk, hc⟩ | ⟨st, hst', hc, hc'⟩⟩
  · rw [hc] at h; cases h
  · have hpan : v.decryptDeal E.toEnv dd.deal = .panic := by
      unfold Verifier.processEncryptedDeal at hc
      split at hc
      · cases hc
      · assumption
      · rename_i dl hdl
        split at hc
        · cases hc
        · exfalso
          unfold Verifier.processDeal at hc
          simp only at hc
          have hrp : ∀ (a : Aggregator F G) (r : VssP.Response),
              ((a.addResponse r).2 >>= fun _ => Res.ok r) ≠ .panic := by
            intro a r hh
            cases hx : (a.addResponse r).2 with
            | ok u => rw [hx] at hh; cases hh
            | err e => rw [hx] at hh; cases hh
            | panic => exact addResponse_ne_panic _ _ hx
          split at hc
          · exact hrp _ _ (congrArg Prod.snd hc)
          · exact absurd (congrArg Prod.snd hc) (by simp)
          · exact hrp _ _ (congrArg Prod.snd hc)
          · rename_i hv'
            unfold Aggregator.verifyDeal at hv'
            split at hv'
            · cases hv'
            · exact hcm dl hdl (checkDeal_panic.1 hv').2.2.2.2
    exact decryptDeal_panic hpan hn
  · exact hcm dl hdec (checkDeal_panic.1 hchk).2.2.2.2
  · generalize hpe : v.processEncryptedDeal E.toEnv dd.deal k = pe at h hc hc'
    obtain ⟨w, res⟩ := pe
    simp only at hc hc'
    cases res with
    | err e => simp only at h; cases h
    | panic =>
      cases hx : ((v.aggregator.remember dl).addResponse (mkReply E.toEnv v dl k st)).2 with
      | ok u => rw [hx] at hc'; cases hc'
      | err e => rw [hx] at hc'; cases hc'
      | panic => exact addResponse_ne_panic _ _ hx
    | ok resp =>
      simp only at h
      split at h
      · rename_i hrr
        rw [Bool.and_eq_true] at hrr
        split at h
        · split at h
          · unfold Dkg.reject at h; cases h
          · cases h
        · rename_i hx
          have hdpub : d.dpub.commits ≠ [] := by
            rw [hev.dpub]; exact hre (by rw [← hev.isResharing]; exact hrr.1)
          have hwd : w.aggregator.deal = some dl := by
            rw [hc]
            have h1 : (v.aggregator.remember dl).deal = some dl := by
              unfold Aggregator.remember; rw [hnone]
            exact (addResponse_ext _ _).deal dl h1
          obtain ⟨c0, rest, hcc⟩ := List.exists_cons_of_ne_nil (hcm dl hdec)
          refine hx ⟨dd.index, d.dpub.commits.foldr (fun c v => xc F dd.index • v + c) 0⟩ c0 ?_ ?_
          · unfold PubPoly.eval
            rw [if_neg (by simpa using hdpub)]
          · rw [hwd]; simp [hcc]
      · cases h

namespace DkgPExample

open Kyber.Toy

/-- A justification in the name of dealer 2 without commitments. Nobody has signed it. -/
def unsignedJust : DkgP.Justification (ZMod 11) (ZMod 11) :=
  ⟨2, ⟨sidOf [4, 9], 1, ⟨sidOf [4, 9], ⟨1, 0⟩, 2, []⟩, []⟩⟩

/-- Participant 1 complains about dealer 2; the justification then stops participant 0. -/
theorem forged_panics : ((dRun envDI ((net envDI).D 0) [.deal ((net envDI).dealMsg envDI 2 0) 5 1,
    .response complaint 1]).processJustification envDI unsignedJust).2 = .panic := by decide +kernel

/-- The deal of participant 1 for participant 0 with a nonce of another length, signed again. -/
def longNonce : DkgP.Deal (ZMod 11) :=
  let e : EncryptedDeal (ZMod 11) := { (net envDI).enc envDI 1 0 with nonce := List.replicate 13 0 }
  ⟨1, e, Schnorr.sign envDI.suite 5 5 (envDI.encDist 1 e)⟩

theorem longNonce_panics : (((net envDI).D 0).processDeal envDI longNonce 5 1).2 = .panic := by
  decide +kernel

/-- A deal of participant 2 without commitments, encrypted and signed as usual. -/
def bare : DkgP.Deal (ZMod 11) := forged [] [] 0

theorem bare_panics : (((net envDI).D 0).processDeal envDI bare 5 1).2 = .panic := by
  decide +kernel

/-- The last condition of `C77_justification` is met in `forged_panics`; with commitments the same
message is an error only. -/
example : ((dRun envDI ((net envDI).D 0) [.deal ((net envDI).dealMsg envDI 2 0) 5 1,
    .response complaint 1]).processJustification envDI
      ⟨2, ⟨sidOf [4, 9], 1, ⟨sidOf [4, 9], ⟨1, 0⟩, 2, [4, 9]⟩, []⟩⟩).2 ≠ .panic := by
  decide +kernel

/-- A response is refused without a panic, in a state with deals and responses. -/
example : ((dRun envDI ((net envDI).D 0) misattributed).processResponse envDI
    ⟨2, ⟨[1], 99, true, []⟩⟩ 1).2 = .err (.vss .responseInconsistentSessionId) := by
  decide +kernel

/-- `C77_deal_partial` on the two deals above. -/
example := C77_deal_partial envDI ⟨3, [], none, [6, 10, 4], none, 2, 0⟩ 7 [5] ((net envDI).D 0) rfl
  (by decide +kernel) [] longNonce 5 1 longNonce_panics

example := C77_deal_partial envDI ⟨3, [], none, [6, 10, 4], none, 2, 0⟩ 7 [5] ((net envDI).D 0) rfl
  (by decide +kernel) [] bare 5 1 bare_panics

example := C77_response envDI ⟨3, [], none, [6, 10, 4], none, 2, 0⟩ 7 [5] ((net envDI).D 0) rfl misattributed
  ⟨2, ⟨[1], 99, true, []⟩⟩ 1

end DkgPExample

open DkgPExample in
/-- C77 does not hold: a justification that nobody signed makes every participant panic that has
stored a complaint. -/
theorem C77_violated_forged : ¬ C77_statement := by
  intro h
  exact (h (ZMod 11) (ZMod 11) _ _ _ _ Toy.envDI Toy.envDI_lawful Toy.prims_lawful
    Toy.codecP_lawful _ (by decide) (by decide) (by decide) _ _ _
    (show newDistKeyHandler Toy.envDI.suite ⟨3, [], none, [6, 10, 4], none, 2, 0⟩ 7 [5] =
      .ok ((Toy.net Toy.envDI).D 0) from rfl) _).2.2 _ forged_panics

open DkgPExample in
/-- C77 does not hold: a participant makes another one panic with the first message, by a nonce of
another length or by a deal without commitments. -/
theorem C77_violated_deal : ¬ C77_statement ∧
    (((Toy.net Toy.envDI).D 0).processDeal Toy.envDI longNonce 5 1).2 = .panic ∧
    (((Toy.net Toy.envDI).D 0).processDeal Toy.envDI bare 5 1).2 = .panic := by
  refine ⟨fun h => ?_, longNonce_panics, bare_panics⟩
  exact (h (ZMod 11) (ZMod 11) _ _ _ _ Toy.envDI Toy.envDI_lawful Toy.prims_lawful
    Toy.codecP_lawful _ (by decide) (by decide) (by decide) _ _ _
    (show newDistKeyHandler Toy.envDI.suite ⟨3, [], none, [6, 10, 4], none, 2, 0⟩ 7 [5] =
      .ok ((Toy.net Toy.envDI).D 0) from rfl) []).1 bare 5 1 bare_panics

end Kyber.Props
