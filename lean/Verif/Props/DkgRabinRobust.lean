/-
Property C120 for the Rabin DKG (`src/share/dkg/rabin/dkg.rs`): a dealer that behaves correctly is
qualified, whatever the other participants send.
-/
import Verif.Lemmas.DkgRabinRobust
import Verif.Spec.ToyDkgR
import Verif.Props.Deals

set_option linter.unusedSectionVars false

namespace Kyber.Props

open Kyber Kyber.Poly Kyber.Spec Kyber.VssR Kyber.DkgR
open Kyber.VssP (EncryptedDeal)

/-- Participant `l` answered the deal of dealer `j` with session id `sid`: `cs` holds a response with
its signature, approval or complaint. -/
def HeardR {F G : Type} [Field F] [AddCommGroup G] [SMul F G] [DecidableEq G] (S : Suite F G) (ps : List G)
    (j : Nat) (sid : Bytes) (cs : List (QCall F G)) (l : Nat) : Prop :=
  ∃ (r : DkgR.Response) (k : F), QCall.response r k ∈ cs ∧ r.index = j ∧ r.response.index = l ∧
    r.response.sessionId = sid ∧ Authentic S ps r.response

/-- What participant `d0` (key `x`) goes through with respect to the correct dealer `dj` (key `xj`):
it gets calls `pre`, the deal, calls `mid`, calls `post`. Nothing else decrypts in the name of
`dj`, the timeout comes after `mid`, by then all of `A` have answered, and none of `A` ever signs a
complaint. -/
structure DeliveredR {F G : Type} [Field F] [AddCommGroup G] [SMul F G] [DecidableEq G] (E : VssR.Env F G)
    (x xj : F) (ps : List G) (d0 dj : Dkg F G) (A : Finset Nat) (pre mid post cs : List (QCall F G)) :
    Prop where
  only : ∀ (dd : DkgR.Deal G) (k : F), QCall.deal dd k ∈ cs → dd.index = dj.index →
    ∀ v q, newVerifier E.suite x (xj • E.suite.base) ps = .ok v → v.decryptDeal E dd.deal = .ok q →
      dj.dealer.deals[d0.index]? = some q
  honest : ∀ (r : DkgR.Response) (k : F), QCall.response r k ∈ cs → r.index = dj.index →
    r.response.sessionId = dj.dealer.sessionId → Authentic E.suite ps r.response →
    r.response.index ∈ A → r.response.status = true
  early : QCall.timeout ∉ pre ∧ QCall.timeout ∉ mid
  answers : ∀ l ∈ A, l < ps.length ∧
    (l = d0.index ∨ l = dj.index ∨ HeardR E.suite ps dj.index dj.dealer.sessionId mid l)
  complete : QCall.timeout ∈ post ∨ ∀ l < ps.length,
    l = d0.index ∨ l = dj.index ∨ HeardR E.suite ps dj.index dj.dealer.sessionId mid l

/-- C120, the intended property: if the participants of `A`, at least as many as the threshold,
approve the deal of a correct dealer that answers complaints, if at all, with deals it made,
the dealer is qualified after the timeout, whatever else arrives, before or after. -/
def C120_statement : Prop :=
  ∀ (F G : Type) (_ : Field F) (_ : AddCommGroup G) (_ : Module F G) (_ : DecidableEq G)
    (E : VssR.Env F G) (_ : E.suite.Lawful) (_ : E.prims.Lawful) (_ : ∀ b, Lin F (E.pickFrom b))
    (_ : Function.Injective E.suite.hash)
    (x xj : F) (ps : List G) (_ : ps.Nodup) (t : Nat) (secret sj : F) (fD gD fDj gDj : List F)
    (d0 dj : Dkg F G)
    (_ : newDistKeyGenerator E x ps t secret fD gD = .ok d0)
    (_ : newDistKeyGenerator E xj ps t sj fDj gDj = .ok dj)
    (_ : dj.index ≠ d0.index) (_ : Usable E.suite (xj • E.suite.base))
    (_ : ∀ dl ∈ dj.dealer.deals, E.codec.dec (E.codec.enc dl) = some dl)
    (A : Finset Nat) (_ : t ≤ A.card) (pre mid post cs : List (QCall F G))
    (dh k vk : F) (e : EncryptedDeal G) (_ : Usable E.suite (k • E.suite.base))
    (_ : dj.dealer.encryptedDeal E d0.index dh k = .ok e)
    (_ : cs = pre ++ (QCall.deal ⟨dj.index, e⟩ vk :: mid) ++ post)
    (_ : DeliveredR E x xj ps d0 dj A pre mid post cs)
    -- what the dealer signs as a justification is a deal it made
    (_ : ∀ ju : DkgR.Justification F G, QCall.justification ju ∈ cs → ju.index = dj.index →
      Schnorr.verify E.suite (xj • E.suite.base) (ju.justification.hash E) ju.justification.signature = .ok () →
      ju.justification.deal ∈ dj.dealer.deals),
    QualifiedR (qRun E d0 cs) dj.index

variable {F G : Type} [Field F] [AddCommGroup G] [DecidableEq G]

section

variable [SMul F G]

/-- A verifier before the first deal. -/
def freshV (S : Suite F G) (x : F) (pub : G) (ps : List G) (i : Nat) : Verifier F G :=
  ⟨x, x • S.base, pub, i, ps, VssP.context S pub ps, none⟩

theorem qRun_append (E : VssR.Env F G) (d : Dkg F G) (a b : List (QCall F G)) :
    qRun E d (a ++ b) = qRun E (qRun E d a) b := by simp [qRun]

/-- The common part: once the participant has stored something about dealer `j`, and the answers of `A`
have come in before the timeout. -/
theorem robust_core {E : VssR.Env F G} {x : F} {pub : G} {ps : List G} {q : VssR.Deal F G} {j : Nat}
    {P : VssR.Deal F G → Prop} {d0 : Dkg F G} (hk : Known E x pub ps q j P d0) (hempty : d0.verifiers = [])
    (A : Finset Nat) (hA : q.t ≤ A.card) (p1 mid post : List (QCall F G))
    (hfine : ∀ c ∈ p1 ++ mid ++ post, FineR E x pub ps q A d0.dealer d0.index j P c)
    (he1 : QCall.timeout ∉ p1) (he2 : QCall.timeout ∉ mid)
    (hst : ((qRun E d0 p1).verifiers.get j).isSome)
    (hans : ∀ l ∈ A, l < ps.length ∧ (l = d0.index ∨ l = j ∨ HeardR E.suite ps j q.sessionId mid l))
    (htime : QCall.timeout ∈ post ∨ ∀ l < ps.length,
      l = d0.index ∨ l = j ∨ HeardR E.suite ps j q.sessionId mid l) :
    QualifiedR (qRun E d0 (p1 ++ mid ++ post)) j ∧ HoldsDeal (qRun E d0 (p1 ++ mid ++ post)) j q := by
  have hev := fun cs => qRun_evolves E d0 cs
  have hf1 : ∀ c ∈ p1, FineR E x pub ps q A d0.dealer d0.index j P c := fun c hc => hfine c (by simp [hc])
  have hf2 : ∀ c ∈ mid, FineR E x pub ps q A d0.dealer d0.index j P c := fun c hc => hfine c (by simp [hc])
  have hf3 : ∀ c ∈ post, FineR E x pub ps q A d0.dealer d0.index j P c := fun c hc => hfine c (by simp [hc])
  have hstart : InvR ps q A d0.index j d0 := fun v hv => by rw [hempty] at hv; cases hv
  have hinv : ∀ m, (∀ c ∈ m, c ∈ mid) → InvR ps q A d0.index j (qRun E d0 (p1 ++ m)) := by
    intro m hm
    refine run_inv hk (Evolves.refl E d0) hstart _ (fun c hc => ?_) (fun hc => ?_)
    · rcases List.mem_append.1 hc with hc | hc
      · exact hf1 c hc
      · exact hf2 c (hm c hc)
    · rcases List.mem_append.1 hc with hc | hc
      · exact he1 hc
      · exact he2 (hm _ hc)
  -- the verifier survives
  have hkeep : ∀ m, ∃ v, (qRun E d0 (p1 ++ m)).verifiers.get j = some v := by
    intro m
    obtain ⟨v, hv⟩ := Option.isSome_iff_exists.1 hst
    obtain ⟨cs, -, h⟩ := (qRun_evolves E (qRun E d0 p1) m).kept j v hv
    exact ⟨_, by rw [qRun_append]; exact h⟩
  have hgrow : ∀ (d d' : Dkg F G), Evolves E d d' → ∀ v a, d.verifiers.get j = some v → v.aggregator = some a →
      ∃ w b, d'.verifiers.get j = some w ∧ w.aggregator = some b ∧ Ext a b := by
    intro d d' h v a hv ha
    obtain ⟨cs, -, h'⟩ := h.kept j v hv
    obtain ⟨b, hb, he⟩ := rRun_ext E v cs a ha
    exact ⟨_, b, h', hb, he⟩
  obtain ⟨v, hv⟩ := hkeep mid
  obtain ⟨a, ha, hs, hi, hj⟩ := hinv mid (fun _ h => h) v hv
  have hheard : ∀ l, (l = d0.index ∨ l = j ∨ HeardR E.suite ps j q.sessionId mid l) →
      (a.responses.get l).isSome := by
    rintro l (rfl | rfl | ⟨r, k, hm, hr1, hr2, hr3, hr4⟩)
    · exact hi
    · exact hj
    · obtain ⟨m1, m2, rfl⟩ := List.append_of_mem hm
      obtain ⟨w, hw⟩ := hkeep m1
      obtain ⟨b, hb, hsb, -, -⟩ := hinv m1 (fun c hc => by simp [hc]) w hw
      have hstored := hsb.response_stored E.suite r.response hr3 hr4
      have hstep : ∃ u c, (qStep E (qRun E d0 (p1 ++ m1)) (.response r k)).verifiers.get j = some u ∧
          u.aggregator = some c ∧ (c.responses.get l).isSome := by
        have hu : (rStep E w (.response r.response)).aggregator =
            some (b.verifyResponse E.suite r.response).1 := by
          simp only [rStep, Verifier.processResponse, hb]
        rcases processResponse_get E _ r k hw with ⟨hne, -⟩ | ⟨-, h' | ⟨ju, -, -, h'⟩⟩
        · exact absurd hr1 hne
        · exact ⟨_, _, h', hu, by rw [← hr2]; exact hstored⟩
        · refine ⟨_, ((b.verifyResponse E.suite r.response).1.verifyJustification E ju).1, h', ?_,
            isSome_ext (verifyJustification_ext E _ ju) (by rw [← hr2]; exact hstored)⟩
          generalize hgw : rStep E w (.response r.response) = w' at hu
          simp only [rStep, Verifier.processJustification, hu]
      obtain ⟨u, c, hu, hc, hcs⟩ := hstep
      obtain ⟨w', b', hw', hb', hext⟩ := hgrow _ _ (qRun_evolves E _ m2) u c hu hc
      have hrun : qRun E (qStep E (qRun E d0 (p1 ++ m1)) (.response r k)) m2 =
          qRun E d0 (p1 ++ (m1 ++ QCall.response r k :: m2)) := by
        simp [qRun]
      rw [hrun, hv] at hw'
      cases hw'
      rw [ha] at hb'
      cases hb'
      exact isSome_ext hext hcs
  have hfull : Full A a := fun l hl => hheard l (hans l hl).2
  obtain ⟨w, b, hw, hb, hsb, hext⟩ := run_full hk (hev (p1 ++ mid)) hv ha hs hfull post hf3
  have hcs : qRun E d0 (p1 ++ mid ++ post) = qRun E (qRun E d0 (p1 ++ mid)) post := qRun_append _ _ _ _
  rw [hcs]
  refine ⟨⟨w, b, hw, hb, hsb.certified hA (fun l hl => (hans l hl).1) (hfull.ext hext) ?_⟩, w, b, hw, hb,
    hsb.deal⟩
  rcases htime with ht | hall
  · obtain ⟨q1, q2, rfl⟩ := List.append_of_mem ht
    obtain ⟨w1, b1, g1, g2, g3, -⟩ := run_full hk (hev (p1 ++ mid)) hv ha hs hfull q1
      (fun c hc => hf3 c (by simp [hc]))
    have g4 : (qStep E (qRun E (qRun E d0 (p1 ++ mid)) q1) .timeout).verifiers.get j = some w1.setTimeout := by
      show AMap.get ((qRun E (qRun E d0 (p1 ++ mid)) q1).verifiers.map _) j = _
      rw [DkgR.get_map, g1]; rfl
    obtain ⟨w2, b2, k1, k2, k3⟩ := hgrow _ _ (qRun_evolves E _ q2) _ b1.cleanVerifiers g4
      (by simp [Verifier.setTimeout, g2])
    have hrun : qRun E (qStep E (qRun E (qRun E d0 (p1 ++ mid)) q1) .timeout) q2 =
        qRun E (qRun E d0 (p1 ++ mid)) (q1 ++ QCall.timeout :: q2) := by simp [qRun]
    rw [hrun, hw] at k1
    cases k1
    rw [hb] at k2
    cases k2
    intro l hl
    exact isSome_ext k3 (timeout_stored b1 l (by rw [g3.verifiers]; exact hl))
  · intro l hl
    exact isSome_ext hext (hheard l (hall l hl))

end

section

variable [DistribSMul F G]

/-- The deals of a dealer pass the public check. -/
theorem dealt_check {E : VssR.Env F G} (hB : Lin F E.suite.base) (hH : ∀ b, Lin F (E.pickFrom b))
    {xj sj : F} {ps : List G} {t : Nat} {fD gD : List F} {dj : Dkg F G}
    (hj : newDistKeyGenerator E xj ps t sj fD gD = .ok dj) (p : VssR.Deal F G) (hp : p ∈ dj.dealer.deals) :
    p.t = t ∧ p.sessionId = dj.dealer.sessionId ∧
    ∀ a : Aggregator F G, a.verifiers = ps → a.sid = dj.dealer.sessionId → a.checkDeal E p = .ok () := by
  obtain ⟨-, h2, -⟩ := newDistKeyGenerator_ok hj
  obtain ⟨f, g, hfl, hgl, hh, -, -, hv, -, -, -, -, -, -, -, -, h9, -⟩ := VssR.newDealer_ok h2
  rw [h9, List.mem_map] at hp
  obtain ⟨i, hi, rfl⟩ := hp
  refine ⟨rfl, rfl, ?_⟩
  intro a ha hsid
  have hne : f ≠ [] := by rintro rfl; cases hh
  have := checkDeal_honest (a := a) (t := t) (i := i) hB hH hne (hfl.trans hgl.symm) (by rw [ha]; exact hv) hsid
    (by rw [ha]; exact List.mem_range.1 hi)
  rw [ha] at this
  exact this

/-- What holds: as long as the justifications about the dealer that arrive for participants outside
of `A` carry deals that the dealer made, it is qualified, and the deal counted is its own. All
other messages are arbitrary: deals, responses and justifications about other dealers, complaints of
others, with or without justification, later protocol messages, repeated and forged ones, in any
order. Missing: one justification that nobody signed (`C120_violated`, `C120_forged`). -/
theorem C120_honest_dealer_partial (E : VssR.Env F G) (hS : E.suite.Lawful) (hP : E.prims.Lawful)
    (hH : ∀ b, Lin F (E.pickFrom b)) (x xj : F) (ps : List G) (hnd : ps.Nodup) (t : Nat) (secret sj : F)
    (fD gD fDj gDj : List F) (d0 dj : Dkg F G)
    (h0 : newDistKeyGenerator E x ps t secret fD gD = .ok d0)
    (hj : newDistKeyGenerator E xj ps t sj fDj gDj = .ok dj)
    (hne : dj.index ≠ d0.index) (hx : Usable E.suite (xj • E.suite.base))
    (hC : ∀ dl ∈ dj.dealer.deals, E.codec.dec (E.codec.enc dl) = some dl)
    (A : Finset Nat) (hA : t ≤ A.card) (pre mid post cs : List (QCall F G))
    (dh k vk : F) (e : EncryptedDeal G) (hk : Usable E.suite (k • E.suite.base))
    (he : dj.dealer.encryptedDeal E d0.index dh k = .ok e)
    (hcs : cs = pre ++ (QCall.deal ⟨dj.index, e⟩ vk :: mid) ++ post)
    (hD : DeliveredR E x xj ps d0 dj A pre mid post cs)
    (hju : ∀ ju : DkgR.Justification F G, QCall.justification ju ∈ cs → ju.index = dj.index →
      ju.justification.index ∈ A ∨ ju.justification.deal ∈ dj.dealer.deals) :
    QualifiedR (qRun E d0 cs) dj.index ∧
    ∃ q, dj.dealer.deals[d0.index]? = some q ∧ HoldsDeal (qRun E d0 cs) dj.index q := by
  obtain ⟨i1, i2, i3, i4, i5, i6, i7, -⟩ := newDistKeyGenerator_ok h0
  obtain ⟨j1, j2, j3, j4, j5, j6, -⟩ := newDistKeyGenerator_ok hj
  obtain ⟨f, g, -, -, -, -, -, hv, g1, -, -, g4, -, -, g7, g8, g9, -⟩ := VssR.newDealer_ok j2
  have hidx : ∀ {y : F} {i : Nat}, ps.findIdx? (fun p => decide (p = y • E.suite.base)) = some i →
      ps[i]? = some (y • E.suite.base) := by
    intro y i h
    rw [List.findIdx?_eq_some_iff_getElem] at h
    obtain ⟨hl, h, -⟩ := h
    rw [List.getElem?_eq_getElem hl]
    simpa using h
  have hkey0 := hidx i1
  have hkeyj := hidx j1
  have hi0 := (List.getElem?_eq_some_iff.1 hkey0).1
  obtain ⟨q, hq⟩ : ∃ q, dj.dealer.deals[d0.index]? = some q := by
    rw [g9, List.getElem?_map, List.getElem?_range hi0]; exact ⟨_, rfl⟩
  have hqm := List.mem_of_getElem? hq
  obtain ⟨qt, qs, -⟩ := dealt_check hS.base_lin hH hj q hqm
  have hknown : Known E x (xj • E.suite.base) ps q dj.index (· ∈ dj.dealer.deals) d0 := by
    refine ⟨i3, i5, i1, hkeyj, hqm, ?_, fun h => absurd h.symm hne⟩
    intro p hp a ha hsid
    exact (dealt_check hS.base_lin hH hj p hp).2.2 a ha (hsid.trans qs)
  have hfine : ∀ c ∈ cs, FineR E x (xj • E.suite.base) ps q A d0.dealer d0.index dj.index
      (· ∈ dj.dealer.deals) c := by
    intro c hc
    cases c with
    | deals dh k vk => intro h; exact absurd h hne
    | deal dd k =>
      intro h1 v p h2 h3
      have := hD.only dd k hc h1 v p h2 h3
      rw [hq] at this
      exact (Option.some.inj this).symm
    | response r k => intro h1 h2; exact hD.honest r k hc h1 (h2.trans qs)
    | justification ju => exact hju ju hc
    | timeout => trivial
    | ownCommits k => trivial
    | commits ord sc k => trivial
    | complaint ord cc k => trivial
    | reconstruct ord rc => trivial
  have hcs' : cs = (pre ++ [QCall.deal ⟨dj.index, e⟩ vk]) ++ mid ++ post := by rw [hcs]; simp
  rw [hcs'] at hfine ⊢
  refine (fun h => ⟨h.1, q, hq, h.2⟩) (robust_core hknown i7 A (by rw [qt]; exact hA) _ mid post hfine ?_
    hD.early.2 ?_ (by rw [qs]; exact hD.answers) (by rw [qs]; exact hD.complete))
  · simp only [List.mem_append, List.mem_singleton, reduceCtorEq, or_false]
    exact hD.early.1
  · -- the deal is stored
    rw [qRun_append]
    have hev := qRun_evolves E d0 pre
    set d := qRun E d0 pre
    show ((d.processDeal E ⟨dj.index, e⟩ vk).1.verifiers.get dj.index).isSome
    have hw0 : newVerifier E.suite x (xj • E.suite.base) ps =
        .ok (freshV E.suite x (xj • E.suite.base) ps d0.index) :=
      VssR.newVerifier_ok E.suite x _ ps d0.index hnd hkey0
    obtain ⟨q', hq', hdec⟩ := decrypt_encrypted E hS hP hC (v := freshV E.suite x (xj • E.suite.base) ps d0.index)
      (by rw [g4]; exact hkey0) (by rw [g1]; rfl) (by rw [g7]; rfl) (by rw [g1]; exact hx) hk he
    rw [hq] at hq'
    cases hq'
    rcases processDeal_cases E d ⟨dj.index, e⟩ vk with hbad | ⟨_, _, _, _, _, _, _, _, h'⟩
    · by_cases hc : d.verifiers.contains dj.index
      · rcases hbad with ⟨err, h'⟩ | h' <;> rw [h'] <;> exact hc
      · exfalso
        unfold Dkg.processDeal at hbad
        simp only [hev.participants, i5, hkeyj, hc, Bool.false_eq_true, if_false, hev.long, i3, hw0] at hbad
        have hqi : q.secShare.i = d0.index := by
          rw [g9, List.getElem?_map, List.getElem?_range hi0] at hq
          cases hq; rfl
        have hqc := (dealt_check hS.base_lin hH hj q hqm).2.2
        set W : Verifier F G := freshV E.suite x (xj • E.suite.base) ps d0.index with hW
        have hok : ∃ w1 resp, W.processEncryptedDeal E e vk = (w1, .ok resp) := by
          rcases processEncryptedDeal_cases E W e vk with hb | ⟨p, hp1, hp2, hp3, hp4⟩
          · exfalso
            unfold Verifier.processEncryptedDeal at hb
            rw [hdec] at hb
            have : ¬ q.secShare.i ≠ W.index := by rw [hqi]; exact fun h => h rfl
            simp only [if_neg this] at hb
            have hag : (W.aggregatorFor q) = newAggregator ps q.commitments q.t q.sessionId := rfl
            have hvd : (newAggregator ps q.commitments q.t q.sessionId : Aggregator F G).verifyDeal E q true =
                ({ (newAggregator ps q.commitments q.t q.sessionId : Aggregator F G) with deal := some q },
                  .ok ()) := by
              unfold Aggregator.verifyDeal
              rw [if_neg (by simp [newAggregator])]
              refine Prod.ext rfl ?_
              exact hqc _ rfl qs
            have hadd : ∀ r : VssP.Response, r.index = d0.index →
                ∃ b, ({ (newAggregator ps q.commitments q.t q.sessionId : Aggregator F G) with
                  deal := some q }).addResponse r = (b, .ok ()) := by
              intro r hr
              unfold Aggregator.addResponse
              rw [hr]
              have h1 : (VssP.findPub ps d0.index).isNone = false := by
                show (ps[d0.index]?).isNone = false
                rw [hkey0]; rfl
              exact ⟨_, by
                rw [if_neg (by show ¬ (VssP.findPub ps d0.index).isNone = true; rw [h1]; simp)]
                rw [if_neg (by simp [newAggregator])]⟩
            unfold Verifier.processDeal at hb
            rw [hag, hvd] at hb
            simp only at hb
            obtain ⟨b, hb'⟩ := hadd _ (show (mkReply E W q vk true).index = d0.index from rfl)
            rcases hb with ⟨er, hb⟩ | hb
            · have h2 := congrArg Prod.snd hb
              simp only at h2
              change ((Aggregator.addResponse _ (mkReply E W q vk true)).2 >>= fun _ => _) = _ at h2
              rw [hb'] at h2
              cases h2
            · have h2 := congrArg Prod.snd hb
              simp only at h2
              change ((Aggregator.addResponse _ (mkReply E W q vk true)).2 >>= fun _ => _) = _ at h2
              rw [hb'] at h2
              cases h2
          · rw [hdec] at hp1
            cases hp1
            have hag : (W.aggregatorFor q) = newAggregator ps q.commitments q.t q.sessionId := rfl
            rw [hag] at hp4
            rcases hp4 with ⟨hpan, -⟩ | ⟨st, -, h1, h2⟩
            · have := hqc ((newAggregator ps q.commitments q.t q.sessionId : Aggregator F G).remember q)
                (remember_verifiers _ _) qs
              rw [this] at hpan; cases hpan
            · refine ⟨_, mkReply E W q vk st, Prod.ext rfl ?_⟩
              rw [h2]
              unfold Aggregator.addResponse
              have hf : (VssP.findPub ps d0.index).isNone = false := by
                show (ps[d0.index]?).isNone = false
                rw [hkey0]; rfl
              have hix : (mkReply E W q vk st).index = d0.index := rfl
              rw [hix, remember_verifiers, remember_responses]
              rw [if_neg (by show ¬ (VssP.findPub ps d0.index).isNone = true; rw [hf]; simp)]
              rw [if_neg (by simp [newAggregator])]
              rfl
        obtain ⟨w1, resp, hok⟩ := hok
        rw [hok] at hbad
        rcases hbad with ⟨err, hb⟩ | hb <;> cases congrArg Prod.snd hb
    · rw [h']
      show ((d.verifiers.insert dj.index _).get dj.index).isSome
      simp [AMap.get_insert]

/-- `deals` succeeds only with the own deal stored. -/
theorem deals_stored (E : VssR.Env F G) (d : Dkg F G) (hi : d.index < d.participants.length) (dh k : Nat → F)
    (vk : F) {out : AMap (DkgR.Deal G)} (h : (d.deals E dh k vk).2 = .ok out) :
    ((d.deals E dh k vk).1.verifiers.get d.index).isSome := by
  have hkeep : ∀ (d d' : Dkg F G) (i : Nat), Evolves E d d' → (d.verifiers.get i).isSome →
      (d'.verifiers.get i).isSome := by
    intro d d' i hev h
    obtain ⟨v, hv⟩ := Option.isSome_iff_exists.1 h
    obtain ⟨cs, -, h'⟩ := hev.kept i v hv
    rw [h']; rfl
  have key : ∀ (encs : List (EncryptedDeal G)) (l : List Nat) (d : Dkg F G) (dd : AMap (DkgR.Deal G)),
      (Dkg.dealsLoop E encs vk l d dd).2 = .ok out → d.index ∈ l →
      ((Dkg.dealsLoop E encs vk l d dd).1.verifiers.get d.index).isSome := by
    intro encs l
    induction l with
    | nil => intro d dd _ h; cases h
    | cons i l ih =>
      intro d dd h hm
      unfold Dkg.dealsLoop at h ⊢
      split at h
      · cases h
      · rename_i e he
        simp only at h ⊢
        split at h
        · rename_i hid
          rw [if_pos hid]
          split at h
          · rename_i hc
            rw [if_pos hc]
            exact hkeep d _ _ (dealsLoop_evolves E encs vk l d dd) hc
          · rename_i hc
            rw [if_neg hc]
            split at h
            · rename_i d' r hd'
              split at h
              · cases h
              · rename_i hs
                simp only [if_neg hs]
                refine hkeep d' _ _ ((approveOwn_keeps E d').toEvolves.trans
                  (dealsLoop_evolves E encs vk l _ dd)) ?_
                rcases processDeal_cases E d ⟨d.index, e⟩ vk with (⟨_, h1⟩ | h1) | ⟨_, _, _, _, _, _, _, _, h1⟩
                · rw [hd'] at h1; cases congrArg Prod.snd h1
                · rw [hd'] at h1; cases congrArg Prod.snd h1
                · rw [hd'] at h1
                  rw [(Prod.mk.inj h1).1]
                  show ((d.verifiers.insert d.index _).get d.index).isSome
                  simp [AMap.get_insert]
            · cases h
            · cases h
        · rename_i hid
          rw [if_neg hid]
          refine ih d _ h ?_
          rcases List.mem_cons.1 hm with hm | hm
          · exact absurd hm.symm hid
          · exact hm
  unfold Dkg.deals at h ⊢
  split at h
  · cases h
  · cases h
  · rename_i encs hm
    exact key encs _ d [] h (List.mem_range.2 hi)

/-- The same for the deal of the participant itself, which a successful call of `deals` processes. -/
theorem C120_own_dealer_partial (E : VssR.Env F G) (hS : E.suite.Lawful) (hP : E.prims.Lawful)
    (hH : ∀ b, Lin F (E.pickFrom b)) (x : F) (ps : List G) (hnd : ps.Nodup) (t : Nat) (secret : F)
    (fD gD : List F) (d0 : Dkg F G)
    (h0 : newDistKeyGenerator E x ps t secret fD gD = .ok d0)
    (hC : ∀ dl ∈ d0.dealer.deals, E.codec.dec (E.codec.enc dl) = some dl)
    (A : Finset Nat) (hA : t ≤ A.card) (pre mid post cs : List (QCall F G))
    (dh k : Nat → F) (vk : F) (out : AMap (DkgR.Deal G))
    (hok : ((qRun E d0 pre).deals E dh k vk).2 = .ok out)
    (hcs : cs = pre ++ (QCall.deals dh k vk :: mid) ++ post)
    (hD : DeliveredR E x x ps d0 d0 A pre mid post cs)
    (hju : ∀ ju : DkgR.Justification F G, QCall.justification ju ∈ cs → ju.index = d0.index →
      ju.justification.index ∈ A ∨ ju.justification.deal ∈ d0.dealer.deals) :
    QualifiedR (qRun E d0 cs) d0.index ∧
    ∃ q, d0.dealer.deals[d0.index]? = some q ∧ HoldsDeal (qRun E d0 cs) d0.index q := by
  obtain ⟨i1, i2, i3, i4, i5, i6, i7, -⟩ := newDistKeyGenerator_ok h0
  obtain ⟨f, g, -, -, -, -, -, hv, g1, -, -, g4, -, -, g7, g8, g9, -⟩ := VssR.newDealer_ok i2
  have hkey0 : ps[d0.index]? = some (x • E.suite.base) := by
    rw [List.findIdx?_eq_some_iff_getElem] at i1
    obtain ⟨hl, h, -⟩ := i1
    rw [List.getElem?_eq_getElem hl]
    simpa using h
  have hi0 := (List.getElem?_eq_some_iff.1 hkey0).1
  obtain ⟨q, hq⟩ : ∃ q, d0.dealer.deals[d0.index]? = some q := by
    rw [g9, List.getElem?_map, List.getElem?_range hi0]; exact ⟨_, rfl⟩
  have hqm := List.mem_of_getElem? hq
  obtain ⟨qt, qs, -⟩ := dealt_check hS.base_lin hH h0 q hqm
  have hknown : Known E x (x • E.suite.base) ps q d0.index (· ∈ d0.dealer.deals) d0 := by
    refine ⟨i3, i5, i1, hkey0, hqm, ?_, fun _ p hp => hp⟩
    intro p hp a ha hsid
    exact (dealt_check hS.base_lin hH h0 p hp).2.2 a ha (hsid.trans qs)
  have hfine : ∀ c ∈ cs, FineR E x (x • E.suite.base) ps q A d0.dealer d0.index d0.index
      (· ∈ d0.dealer.deals) c := by
    intro c hc
    cases c with
    | deals dh k vk =>
      intro _ e he v p hv hp
      rw [VssR.newVerifier_ok E.suite x _ ps d0.index hnd hkey0] at hv
      cases hv
      have := decrypt_own E hS.base_lin hP hC (by rw [g4]; exact hkey0) (by rw [g7]) he hp
      rw [hq] at this
      exact (Option.some.inj this).symm
    | deal dd k =>
      intro h1 v p h2 h3
      have := hD.only dd k hc h1 v p h2 h3
      rw [hq] at this
      exact (Option.some.inj this).symm
    | response r k => intro h1 h2; exact hD.honest r k hc h1 (h2.trans qs)
    | justification ju => exact hju ju hc
    | timeout => trivial
    | ownCommits k => trivial
    | commits ord sc k => trivial
    | complaint ord cc k => trivial
    | reconstruct ord rc => trivial
  have hcs' : cs = (pre ++ [QCall.deals dh k vk]) ++ mid ++ post := by rw [hcs]; simp
  rw [hcs'] at hfine ⊢
  refine (fun h => ⟨h.1, q, hq, h.2⟩) (robust_core hknown i7 A (by rw [qt]; exact hA) _ mid post hfine ?_
    hD.early.2 ?_ (by rw [qs]; exact hD.answers) (by rw [qs]; exact hD.complete))
  · simp only [List.mem_append, List.mem_singleton, reduceCtorEq, or_false]
    exact hD.early.1
  · rw [qRun_append]
    have hev := qRun_evolves E d0 pre
    have := deals_stored E (qRun E d0 pre) (by rw [hev.index, hev.participants, i5]; exact hi0) dh k vk hok
    rw [hev.index] at this
    exact this

end

section

variable [SMul F G]

/-- Anybody can have a dealer disqualified for good at a participant that holds a complaint about
it, such as the ones that `set_timeout` puts for those who did not answer: one justification
for that complaint with a threshold that is not allowed. It takes no signature and no session
id. -/
theorem C120_forged (E : VssR.Env F G) (x : F) (ps : List G) (t : Nat) (secret : F) (fD gD : List F)
    (d0 : Dkg F G) (h0 : newDistKeyGenerator E x ps t secret fD gD = .ok d0) (cs cs' : List (QCall F G))
    (j l : Nat) (v : Verifier F G) (a : Aggregator F G) (r : VssP.Response)
    (hv : (qRun E d0 cs).verifiers.get j = some v) (ha : v.aggregator = some a)
    (hr : a.responses.get l = some r) (hc : r.status = false)
    (ju : DkgR.Justification F G) (h1 : ju.index = j) (h2 : ju.justification.index = l)
    (h3 : ju.justification.deal.t < 2) :
    ¬ QualifiedR (qRun E d0 (cs ++ .justification ju :: cs')) j := by
  subst h1 h2
  have hst := reach_stored h0 cs hv
  obtain ⟨pub, v0, e, k, v1, resp, cs0, -, hnv, hpe, -, hrun⟩ := hst
  obtain ⟨f1, f2, -⟩ := newVerifier_fields hnv
  have hwf : Wf ps a := by
    have : v = rRun E v0 (.encDeal e k :: .unsafeSet ju.index true :: cs0) := by
      rw [hrun]
      show _ = rRun E (v0.processEncryptedDeal E e k).1 _
      rw [hpe]
    have := reachable_wf E v0 f1 _ a (by rw [← this]; exact ha)
    rw [f2] at this
    exact this
  have hbad : (a.verifyJustification E ju.justification).1.badDealer = true := by
    have hchk : ∀ b : Aggregator F G, b.checkDeal E ju.justification.deal = .err .dealInvalidThreshold := by
      intro b
      unfold Aggregator.checkDeal
      rw [if_pos]
      unfold VssP.validT
      simp only [Bool.and_eq_false_iff, decide_eq_false_iff_not, not_le]
      exact Or.inl (Or.inl h3)
    unfold Aggregator.verifyJustification
    have hl := (hwf.index _ _ hr).2
    rw [if_neg (by
      simp only [VssP.findPub, hwf.verifiers, List.getElem?_eq_getElem hl]; simp)]
    simp only [hr, hc, Bool.false_eq_true, if_false, Aggregator.verifyDeal, Bool.and_false, hchk]
  have hstep : ∃ u b, (qStep E (qRun E d0 cs) (.justification ju)).verifiers.get ju.index = some u ∧
      u.aggregator = some b ∧ b.badDealer = true := by
    refine ⟨(v.processJustification E ju.justification).1, (a.verifyJustification E ju.justification).1, ?_, ?_,
      hbad⟩
    · show (Dkg.processJustification E _ ju).1.verifiers.get ju.index = _
      unfold Dkg.processJustification
      rw [hv]
      simp [AMap.get_insert]
    · simp only [Verifier.processJustification, ha]
  obtain ⟨u, b, hu, hb, hbb⟩ := hstep
  obtain ⟨m, -, hm⟩ := (qRun_evolves E _ cs').kept ju.index u hu
  obtain ⟨b', hb', hext⟩ := rRun_ext E u m b hb
  rintro ⟨w, c, hw, hwc, hcert⟩
  have hr' : qRun E d0 (cs ++ .justification ju :: cs') =
      qRun E (qStep E (qRun E d0 cs) (.justification ju)) cs' := by simp [qRun]
  rw [hr', hm] at hw
  cases hw
  rw [hb'] at hwc
  cases hwc
  have := hext.bad hbb
  unfold Aggregator.dealCertified at hcert
  simp [this] at hcert

end

namespace DkgRabinRobustExample

open Kyber.Toy

/-- An answer of participant `l` (key `x`) to the deal of dealer 0. -/
def answer0 (x : ZMod 11) (l : Nat) (st : Bool) : DkgR.Response :=
  let r : VssP.Response := ⟨((netR envRI).D 0).dealer.sessionId, l, st, []⟩
  ⟨0, { r with signature := Schnorr.sign envRI.suite 5 x (r.hash envRI.suite) }⟩

/-- The justification of dealer 0 towards participant 2; the signature does not matter. -/
def just0 : DkgR.Justification (ZMod 11) (ZMod 11) :=
  ⟨0, ⟨[], 2, (((netR envRI).D 0).dealer.deals[2]?).getD ⟨[], ⟨0, 0⟩, ⟨0, 0⟩, 0, []⟩, []⟩⟩

/-- A justification that nobody signed. -/
def forged : DkgR.Justification (ZMod 11) (ZMod 11) := ⟨0, ⟨[], 2, ⟨[], ⟨0, 0⟩, ⟨0, 0⟩, 0, []⟩, []⟩⟩

/-- Before the deal of dealer 0 arrives: a deal of participant 2 in the name of dealer 0, a complaint that
comes too early. -/
def pre0 : List (QCall (ZMod 11) (ZMod 11)) :=
  [.deal { (netR envRI).dealMsg envRI 2 1 with index := 0 } 5, .response (answer0 2 2 false) 1]

/-- After it: a complaint of participant 2, one in the name of participant 1 under a wrong signature, the deal
again. -/
def mid0 : List (QCall (ZMod 11) (ZMod 11)) :=
  [.response (answer0 2 2 false) 1, .response (answer0 2 1 false) 1,
   .deal ((netR envRI).dealMsg envRI 0 1) 5]

def calls0 (post : List (QCall (ZMod 11) (ZMod 11))) : List (QCall (ZMod 11) (ZMod 11)) :=
  pre0 ++ (.deal ⟨0, (netR envRI).enc envRI 0 1⟩ 5 :: mid0) ++ post

theorem start (i : Nat) (hi : i < 3) : newDistKeyGenerator envRI ([3, 5, 2].getD i 1) [6, 10, 4] 2
    ([7, 1, 4].getD i 0) ([[5], [6], [9]].getD i []) ([[2, 8], [3, 7], [10, 1]].getD i []) =
      .ok ((netR envRI).D i) := by
  match i, hi with
  | 0, _ => rfl
  | 1, _ => rfl
  | 2, _ => rfl

/-- Whether a deal for participant 1 in the name of dealer 0 is refused or the dealt one. -/
def onlyDealt (dd : DkgR.Deal (ZMod 11)) : Bool :=
  match newVerifier envRI.suite (5 : ZMod 11) (6 : ZMod 11) [6, 10, 4] with
  | .ok v => match v.decryptDeal envRI dd.deal with
    | .ok q => decide (((netR envRI).D 0).dealer.deals[1]? = some q)
    | _ => true
  | _ => true

theorem onlyDealt_spec {dd : DkgR.Deal (ZMod 11)} (h : onlyDealt dd = true)
    (v : Verifier (ZMod 11) (ZMod 11)) (q : VssR.Deal (ZMod 11) (ZMod 11))
    (hn : newVerifier envRI.suite (5 : ZMod 11) ((3 : ZMod 11) • envRI.suite.base) [6, 10, 4] = .ok v)
    (hq : v.decryptDeal envRI dd.deal = .ok q) :
    ((netR envRI).D 0).dealer.deals[1]? = some q := by
  have hb : (3 : ZMod 11) • envRI.suite.base = 6 := by decide +kernel
  rw [hb] at hn
  unfold onlyDealt at h
  rw [hn] at h
  simp only [hq] at h
  exact of_decide_eq_true h

/-- Whether a response is authentic. -/
def isAuth (r : VssP.Response) : Bool :=
  match ([6, 10, 4] : List (ZMod 11))[r.index]? with
  | some P => decide (Schnorr.verify envRI.suite P (r.hash envRI.suite) r.signature = .ok ())
  | none => false

theorem isAuth_spec (r : VssP.Response) : Authentic envRI.suite [6, 10, 4] r ↔ isAuth r = true := by
  unfold Authentic isAuth
  constructor
  · rintro ⟨P, h1, h2⟩
    rw [h1]
    exact decide_eq_true h2
  · intro h
    split at h
    · rename_i P hP; exact ⟨P, hP, of_decide_eq_true h⟩
    · cases h

theorem facts : onlyDealt ((netR envRI).dealMsg envRI 0 1) = true ∧
    onlyDealt { (netR envRI).dealMsg envRI 2 1 with index := 0 } = true ∧
    isAuth (answer0 2 2 false).response = true ∧ isAuth (answer0 2 1 false).response = false ∧
    just0.justification.deal ∈ ((netR envRI).D 0).dealer.deals ∧
    ((netR envRI).D 0).index = 0 ∧ ((netR envRI).D 1).index = 1 ∧
    Schnorr.verify envRI.suite (6 : ZMod 11) (forged.justification.hash envRI) [] ≠ .ok () := by
  decide +kernel

theorem sent : ((netR envRI).D 0).dealer.encryptedDeal envRI 1 ((netR envRI).dh 0 1) ((netR envRI).k 0 1) =
    .ok ((netR envRI).enc envRI 0 1) := by
  have h : (match ((netR envRI).D 0).dealer.encryptedDeal envRI 1 ((netR envRI).dh 0 1) ((netR envRI).k 0 1) with
    | .ok _ => true | _ => false) = true := by decide +kernel
  unfold RNet.enc
  split at h
  · rename_i e he; rw [he]
  · cases h

theorem delivered (post : List (QCall (ZMod 11) (ZMod 11)))
    (h1 : ∀ dd k, .deal dd k ∉ post) (h2 : ∀ r k, .response r k ∉ post) (h3 : .timeout ∈ post) :
    DeliveredR envRI (5 : ZMod 11) 3 [6, 10, 4] ((netR envRI).D 1) ((netR envRI).D 0) {0, 1} pre0 mid0 post
      (calls0 post) where
  only dd k hm _ v q hn hq := by
    simp only [calls0, pre0, mid0, List.mem_append, List.mem_cons, List.not_mem_nil, or_false, false_or,
      reduceCtorEq, QCall.deal.injEq, h1] at hm
    rcases hm with ⟨rfl, -⟩ | ⟨rfl, -⟩ | ⟨rfl, -⟩
    · exact onlyDealt_spec facts.2.1 v q hn hq
    · exact onlyDealt_spec facts.1 v q hn hq
    · exact onlyDealt_spec facts.1 v q hn hq
  honest r k hm _ _ ha hA := by
    simp only [calls0, pre0, mid0, List.mem_append, List.mem_cons, List.not_mem_nil, or_false, false_or,
      reduceCtorEq, QCall.response.injEq, h2] at hm
    rcases hm with ⟨rfl, -⟩ | ⟨rfl, -⟩ | ⟨rfl, -⟩
    · revert hA; decide
    · revert hA; decide
    · rw [isAuth_spec, facts.2.2.2.1] at ha; cases ha
  early := by simp [pre0, mid0]
  answers l hl := by
    simp only [Finset.mem_insert, Finset.mem_singleton] at hl
    rcases hl with rfl | rfl
    · exact ⟨by decide, Or.inr (Or.inl (by decide +kernel))⟩
    · exact ⟨by decide, Or.inl (by decide +kernel)⟩
  complete := Or.inl h3

def notCert : Option (Verifier (ZMod 11) (ZMod 11)) → Bool
  | some v => !certifiedV v
  | none => false

theorem notCert_spec {o : Option (Verifier (ZMod 11) (ZMod 11))} (h : notCert o = true)
    {v : Verifier (ZMod 11) (ZMod 11)} {a : Aggregator (ZMod 11) (ZMod 11)} (hv : o = some v)
    (ha : v.aggregator = some a) (hc : a.dealCertified = true) : False := by
  subst hv
  simp [notCert, certifiedV, ha, hc] at h

/-- The answer of participant 2 to dealer 0. -/
def complained : Option (Verifier (ZMod 11) (ZMod 11)) → Bool
  | some v => match v.aggregator with
    | some a => match a.responses.get 2 with
      | some r => !r.status
      | none => false
    | none => false
  | none => false

theorem complained_spec {o : Option (Verifier (ZMod 11) (ZMod 11))} (h : complained o = true) :
    ∃ v a r, o = some v ∧ v.aggregator = some a ∧ a.responses.get 2 = some r ∧ r.status = false := by
  unfold complained at h
  split at h
  · rename_i v
    split at h
    · rename_i a ha
      split at h
      · rename_i r hr
        exact ⟨v, a, r, rfl, ha, hr, by simpa using h⟩
      · cases h
    · cases h
  · cases h

/-- Without the forged message dealer 0 is in, with or without its justification; with it it is out. -/
theorem quals : (qRun envRI ((netR envRI).D 1) (calls0 [.timeout])).qual MapOrder.id = [0] ∧
    (qRun envRI ((netR envRI).D 1) (calls0 [.timeout, .justification just0])).qual MapOrder.id = [0] ∧
    (qRun envRI ((netR envRI).D 1) (calls0 [.timeout, .justification forged])).qual MapOrder.id = [] ∧
    notCert ((qRun envRI ((netR envRI).D 1) (calls0 [.timeout, .justification forged])).verifiers.get 0) = true ∧
    complained ((qRun envRI ((netR envRI).D 1) (calls0 [.timeout])).verifiers.get 0) = true := by
  decide +kernel

end DkgRabinRobustExample

open DkgRabinRobustExample Toy in
/-- C120 does not hold: a justification that nobody signed keeps a correct dealer out. -/
theorem C120_violated : ¬ C120_statement := by
  intro h
  obtain ⟨f1, f2, f3, f4, f5, f6, f7, f8⟩ := facts
  have hb : (3 : ZMod 11) • envRI.suite.base = 6 := by decide +kernel
  obtain ⟨v, a, hv, ha, hc⟩ := h (ZMod 11) (ZMod 11) _ _ _ _ envRI envRI_lawful prims_lawful
    (fun _ => ⟨fun a b => add_smul a b _, fun a b => mul_smul a b _⟩) (fun _ _ h => h) 5 3
    [6, 10, 4] (by decide +kernel) 2 1 7 [6] [3, 7] [5] [2, 8] ((netR envRI).D 1) ((netR envRI).D 0)
    (start 1 (by decide)) (start 0 (by decide)) (by rw [f6, f7]; decide)
    ⟨by decide +kernel, by decide +kernel⟩ (fun dl _ => codecR_lawful dl) {0, 1} (by decide) pre0 mid0
    [.timeout, .justification forged] (calls0 [.timeout, .justification forged])
    ((netR envRI).dh 0 1) ((netR envRI).k 0 1) 5 ((netR envRI).enc envRI 0 1)
    ⟨by decide +kernel, by decide +kernel⟩ (by rw [f7]; exact sent) (by rw [f6]; rfl)
    (delivered _ (by simp) (by simp) (by simp))
    (by
      intro ju hm _ hs
      simp only [calls0, pre0, mid0, List.mem_append, List.mem_cons, List.not_mem_nil, or_false, false_or,
        reduceCtorEq, QCall.justification.injEq] at hm
      subst hm
      rw [hb] at hs
      exact absurd hs f8)
  rw [f6] at hv
  exact notCert_spec quals.2.2.2.1 hv ha hc

open DkgRabinRobustExample Toy in
/-- Three participants, threshold 2: participant 2 complains about dealer 0 without reason, twice, sends a deal
in the name of dealer 0 and a complaint in the name of participant 1; dealer 0 is qualified at
participant 1 after the timeout, and stays so when its justification arrives. -/
example : QualifiedR (qRun envRI ((netR envRI).D 1) (calls0 [.timeout, .justification just0])) 0 := by
  obtain ⟨f1, f2, f3, f4, f5, f6, f7, f8⟩ := facts
  have := (C120_honest_dealer_partial envRI envRI_lawful prims_lawful
    (fun _ => ⟨fun a b => add_smul a b _, fun a b => mul_smul a b _⟩) 5 3
    [6, 10, 4] (by decide +kernel) 2 1 7 [6] [3, 7] [5] [2, 8] ((netR envRI).D 1) ((netR envRI).D 0)
    (start 1 (by decide)) (start 0 (by decide)) (by rw [f6, f7]; decide)
    ⟨by decide +kernel, by decide +kernel⟩ (fun dl _ => codecR_lawful dl) {0, 1} (by decide) pre0 mid0
    [.timeout, .justification just0] (calls0 [.timeout, .justification just0])
    ((netR envRI).dh 0 1) ((netR envRI).k 0 1) 5 ((netR envRI).enc envRI 0 1)
    ⟨by decide +kernel, by decide +kernel⟩ (by rw [f7]; exact sent) (by rw [f6]; rfl)
    (delivered _ (by simp) (by simp) (by simp))
    (by
      intro ju hm _
      simp only [calls0, pre0, mid0, List.mem_append, List.mem_cons, List.not_mem_nil, or_false, false_or,
        reduceCtorEq, QCall.justification.injEq] at hm
      subst hm
      exact Or.inr f5)).1
  rw [f6] at this
  exact this

open DkgRabinRobustExample Toy in
/-- The same dealer is out for good after the forged message, whatever comes later. -/
example (cs' : List (QCall (ZMod 11) (ZMod 11))) :
    ¬ QualifiedR (qRun envRI ((netR envRI).D 1) (calls0 [.timeout] ++ .justification forged :: cs')) 0 := by
  obtain ⟨v, a, r, hv, ha, hr, hc⟩ := complained_spec quals.2.2.2.2
  exact C120_forged envRI 5 [6, 10, 4] 2 1 [6] [3, 7] _ (start 1 (by decide)) _ cs' 0 2 v a r hv ha hr
    hc forged rfl rfl (by decide)

open DkgRabinRobustExample Toy in
/-- `C120_own_dealer_partial`: participant 0 sends its deals, participant 1 approves, participant 2 complains. -/
example : QualifiedR (qRun envRI ((netR envRI).D 0) ([.deals ((netR envRI).dh 0) ((netR envRI).k 0) 5,
    .response (answer0 5 1 true) 1, .response (answer0 2 2 false) 1, .timeout])) 0 := by
  have hidx : ((netR envRI).D 0).index = 0 := by decide +kernel
  have hok : ∃ out, (((netR envRI).D 0).deals envRI ((netR envRI).dh 0) ((netR envRI).k 0) 5).2 = .ok out := by
    have h : (match (((netR envRI).D 0).deals envRI ((netR envRI).dh 0) ((netR envRI).k 0) 5).2 with
      | .ok _ => true | _ => false) = true := by decide +kernel
    split at h
    · rename_i e he; exact ⟨e, he⟩
    · cases h
  obtain ⟨out, hok⟩ := hok
  have := (C120_own_dealer_partial envRI envRI_lawful prims_lawful
    (fun _ => ⟨fun a b => add_smul a b _, fun a b => mul_smul a b _⟩) 3
    [6, 10, 4] (by decide +kernel) 2 7 [5] [2, 8] ((netR envRI).D 0) (start 0 (by decide))
    (fun dl _ => codecR_lawful dl) {0, 1} (by decide) []
    [.response (answer0 5 1 true) 1, .response (answer0 2 2 false) 1] [.timeout] _ ((netR envRI).dh 0)
    ((netR envRI).k 0) 5 out hok rfl
    { only := fun dd k hm => by simp at hm
      honest := fun r k hm _ _ _ hA => by
        simp only [List.mem_append, List.mem_cons, List.not_mem_nil, or_false, false_or, reduceCtorEq,
          QCall.response.injEq] at hm
        rcases hm with ⟨rfl, -⟩ | ⟨rfl, -⟩
        · rfl
        · revert hA; decide
      early := by simp
      answers := fun l hl => by
        simp only [Finset.mem_insert, Finset.mem_singleton] at hl
        rcases hl with rfl | rfl
        · exact ⟨by decide, Or.inl hidx.symm⟩
        · exact ⟨by decide, Or.inr (Or.inr ⟨answer0 5 1 true, 1, by simp, hidx.symm, rfl, rfl,
            (isAuth_spec _).2 (by decide +kernel)⟩)⟩
      complete := Or.inl (by simp) }
    (fun ju hm _ => by simp at hm)).1
  rw [hidx] at this
  exact this

end Kyber.Props
