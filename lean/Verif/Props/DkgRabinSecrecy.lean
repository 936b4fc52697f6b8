/-
C132: what fewer than `t` participants of the Rabin DKG (`src/share/dkg/rabin/dkg.rs`) know before the
commitments are revealed.
-/
import Verif.Props.DkgRabinHonest
import Verif.Props.VssRabin

set_option linter.unusedSectionVars false

namespace Kyber.Spec

open Kyber.Poly Kyber.VssR Kyber.DkgR

variable {F G : Type} [Field F] [AddCommGroup G] [SMul F G] [DecidableEq G]

/-- The deals of every honest group of `n` participants are read back from their binary form. -/
def RNet.ReadsBack (E : Env F G) (n : Nat) : Prop :=
  ∀ N : RNet F G, N.Honest E → N.n = n → ∀ j < n, ∀ dl ∈ (N.D j).dealer.deals, E.codec.dec (E.codec.enc dl) = some dl

/-- Participant `j` chose another secret and other random coefficients. -/
def RNet.choose (N : RNet F G) (j : Nat) (s : F) (f g : List F) (d : Dkg F G) : RNet F G :=
  { N with
    sec := fun l => if l = j then s else N.sec l
    fD := fun l => if l = j then f else N.fD l
    gD := fun l => if l = j then g else N.gD l
    D := fun l => if l = j then d else N.D l }

/-- What a dealer answers to a sequence of responses; each comes with the nonce for the answer. -/
def dealerAnswers (E : Env F G) : Dealer F G → List (VssP.Response × F) →
    List (Res VssP.VssError (Option (VssR.Justification F G)))
  | _, [] => []
  | d, r :: rs => (d.processResponse E r.1 r.2).2 :: dealerAnswers E (d.processResponse E r.1 r.2).1 rs

/-- What the members of `coalition` see before `j` reveals its commitments is the same in both groups. -/
structure RNet.SameView (E : Env F G) (coalition : Finset Nat) (j : Nat) (N N' : RNet F G) : Prop where
  /-- the same participants with the same keys, threshold and nonces -/
  setup : N'.n = N.n ∧ N'.t = N.t ∧ N'.x = N.x ∧ N'.dh = N.dh ∧ N'.k = N.k ∧ N'.vk = N.vk ∧ N'.ck = N.ck
  /-- everybody but `j` starts in the same state -/
  others : ∀ l ≠ j, N'.D l = N.D l
  /-- the deals for the members are the same, byte for byte -/
  deals : ∀ l, ∀ i ∈ coalition, N'.dealMsg E l i = N.dealMsg E l i
  responses : ∀ l i, N'.respMsg E l i = N.respMsg E l i
  /-- also the commitments that the others reveal -/
  commits : ∀ l ≠ j, N'.commitMsg E l = N.commitMsg E l
  /-- the answers of `j` to any responses, as long as only members complain -/
  answers : ∀ rs : List (VssP.Response × F), (∀ r ∈ rs, r.1.status = false → r.1.index ∈ coalition) →
    dealerAnswers E (N'.D j).dealer rs = dealerAnswers E (N.D j).dealer rs
  /-- the calls at the members and the states they reach, in any order of the messages -/
  runs : ∀ (z : F) (ord : MapOrder) (i : Nat), i ∈ coalition → ∀ msgs : List RMsg, RMsg.commits j ∉ msgs →
    msgs.map (RMsg.call E N' z ord i) = msgs.map (RMsg.call E N z ord i) ∧
    qRun E (N'.D i) (msgs.map (RMsg.call E N' z ord i)) = qRun E (N.D i) (msgs.map (RMsg.call E N z ord i))
  /-- the shares of the members at the end -/
  shares : ∀ i ∈ coalition, i < N.n → ∑ l ∈ Finset.range N.n, polyVal (N'.poly l) ((i + 1 : Nat) : F) =
    ∑ l ∈ Finset.range N.n, polyVal (N.poly l) ((i + 1 : Nat) : F)

end Kyber.Spec

namespace Kyber.Props

open Kyber Kyber.Poly Kyber.Spec Kyber.VssR Kyber.DkgR

variable {F G : Type} [Field F] [AddCommGroup G] [DecidableEq G]

section

variable [SMul F G]

/-- What the dealer answers to a response depends on its deal for the sender of the response, and not on its
deals for others. -/
theorem processResponse_congr (E : Env F G) (d d' : Dealer F G) (r : VssP.Response) (k : F) (hl : d'.long = d.long)
    (ha : d'.aggregator = d.aggregator) (hs : d'.sessionId = d.sessionId)
    (hd : r.status = false → d'.deals[r.index]? = d.deals[r.index]?) :
    (d'.processResponse E r k).2 = (d.processResponse E r k).2 ∧
    (d'.processResponse E r k).1.aggregator = (d.processResponse E r k).1.aggregator ∧
    (d'.processResponse E r k).1 = { d' with aggregator := (d'.processResponse E r k).1.aggregator } ∧
    (d.processResponse E r k).1 = { d with aggregator := (d.processResponse E r k).1.aggregator } := by
  unfold Dealer.processResponse
  rw [ha]
  simp only
  rcases h : d.aggregator.verifyResponse E.suite r with ⟨agg, res⟩
  rcases res with u | e | _
  · cases hst : r.status
    · rw [hd hst]
      cases d.deals[r.index]? <;> simp [hl, hs]
    · simp
  · simp
  · simp

/-- C132: the answers of two dealers with the same session and the same deals for the members of the coalition
are the same, whatever responses arrive in whatever order, as long as no one else complains. -/
theorem C132_answers (E : Env F G) (coalition : Finset Nat) (rs : List (VssP.Response × F))
    (hrs : ∀ r ∈ rs, r.1.status = false → r.1.index ∈ coalition) (d d' : Dealer F G) (hl : d'.long = d.long)
    (ha : d'.aggregator = d.aggregator) (hs : d'.sessionId = d.sessionId)
    (hd : ∀ i ∈ coalition, d'.deals[i]? = d.deals[i]?) :
    dealerAnswers E d' rs = dealerAnswers E d rs := by
  induction rs generalizing d d' with
  | nil => rfl
  | cons r rs ih =>
    obtain ⟨h1, h2, h3, h4⟩ := processResponse_congr E d d' r.1 r.2 hl ha hs
      (fun h => hd _ (hrs r (List.mem_cons_self ..) h))
    unfold dealerAnswers
    rw [h1, ih (fun r' hr' => hrs r' (List.mem_cons_of_mem _ hr')) (d.processResponse E r.1 r.2).1
      (d'.processResponse E r.1 r.2).1 (by rw [h3, h4]; exact hl) h2 (by rw [h3, h4]; exact hs)
      (by rw [h3, h4]; exact hd)]

/-- The encrypted deal for a participant depends on the deal for this participant alone. -/
theorem encryptedDeal_congr (E : Env F G) (d d' : Dealer F G) (i : Nat) (dh k : F) (hl : d'.long = d.long)
    (hv : d'.verifiers = d.verifiers) (hc : d'.hkdfContext = d.hkdfContext) (hd : d'.deals[i]? = d.deals[i]?) :
    d'.encryptedDeal E i dh k = d.encryptedDeal E i dh k := by
  unfold Dealer.encryptedDeal
  rw [hl, hv, hc, hd]

end

section

variable [DistribSMul F G]

/-- Another choice of `j` with the same session, the same aggregator and the same deals for the coalition is not
noticed. -/
theorem sameView_choose (E : Env F G) (N : RNet F G) (h : N.Honest E) (coalition : Finset Nat) (j : Nat)
    (hj : j < N.n) (hjc : j ∉ coalition) (s : F) (f g : List F) (dj : Dkg F G)
    (hN : (N.choose j s f g dj).Honest E) (hsid : dj.dealer.sessionId = (N.D j).dealer.sessionId)
    (hagg : dj.dealer.aggregator = (N.D j).dealer.aggregator)
    (hdeals : ∀ i ∈ coalition, dj.dealer.deals[i]? = (N.D j).dealer.deals[i]?) :
    RNet.SameView E coalition j N (N.choose j s f g dj) := by
  set N' := N.choose j s f g dj with hN'
  have hDj : N'.D j = dj := if_pos rfl
  have hD : ∀ l ≠ j, N'.D l = N.D l := fun l hl => if_neg hl
  have hst' := hN.start j hj
  rw [hDj] at hst'
  obtain ⟨-, -, -, -, -, -, -, -, e1, -, -, e2, -, -, e3, -⟩ :=
    VssR.newDealer_ok (newDistKeyGenerator_ok (h.start j hj)).2.1
  obtain ⟨-, -, -, -, -, -, -, -, e1', -, -, e2', -, -, e3', -⟩ := VssR.newDealer_ok (newDistKeyGenerator_ok hst').2.1
  have hp : N'.pubs E = N.pubs E := rfl
  have hx : N'.x = N.x := rfl
  rw [hx] at e1' e3'
  rw [hp] at e2' e3'
  have hdm : ∀ l, ∀ i ∈ coalition, N'.dealMsg E l i = N.dealMsg E l i := by
    intro l i hi
    unfold RNet.dealMsg RNet.enc
    by_cases hl : l = j
    · subst hl
      rw [hDj, encryptedDeal_congr E (N.D l).dealer dj.dealer i _ _ (by rw [e1, e1']) (by rw [e2, e2'])
        (by rw [e3, e3']) (hdeals i hi)]
      rfl
    · rw [hD l hl]
      rfl
  have hsids : ∀ l, (N'.D l).dealer.sessionId = (N.D l).dealer.sessionId := by
    intro l
    by_cases hl : l = j
    · subst hl
      rw [hDj]
      exact hsid
    · rw [hD l hl]
  have hrm : ∀ l i, N'.respMsg E l i = N.respMsg E l i := by
    intro l i
    unfold RNet.respMsg
    rw [hsids]
    rfl
  have hcm : ∀ l ≠ j, N'.commitMsg E l = N.commitMsg E l := by
    intro l hl
    unfold RNet.commitMsg RNet.poly
    rw [hsids]
    simp only [hN', RNet.choose, if_neg hl]
  refine ⟨⟨rfl, rfl, rfl, rfl, rfl, rfl, rfl⟩, hD, hdm, hrm, hcm, ?_, ?_, ?_⟩
  · intro rs hrs
    rw [hDj]
    exact C132_answers E coalition rs hrs _ dj.dealer (by rw [e1, e1']) hagg hsid hdeals
  · intro z ord i hi msgs hm
    have hij : i ≠ j := fun e => hjc (e ▸ hi)
    have hcall : msgs.map (RMsg.call E N' z ord i) = msgs.map (RMsg.call E N z ord i) := by
      refine List.map_congr_left (fun m hmm => ?_)
      cases m with
      | deals => rfl
      | deal l => exact congrArg (fun x => QCall.deal x (N.vk i l)) (hdm l i hi)
      | resp l m => exact congrArg (fun x => QCall.response x z) (hrm l m)
      | timeout => rfl
      | ownCommits => rfl
      | commits l =>
        exact congrArg (fun x => QCall.commits ord x z) (hcm l (fun e => hm (e ▸ hmm)))
    exact ⟨hcall, by rw [hcall, hD i hij]⟩
  · intro i hi hin
    refine Finset.sum_congr rfl (fun l hl => ?_)
    by_cases hlj : l = j
    · subst hlj
      have h1 := (honest_dealer h hj).deals i hin
      have h2 := (honest_dealer hN hj).deals i hin
      have h3 : (N'.D l).dealer.deals[i]? = (N.D l).dealer.deals[i]? := by rw [hDj]; exact hdeals i hi
      rw [h3, h1] at h2
      have h4 := congrArg (fun o => o.map (fun dl : VssR.Deal F G => dl.secShare.v)) h2
      simpa [RNet.plain, eval_v] using h4.symm
    · unfold RNet.poly
      simp only [hN', RNet.choose, if_neg hlj]

/-- C132: in an honest run of the Rabin DKG let fewer than `t` participants put together all they know before
participant `j`, who is not one of them, reveals its commitments. For every value `a` there is a run in which
only `j` made another choice, which looks the same to the coalition, and in which the distributed secret is
`a`. -/
theorem C132_hidden (q : Nat) [CharP F q] (E : Env F G) (hS : E.suite.Lawful) (N : RNet F G) (h : N.Honest E)
    (w : F) (hw : w ≠ 0) (hH : deriveH E (N.pubs E) = w • E.suite.base)
    (coalition : Finset Nat) (hq : ∀ i ∈ coalition, i + 1 < q) (hcard : coalition.card < N.t)
    (j : Nat) (hj : j < N.n) (hjc : j ∉ coalition) (a : F) :
    ∃ (s : F) (f g : List F) (dj : Dkg F G),
      let N' := N.choose j s f g dj
      N'.Honest E ∧ ∑ l ∈ Finset.range N'.n, N'.sec l = a ∧ RNet.SameView E coalition j N N' := by
  obtain ⟨hfi, hdl, h3, h4, h5, h6, h7, h8, h9, h10⟩ := newDistKeyGenerator_ok (h.start j hj)
  obtain ⟨f', g', d', hd', hsid, hagg, hdeals⟩ := C30_view_hides_secret q E hS.base_lin (N.x j) (N.sec j) (N.pubs E)
    N.t (N.fD j) (N.gD j) (N.D j).dealer hdl w hw hH coalition hq hcard
    (a - ∑ l ∈ (Finset.range N.n).erase j, N.sec l)
  have hdj : newDistKeyGenerator E (N.x j) (N.pubs E) N.t (a - ∑ l ∈ (Finset.range N.n).erase j, N.sec l) f' g' =
      .ok { N.D j with dealer := d' } := by
    unfold newDistKeyGenerator
    simp only [hfi, hd', Res.mapErr_ok, Res.bind_ok]
    rw [← h4, ← h3, ← h5, ← h6, h7, h8, h9, h10]
  refine ⟨a - ∑ l ∈ (Finset.range N.n).erase j, N.sec l, f', g', { N.D j with dealer := d' }, ?_⟩
  intro N'
  have hN : N'.Honest E := by
    refine ⟨h.nodup, h.x, h.k, h.vk, h.ck, ?_⟩
    intro i hi
    by_cases hij : i = j
    · subst hij
      simp only [N', RNet.choose, if_pos]
      exact hdj
    · simp only [N', RNet.choose, if_neg hij]
      exact h.start i hi
  refine ⟨hN, ?_, sameView_choose E N h coalition j hj hjc _ f' g' _ hN hsid hagg hdeals⟩
  have hj' : j ∈ Finset.range N'.n := Finset.mem_range.2 hj
  rw [← Finset.add_sum_erase _ _ hj']
  simp only [N', RNet.choose, if_pos]
  rw [Finset.sum_congr rfl (g := N.sec) (fun l hl => if_neg (Finset.ne_of_mem_erase hl))]
  ring

/-- C132: in particular any key can still come out: for every `a` the view of the coalition before `j` reveals
its commitments is that of a run at whose end every participant holds the key `a • B`. -/
theorem C132_any_key (q : Nat) [CharP F q] (E : Env F G) (hS : E.suite.Lawful) (hP : E.prims.Lawful)
    (hL : ∀ b, Lin F (E.pickFrom b)) (hO : PrimsOkR E) (N : RNet F G) (h : N.Honest E) (hC : RNet.ReadsBack E N.n) (hn : N.n ≤ q)
    (w : F) (hw : w ≠ 0) (hH : deriveH E (N.pubs E) = w • E.suite.base)
    (coalition : Finset Nat) (hq : ∀ i ∈ coalition, i + 1 < q) (hcard : coalition.card < N.t)
    (j : Nat) (hj : j < N.n) (hjc : j ∉ coalition) (a : F) :
    ∃ N' : RNet F G, N'.Honest E ∧ N'.n = N.n ∧
      (∀ (z : F) (ord : MapOrder) (i : Nat), i ∈ coalition → ∀ msgs : List RMsg, RMsg.commits j ∉ msgs →
        msgs.map (RMsg.call E N' z ord i) = msgs.map (RMsg.call E N z ord i) ∧
        qRun E (N'.D i) (msgs.map (RMsg.call E N' z ord i)) = qRun E (N.D i) (msgs.map (RMsg.call E N z ord i))) ∧
      (∀ (z : F) (ord ord' : MapOrder) (i : Nat) (msgs : List RMsg), i < N.n → RSchedule N.n i msgs →
        RComplete N.n i msgs → ∃ k,
        (qRun E (N'.D i) (msgs.map (RMsg.call E N' z ord i))).distKeyShare ord' = .ok k ∧
        k.commits.head? = some (a • E.suite.base)) := by
  obtain ⟨s, f, g, dj, hN, hsum, hview⟩ := C132_hidden q E hS N h w hw hH coalition hq hcard j hj hjc a
  refine ⟨N.choose j s f g dj, hN, rfl, hview.runs, fun z ord ord' i msgs hi hs hc => ?_⟩
  refine ⟨_, ((C39_honest_run E hS hP hL hO _ hN (hC _ hN rfl) z ord i hi msgs hs).2 hc ord').2, ?_⟩
  rw [← hsum]
  exact (C39_honest_recover q E.suite ord (N.choose j s f g dj)
    (show 0 < N.t from by have := (honest_dealer h hj).valid.1; omega) hn (List.range N.n)
    (fun i hi => List.mem_range.1 hi) (by
      rw [List.toFinset_range, Finset.card_range]
      exact (honest_dealer h hj).valid.2)).2

end

namespace DkgRSecrecy

open Kyber.Toy

/-- Participant 0 of `netR` with the secret 0 instead of 7. -/
def netAlt : RNet (ZMod 11) (ZMod 11) :=
  (netR envR).choose 0 0 [3] [7, 0] (getDkgR (newDistKeyGenerator envR 3 [6, 10, 4] 2 0 [3] [7, 0]))

/-- A case for `C132_hidden`: the deal for participant 1 and the session are the same, the deal for participant
2, the commitments and the distributed secret are not. -/
example : (netAlt.D 0).dealer.sessionId = ((netR envR).D 0).dealer.sessionId ∧
    (netAlt.D 0).dealer.deals[1]? = ((netR envR).D 0).dealer.deals[1]? ∧
    netAlt.dealMsg envR 0 1 = (netR envR).dealMsg envR 0 1 ∧
    (netAlt.D 0).dealer.deals[2]? ≠ ((netR envR).D 0).dealer.deals[2]? ∧
    (netAlt.commitMsg envR 0).commitments ≠ ((netR envR).commitMsg envR 0).commitments ∧
    ∑ l ∈ Finset.range 3, netAlt.sec l = 5 ∧ ∑ l ∈ Finset.range 3, (netR envR).sec l = 1 :=
  ⟨by decide +kernel, by decide +kernel, by rfl, by decide +kernel, by decide +kernel, by decide +kernel, by decide +kernel⟩

/-- A case for `C132_answers`: participant 1 complains, and an approval of participant 2 follows. -/
example : ∀ rs : List (VssP.Response × ZMod 11), rs = [(⟨((netR envR).D 0).dealer.sessionId, 1, false, [1, 2]⟩, 4),
      (⟨((netR envR).D 0).dealer.sessionId, 2, true, [1, 2]⟩, 4)] →
    dealerAnswers envR (netAlt.D 0).dealer rs = dealerAnswers envR ((netR envR).D 0).dealer rs := by
  rintro _ rfl
  exact C132_answers envR {1} _ (by decide +kernel) _ _ (by decide +kernel) (by rfl) (by decide +kernel)
    (by decide +kernel)

/-- The hypotheses of `C132_hidden` and `C132_any_key` hold in `netR` with participant 1 as the coalition;
every key of the group is still possible. -/
example (a : ZMod 11) :
    ∃ N' : RNet (ZMod 11) (ZMod 11), N'.Honest envR ∧ N'.n = 3 ∧
      (∀ (z : ZMod 11) (ord : MapOrder) (i : Nat), i ∈ ({1} : Finset Nat) → ∀ msgs : List RMsg, RMsg.commits 0 ∉ msgs →
        msgs.map (RMsg.call envR N' z ord i) = msgs.map (RMsg.call envR (netR envR) z ord i) ∧
        qRun envR (N'.D i) (msgs.map (RMsg.call envR N' z ord i)) =
          qRun envR ((netR envR).D i) (msgs.map (RMsg.call envR (netR envR) z ord i))) ∧
      (∀ (z : ZMod 11) (ord ord' : MapOrder) (i : Nat) (msgs : List RMsg), i < 3 → RSchedule 3 i msgs →
        RComplete 3 i msgs → ∃ k,
        (qRun envR (N'.D i) (msgs.map (RMsg.call envR N' z ord i))).distKeyShare ord' = .ok k ∧
        k.commits.head? = some (a • envR.suite.base)) :=
  C132_any_key 11 envR lawful prims_lawful (fun _ => ⟨fun a b => add_smul a b _, fun a b => mul_smul a b _⟩)
    ⟨fun _ _ => rfl, fun _ _ _ _ => rfl⟩ (netR envR) DkgRExample.netR_honest (fun _ _ _ _ _ dl _ => codecR_lawful dl)
    (by decide) 8 (by decide) (by decide +kernel) {1} (by decide) (by decide) 0 (by decide) (by decide) a

end DkgRSecrecy

end Kyber.Props
