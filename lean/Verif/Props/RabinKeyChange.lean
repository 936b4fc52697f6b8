/-
C157: a participant of the Rabin DKG that obtained its key keeps it through the second phase.
-/
import Verif.Props.DkgRabinViol
import Verif.Props.DkgRabinHonest

set_option linter.unusedSectionVars false

namespace Kyber.Props

open Kyber Kyber.Poly Kyber.Spec Kyber.VssR Kyber.DkgR

variable {F G : Type} [Field F] [AddCommGroup G] [DecidableEq G]

/-- The calls of the second phase that accuse nobody. -/
def Reveals : QCall F G → Prop
  | .commits _ _ _ => True
  | .reconstruct _ _ => True
  | _ => False

/-- The calls of the second phase. -/
def SecondPhase : QCall F G → Prop
  | .ownCommits _ => True
  | .commits _ _ _ => True
  | .complaint _ _ _ => True
  | .reconstruct _ _ => True
  | _ => False

/-- C157, the intended property: a participant that obtained its key obtains the same one after any commitments and
reconstruction messages that come later. -/
def C157_statement : Prop :=
  ∀ (F G : Type) (_ : Field F) (_ : AddCommGroup G) (_ : Module F G) (_ : DecidableEq G)
    (E : Env F G) (_ : E.suite.Lawful) (_ : E.prims.Lawful) (_ : Function.Injective E.suite.hash)
    (_ : ∀ d, E.codec.dec (E.codec.enc d) = some d)
    (x : F) (pubs : List G) (_ : pubs.Nodup) (t : Nat) (secret : F) (fD gD : List F) (d0 : Dkg F G)
    (_ : newDistKeyGenerator E x pubs t secret fD gD = .ok d0) (cs cs' : List (QCall F G))
    (ord ord' : MapOrder) (k : DistKeyShare F G), (∀ c ∈ cs', Reveals c) →
    (qRun E d0 cs).distKeyShare ord = .ok k → (qRun E d0 (cs ++ cs')).distKeyShare ord' = .ok k

section

variable [SMul F G]

namespace RabinKeyChange

theorem run_append (E : Env F G) (d0 : Dkg F G) (cs cs' : List (QCall F G)) :
    qRun E d0 (cs ++ cs') = qRun E (qRun E d0 cs) cs' := by
  unfold qRun; rw [List.foldl_append]

theorem certified_remember (a : Aggregator F G) (dl : VssR.Deal F G) :
    (a.remember dl).dealCertified = a.dealCertified := by
  unfold Aggregator.dealCertified Aggregator.enoughApprovals
  rw [remember_responses, remember_bad, remember_verifiers, remember_t]

/-- The state keeps the qualified dealers and the deals. -/
structure Same (d d' : Dkg F G) : Prop where
  qual : ∀ i, QualifiedR d' i ↔ QualifiedR d i
  deal : ∀ i dl, HoldsDeal d i dl → HoldsDeal d' i dl

theorem Same.of_eq {d d' : Dkg F G} (h : d'.verifiers = d.verifiers) : Same d d' :=
  ⟨fun i => by unfold QualifiedR; rw [h], fun i dl hd => by unfold HoldsDeal at *; rw [h]; exact hd⟩

theorem Same.trans {a b c : Dkg F G} (h : Same a b) (h' : Same b c) : Same a c :=
  ⟨fun i => (h'.qual i).trans (h.qual i), fun i dl hd => h'.deal i dl (h.deal i dl hd)⟩

/-- A complaint checks its deal, and that check remembers the deal if there was none. -/
theorem same_afterCheck (E : Env F G) (d : Dkg F G) (cc : ComplaintCommits F G) (v : Verifier F G)
    (hv : d.verifiers.get cc.dealerIndex = some v) : Same d (afterCheck E d cc v) := by
  have hg : ∀ i, (afterCheck E d cc v).verifiers.get i =
      if i = cc.dealerIndex then some (rStep E v (.verifyDeal cc.deal false)) else d.verifiers.get i :=
    fun i => AMap.get_insert _ _ _ _
  have hr : ∀ a, v.aggregator = some a →
      (rStep E v (.verifyDeal cc.deal false)).aggregator = some (a.remember cc.deal) := by
    intro a ha
    show (v.onAggregator _).aggregator = _
    unfold Verifier.onAggregator
    simp [ha, Aggregator.verifyDeal]
  have hr' : v.aggregator = none → (rStep E v (.verifyDeal cc.deal false)).aggregator = none := by
    intro ha
    show (v.onAggregator _).aggregator = _
    unfold Verifier.onAggregator
    simp [ha]
  constructor
  · intro i
    unfold QualifiedR
    rw [hg]
    by_cases hi : i = cc.dealerIndex
    · rw [if_pos hi, hi, hv]
      constructor
      · rintro ⟨w, a, hw, ha, hc⟩
        cases hw
        cases hva : v.aggregator with
        | none => rw [hr' hva] at ha; cases ha
        | some b =>
          rw [hr b hva] at ha; cases ha
          exact ⟨v, b, rfl, hva, by rw [certified_remember] at hc; exact hc⟩
      · rintro ⟨w, a, hw, ha, hc⟩
        cases hw
        exact ⟨_, _, rfl, hr a ha, by rw [certified_remember]; exact hc⟩
    · rw [if_neg hi]
  · rintro i dl ⟨w, a, hw, ha, hd⟩
    by_cases hi : i = cc.dealerIndex
    · rw [hi, hv] at hw; cases hw
      refine ⟨_, _, by rw [hg, if_pos hi], hr a ha, ?_⟩
      unfold Aggregator.remember
      rw [hd]
      exact hd
    · exact ⟨w, a, by rw [hg, if_neg hi]; exact hw, ha, hd⟩

theorem same_step (E : Env F G) (d : Dkg F G) (c : QCall F G) (hc : SecondPhase c) : Same d (qStep E d c) := by
  cases c with
  | ownCommits k =>
    refine Same.of_eq ?_
    show (d.secretCommits E.suite k).1.verifiers = _
    unfold Dkg.secretCommits
    split
    · rfl
    · split <;> rfl
  | commits ord sc k =>
    refine Same.of_eq ?_
    show (d.processSecretCommits E ord sc k).1.verifiers = _
    rcases processSecretCommits_cases E ord d sc k with ⟨h, -⟩ | ⟨_, _, _, -, -, -, -, -, -, -, h⟩ <;> rw [h]
  | complaint ord cc k =>
    rcases processComplaintCommits_cases E ord d cc k with ⟨h1 | ⟨v, hv, h1⟩, -⟩ |
      ⟨issuer, v, a, p, deal, -, -, -, h4, -, -, -, -, -, rc', -, -, -, -, -, e5⟩
    · exact Same.of_eq (congrArg (·.verifiers) h1)
    · exact (same_afterCheck E d cc v hv).trans (Same.of_eq (congrArg (·.verifiers) h1))
    · exact (same_afterCheck E d cc v h4).trans
        (Same.of_eq (congrArg (fun r => (Prod.fst r).verifiers) e5))
  | reconstruct ord rc =>
    refine Same.of_eq ?_
    show (d.processReconstructCommits E ord rc).1.verifiers = _
    rcases processReconstructCommits_cases E ord d rc with (h | ⟨arr, h, -⟩) |
      ⟨_, _, _, -, -, -, -, -, -, -, -, h⟩ <;> rw [h]
  | _ => cases hc

theorem same_run (E : Env F G) (d : Dkg F G) (cs : List (QCall F G)) (hc : ∀ c ∈ cs, SecondPhase c) :
    Same d (qRun E d cs) := by
  induction cs generalizing d with
  | nil => exact Same.of_eq rfl
  | cons c cs ih =>
    exact (same_step E d c (hc c (by simp))).trans (ih _ (fun c' h => hc c' (by simp [h])))

theorem holds_unique {d : Dkg F G} {i : Nat} {dl dl' : VssR.Deal F G} (h : HoldsDeal d i dl) (h' : HoldsDeal d i dl') :
    dl = dl' := by
  obtain ⟨v, a, h1, h2, h3⟩ := h
  obtain ⟨v', a', g1, g2, g3⟩ := h'
  rw [h1] at g1; cases g1
  rw [h2] at g2; cases g2
  rw [h3] at g3; cases g3
  rfl

end RabinKeyChange

open RabinKeyChange

/-- C157, what holds: whatever messages of the second phase arrive, complaints included, the private share stays; only
the commitments, the public key with them, may change or get lost. -/
theorem C157_share_partial (E : Env F G) (x : F) (pubs : List G) (t : Nat) (secret : F) (fD gD : List F)
    (d0 : Dkg F G) (h0 : newDistKeyGenerator E x pubs t secret fD gD = .ok d0) (cs cs' : List (QCall F G))
    (hcs : ∀ c ∈ cs', SecondPhase c) (ord ord' : MapOrder) (k k' : DistKeyShare F G)
    (hk : (qRun E d0 cs).distKeyShare ord = .ok k) (hk' : (qRun E d0 (cs ++ cs')).distKeyShare ord' = .ok k') :
    k'.share = k.share := by
  have hn : (qRun E d0 cs).verifiers.keys.Nodup := DkgR.reach_nodup h0 cs
  have hQ : ∀ i, i ∈ qualSet (qRun E d0 cs) ↔ QualifiedR (qRun E d0 cs) i := fun i => mem_qualSet hn
  have hs : Same (qRun E d0 cs) (qRun E d0 (cs ++ cs')) := by rw [run_append]; exact same_run E _ cs' hcs
  obtain ⟨-, D, P, len, hDP, rfl⟩ := (C39_dist_key_share_iff E x pubs t secret fD gD d0 h0 cs ord k _ hQ).1 hk
  obtain ⟨-, D', P', len', hDP', rfl⟩ := (C39_dist_key_share_iff E x pubs t secret fD gD d0 h0 (cs ++ cs') ord' k' _
    (fun i => (hQ i).trans (hs.qual i).symm)).1 hk'
  simp only [Share.mk.injEq, true_and]
  refine Finset.sum_congr rfl (fun i hi => ?_)
  rw [holds_unique (hDP' i hi).1 (hs.deal i _ (hDP i hi).1)]

/-- C157, what holds: if the commitments that come again are those known already, the key stays, whatever reconstruction
messages come as well. Missing: other commitments, complaints. -/
theorem C157_same_commitments_partial (E : Env F G) (x : F) (pubs : List G) (t : Nat) (secret : F) (fD gD : List F)
    (d0 : Dkg F G) (h0 : newDistKeyGenerator E x pubs t secret fD gD = .ok d0) (cs cs' : List (QCall F G))
    (hcs : ∀ c ∈ cs', Reveals c)
    (heq : ∀ ord sc k p, QCall.commits ord sc k ∈ cs' → (qRun E d0 cs).commitments.get sc.index = some p →
      p = ⟨some E.suite.base, sc.commitments⟩)
    (ord ord' : MapOrder) (k : DistKeyShare F G) (hk : (qRun E d0 cs).distKeyShare ord = .ok k) :
    (qRun E d0 (cs ++ cs')).distKeyShare ord' = .ok k := by
  have hn : (qRun E d0 cs).verifiers.keys.Nodup := DkgR.reach_nodup h0 cs
  have hQ : ∀ i, i ∈ qualSet (qRun E d0 cs) ↔ QualifiedR (qRun E d0 cs) i := fun i => mem_qualSet hn
  have hs : ∀ cs'', (∀ c ∈ cs'', c ∈ cs') → Same (qRun E d0 cs) (qRun E d0 (cs ++ cs'')) := by
    intro cs'' hsub
    rw [run_append]
    refine same_run E _ cs'' (fun c hc => ?_)
    have := hcs c (hsub c hc)
    cases c <;> first | exact True.intro | cases this
  obtain ⟨ht, D, P, len, hDP, hkk⟩ := (C39_dist_key_share_iff E x pubs t secret fD gD d0 h0 cs ord k _ hQ).1 hk
  have hcom : ∀ i ∈ qualSet (qRun E d0 cs), (qRun E d0 (cs ++ cs')).commitments.get i = some (P i) := by
    intro i hi
    suffices h : ∀ cs'', (∀ c ∈ cs'', c ∈ cs') → (qRun E d0 (cs ++ cs'')).commitments.get i = some (P i) from
      h cs' (fun _ h => h)
    intro cs''
    induction cs'' using List.reverseRecOn with
    | nil => intro _; rw [List.append_nil]; exact (hDP i hi).2.1
    | append_singleton l c ih =>
      intro hsub
      have ih := ih (fun c' h => hsub c' (by simp [h]))
      have hrun : qRun E d0 (cs ++ (l ++ [c])) = qStep E (qRun E d0 (cs ++ l)) c := by
        rw [← List.append_assoc, run_append]; rfl
      rw [hrun]
      by_contra hch
      have hc := hcs c (hsub c (by simp))
      rcases C40_commitments_change E (qRun E d0 (cs ++ l)) (DkgR.reach_nodup h0 _) c i (by rw [ih]; exact hch) with
        ⟨k, rfl, -⟩ | ⟨o, sc, k, pub, rfl, rfl, -, -, -, -, -, h⟩ | ⟨o, cc, k, rc, rfl, -⟩ |
        ⟨o, rc, pub, arr, pri, rfl, rfl, h, -⟩
      · cases hc
      · apply hch
        rw [h, heq o sc k (P sc.index) (hsub _ (by simp)) (hDP _ hi).2.1]
      · cases hc
      · rw [ih] at h; cases h
  exact (C39_dist_key_share_iff E x pubs t secret fD gD d0 h0 (cs ++ cs') ord' k _
    (fun i => (hQ i).trans ((hs cs' (fun _ h => h)).qual i).symm)).2
    ⟨ht, D, P, len, fun i hi => ⟨(hs cs' (fun _ h => h)).deal i _ (hDP i hi).1, hcom i hi, (hDP i hi).2.2⟩, hkk⟩

end

section

variable [DistribSMul F G]

open RabinKeyChange

/-- The commitments of a dealer that wants `A` as the constant one and keeps the share `V` at `X`. -/
def bentCommits (A V : G) (X : F) (len : Nat) : List G := A :: X⁻¹ • (V - A) :: List.replicate (len - 2) 0

theorem bentCommits_val (A V : G) (X : F) (hX : X • (X⁻¹ • (V - A)) = V - A) (len : Nat) :
    pointVal (bentCommits A V X len) X = V := by
  have h0 : ∀ n, pointVal (List.replicate n (0 : G)) X = 0 := by
    intro n
    induction n with
    | zero => rfl
    | succ n ih => rw [List.replicate_succ]; show 0 + X • pointVal _ X = 0; rw [ih, smul_zero, add_zero]
  show A + X • (X⁻¹ • (V - A) + X • pointVal (List.replicate (len - 2) (0 : G)) X) = V
  rw [h0, smul_zero, add_zero, hX, add_sub_cancel]

/-- The replacement of commitments: the constant one becomes `A`, the public key changes accordingly. -/
theorem RabinKeyChange.chosen (E : Env F G) (hS : E.suite.Lawful) (x : F) (pubs : List G) (t : Nat) (secret : F)
    (fD gD : List F) (d0 : Dkg F G) (h0 : newDistKeyGenerator E x pubs t secret fD gD = .ok d0)
    (cs : List (QCall F G)) (ord ord' ord'' : MapOrder) (k : DistKeyShare F G)
    (hk : (qRun E d0 cs).distKeyShare ord = .ok k) (hlen : 2 ≤ k.commits.length) (j : Nat)
    (hj : QualifiedR (qRun E d0 cs) j) (y : F) (hy : pubs[j]? = some (y • E.suite.base))
    (huy : Usable E.suite (y • E.suite.base)) (nonce : F) (hun : Usable E.suite (nonce • E.suite.base))
    (A : G) (p : PubPoly G) (hp : (qRun E d0 cs).commitments.get j = some p)
    (hX : ∀ dl, HoldsDeal (qRun E d0 cs) j dl →
      ((dl.secShare.i + 1 : Nat) : F) • (((dl.secShare.i + 1 : Nat) : F)⁻¹ • (dl.secShare.v • E.suite.base - A)) =
        dl.secShare.v • E.suite.base - A) (k1 : F) :
    ∃ sc : SecretCommits G, sc.index = j ∧ sc.signature = Schnorr.sign E.suite nonce y (sc.hash E.suite) ∧
      sc.commitments.length = k.commits.length ∧
      ((qRun E d0 cs).processSecretCommits E ord' sc k1).2 = .ok none ∧
      ∃ cm, (qRun E d0 (cs ++ [.commits ord' sc k1])).distKeyShare ord'' =
        .ok ⟨(A + (k.commits.getD 0 0 - p.commits.getD 0 0)) :: cm, k.share⟩ := by
  have hn : (qRun E d0 cs).verifiers.keys.Nodup := DkgR.reach_nodup h0 cs
  have hQ : ∀ i, i ∈ qualSet (qRun E d0 cs) ↔ QualifiedR (qRun E d0 cs) i := fun i => mem_qualSet hn
  obtain ⟨ht, D, P, len, hDP, rfl⟩ := (C39_dist_key_share_iff E x pubs t secret fD gD d0 h0 cs ord k _ hQ).1 hk
  simp only [List.length_map, List.length_range] at hlen ⊢
  have hjQ : j ∈ qualSet (qRun E d0 cs) := (hQ j).2 hj
  obtain ⟨hD, hP, hl⟩ := hDP j hjQ
  rw [hp] at hP
  have hpP : p = P j := Option.some.inj hP
  obtain ⟨v, a, hv, ha, hc⟩ := hj
  have hvd : v.deal = some (D j) := by
    rw [deal_of_certified ha hc]
    obtain ⟨v', a', g1, g2, g3⟩ := hD
    rw [hv] at g1; cases g1
    rw [ha] at g2; cases g2
    exact g3
  set X : F := (((D j).secShare.i + 1 : Nat) : F) with hXd
  set cm := bentCommits A ((D j).secShare.v • E.suite.base) X len with hcm
  have hcl : cm.length = len := by
    rw [hcm]; unfold bentCommits
    simp only [List.length_cons, List.length_replicate]
    omega
  set sc0 : SecretCommits G := ⟨j, cm, a.sid, []⟩ with hsc0
  set sc : SecretCommits G := { sc0 with signature := Schnorr.sign E.suite nonce y (sc0.hash E.suite) } with hsc
  have hpart : (qRun E d0 cs).participants[j]? = some (y • E.suite.base) := by
    rw [(qRun_evolves E d0 cs).participants, (newDistKeyGenerator_ok h0).2.2.2.2.1]
    exact hy
  have hver : Schnorr.verify E.suite (y • E.suite.base) (sc.hash E.suite) sc.signature = .ok () :=
    C11_sign_verify E.suite hS nonce y (sc0.hash E.suite) hun.1 hun.2 huy.1 huy.2
  have hq : (qRun E d0 cs).isInQual ord' j = true := (isInQual_iff hn ord' j).2 ((hQ j).1 hjQ)
  have hchk : (⟨some E.suite.base, cm⟩ : PubPoly G).check E.suite.base (D j).secShare = .ok true := by
    rw [check_iff]
    refine ⟨by rw [hcm]; unfold bentCommits; simp, fun _ => ?_, fun _ => rfl⟩
    exact bentCommits_val _ _ _ (hX _ hD) _
  have hproc : (qRun E d0 cs).processSecretCommits E ord' sc k1 =
      (setCommit (qRun E d0 cs) j ⟨some E.suite.base, cm⟩, .ok none) := by
    unfold Dkg.processSecretCommits
    have e1 : sc.index = j := rfl
    have e2 : sessionIdV v = sc.sessionId := by unfold sessionIdV; rw [ha]
    have e3 : sc.commitments = cm := rfl
    simp only [e1, e3, hpart, hq, hv, e2, hver, hvd, hchk]
    simp
  have hrun : qRun E d0 (cs ++ [.commits ord' sc k1]) =
      setCommit (qRun E d0 cs) j ⟨some E.suite.base, cm⟩ := by
    rw [run_append]
    exact congrArg Prod.fst hproc
  have hs : Same (qRun E d0 cs) (qRun E d0 (cs ++ [.commits ord' sc k1])) := by
    rw [hrun]; exact Same.of_eq rfl
  refine ⟨sc, rfl, rfl, hcl, congrArg Prod.snd hproc, ?_⟩
  refine ⟨((List.range len).map (fun l => ∑ i ∈ qualSet (qRun E d0 cs),
    (if i = j then (⟨some E.suite.base, cm⟩ : PubPoly G) else P i).commits.getD l 0)).tail, ?_⟩
  refine (C39_dist_key_share_iff E x pubs t secret fD gD d0 h0 _ ord'' _ _
    (fun i => (hQ i).trans (hs.qual i).symm)).2
    ⟨ht, D, fun i => if i = j then ⟨some E.suite.base, cm⟩ else P i, len,
      fun i hi => ⟨hs.deal i _ (hDP i hi).1, ?_, ?_⟩, ?_⟩
  · rw [hrun]
    show ((qRun E d0 cs).commitments.insert j _).get i = _
    rw [AMap.get_insert]
    by_cases hij : i = j
    · simp only [if_pos hij]
    · simp only [if_neg hij]; exact (hDP i hi).2.1
  · by_cases hij : i = j
    · simp only [if_pos hij]; exact hcl
    · simp only [if_neg hij]; exact (hDP i hi).2.2
  · obtain ⟨m, rfl⟩ : ∃ m, len = m + 1 := ⟨len - 1, by omega⟩
    congr 1
    rw [List.range_succ_eq_map, List.map_cons, List.map_cons, List.tail_cons, List.getD_cons_zero]
    congr 1
    have hsum : ∑ i ∈ (qualSet (qRun E d0 cs)).erase j,
        (if i = j then (⟨some E.suite.base, cm⟩ : PubPoly G) else P i).commits.getD 0 0 =
        ∑ i ∈ (qualSet (qRun E d0 cs)).erase j, (P i).commits.getD 0 0 :=
      Finset.sum_congr rfl (fun i hi => by rw [if_neg (Finset.ne_of_mem_erase hi)])
    have hz : cm.getD 0 0 = A := rfl
    rw [← Finset.add_sum_erase _ (fun i => (P i).commits.getD 0 0) hjQ, ← Finset.add_sum_erase _ _ hjQ, if_pos rfl,
      hz, hsum, hpP]
    simp only [add_sub_cancel_left]

/-- C157 after an honest run: every participant has its key; then dealer `j` sends participant `i` other commitments,
under its key, and the public key of participant `i` is the one with the private key `τ`, chosen by dealer `j`. -/
theorem C157_after_honest_run (E : Env F G) (hS : E.suite.Lawful) (hP : E.prims.Lawful)
    (hH : ∀ b, Lin F (E.pickFrom b)) (hO : PrimsOkR E) (N : RNet F G) (h : N.Honest E)
    (hC : ∀ j < N.n, ∀ dl ∈ (N.D j).dealer.deals, E.codec.dec (E.codec.enc dl) = some dl) (z : F) (ord : MapOrder)
    (i : Nat) (hi : i < N.n) (s : List RMsg) (hs : RSchedule N.n i s) (hcomp : RComplete N.n i s)
    (hi0 : ((i + 1 : Nat) : F) ≠ 0) (j : Nat) (hj : j < N.n) (nonce : F)
    (hun : Usable E.suite (nonce • E.suite.base)) (τ : F) (ord' ord'' : MapOrder) (k1 : F) :
    ∃ k sc cm, (qRun E (N.D i) (s.map (RMsg.call E N z ord i))).distKeyShare ord' = .ok k ∧ sc.index = j ∧
      sc.signature = Schnorr.sign E.suite nonce (N.x j) (sc.hash E.suite) ∧
      ((qRun E (N.D i) (s.map (RMsg.call E N z ord i))).processSecretCommits E ord' sc k1).2 = .ok none ∧
      (qRun E (N.D i) (s.map (RMsg.call E N z ord i) ++ [.commits ord' sc k1])).distKeyShare ord'' =
        .ok ⟨(τ • E.suite.base) :: cm, k.share⟩ := by
  obtain ⟨hI, -⟩ := inv_run hS hP hH hO h hC hi z ord s hs
  have hkey := ((C39_honest_run E hS hP hH hO N h hC z ord i hi s hs).2 hcomp ord').2
  have ht := thresholdR (h.start i hi)
  have hg : got i s j := by
    unfold got RMsg.dealOf
    split
    · exact hcomp .deals trivial (by simp)
    · exact hcomp (.deal j) ⟨hj, by assumption⟩ (by simp)
  obtain ⟨v, a, h1, h2, h3, h4, -⟩ := cert_of_all h hi hI hs.wanted hj hg
    (fun l hl h1 h2 => hcomp (.resp j l) ⟨hj, hl, h1, h2⟩ (by simp))
  have hgc : gotC i s j := by
    unfold gotC
    split
    · exact hcomp .ownCommits trivial (by simp)
    · exact hcomp (.commits j) ⟨hj, by assumption⟩ (by simp)
  have hcom := hI.comm j hj
  rw [if_pos hgc] at hcom
  have hlj : 0 < (N.poly j).length := by rw [(honest_dealer h (j := j) hj).len]; omega
  have hlr : (rSumPoly N).length = N.t := by unfold rSumPoly; rw [List.length_map, List.length_range]
  have hL := hS.base_lin
  have hsub : ∀ a b : F, (a - b) • E.suite.base = a • E.suite.base - b • E.suite.base := by
    intro a b
    rw [eq_sub_iff_add_eq, ← hL.add, sub_add_cancel]
  have hhead : ∀ l : List F, 0 < l.length →
      (l.map (fun c => c • E.suite.base)).getD 0 0 = l.getD 0 0 • E.suite.base := by
    intro l hl
    cases l with
    | nil => cases hl
    | cons c l => rfl
  obtain ⟨sc, g1, g2, -, g4, cm, g5⟩ := chosen E hS _ _ _ _ _ _ _ (h.start i hi) _ ord' ord' ord'' _ hkey
    (by rw [List.length_map, hlr]; exact ht.1) j ⟨v, a, h1, h2, h3⟩ (N.x j)
    (by unfold RNet.pubs; rw [List.getElem?_map, List.getElem?_range hj]; rfl) (h.x j hj) nonce hun
    ((τ - (rSumPoly N).getD 0 0 + (N.poly j).getD 0 0) • E.suite.base) _ hcom
    (by
      intro dl hd
      have hdl := holds_unique hd ⟨v, a, h1, h2, h4⟩
      subst hdl
      have hidx : (N.plain E j i).secShare.i = i := rfl
      rw [hidx, ← hsub, ← hL.mul, ← hL.mul, ← mul_assoc, mul_inv_cancel₀ hi0, one_mul]) k1
  refine ⟨_, sc, cm, hkey, g1, g2, g4, ?_⟩
  rw [g5]
  congr 3
  rw [hhead _ (by rw [hlr]; omega), hhead _ hlj, ← hsub, ← hL.add]
  congr 1
  ring

end

section

variable [Module F G]

open RabinKeyChange

/-- C157: a qualified dealer gives a participant that already has its key the public key it likes. For every point `T`,
there are commitments that the dealer signs with its key, that the participant accepts at any time, and after which its
share is the old one and its public key is `T`. -/
theorem C157_chosen_key (E : Env F G) (hS : E.suite.Lawful) (x : F) (pubs : List G) (t : Nat) (secret : F)
    (fD gD : List F) (d0 : Dkg F G) (h0 : newDistKeyGenerator E x pubs t secret fD gD = .ok d0)
    (cs : List (QCall F G)) (ord ord' ord'' : MapOrder) (k : DistKeyShare F G)
    (hk : (qRun E d0 cs).distKeyShare ord = .ok k) (hlen : 2 ≤ k.commits.length) (j : Nat)
    (hj : QualifiedR (qRun E d0 cs) j) (y : F) (hy : pubs[j]? = some (y • E.suite.base))
    (huy : Usable E.suite (y • E.suite.base)) (nonce : F) (hun : Usable E.suite (nonce • E.suite.base))
    (hX : ∀ dl, HoldsDeal (qRun E d0 cs) j dl → ((dl.secShare.i + 1 : Nat) : F) ≠ 0) (T : G) (k1 : F) :
    ∃ sc : SecretCommits G, sc.index = j ∧ sc.signature = Schnorr.sign E.suite nonce y (sc.hash E.suite) ∧
      sc.commitments.length = k.commits.length ∧
      ((qRun E d0 cs).processSecretCommits E ord' sc k1).2 = .ok none ∧
      ∃ cm, (qRun E d0 (cs ++ [.commits ord' sc k1])).distKeyShare ord'' = .ok ⟨T :: cm, k.share⟩ := by
  have hn : (qRun E d0 cs).verifiers.keys.Nodup := DkgR.reach_nodup h0 cs
  obtain ⟨p, hp⟩ : ∃ p, (qRun E d0 cs).commitments.get j = some p := by
    obtain ⟨-, D, P, len, hDP, -⟩ := (C39_dist_key_share_iff E x pubs t secret fD gD d0 h0 cs ord k
      (qualSet (qRun E d0 cs)) (fun i => mem_qualSet hn)).1 hk
    exact ⟨_, (hDP j ((mem_qualSet hn).2 hj)).2.1⟩
  have := chosen E hS x pubs t secret fD gD d0 h0 cs ord ord' ord'' k hk hlen j hj y hy huy nonce hun
    (T - (k.commits.getD 0 0 - p.commits.getD 0 0)) p hp
    (fun dl hd => by rw [smul_smul, mul_inv_cancel₀ (hX dl hd), one_smul]) k1
  rw [sub_add_cancel] at this
  exact this

end

namespace RabinKeyChangeExample

open Kyber.Toy DkgRExample

/-- The calls of the honest run of participant 1. -/
def done : List (QCall (ZMod 11) (ZMod 11)) := sched.map (RMsg.call envRI (netR envRI) 1 MapOrder.id 1)

/-- Other commitments of dealer 2, whose key is 2: to `2 + 10 X`, which is 0 at 2 like the one it dealt. -/
def other : SecretCommits (ZMod 11) :=
  let sc : SecretCommits (ZMod 11) := ⟨2, [4, 9], ((netR envRI).D 2).dealer.sessionId, []⟩
  { sc with signature := Schnorr.sign envRI.suite 4 2 (sc.hash envRI.suite) }

/-- The commitments of dealer 2 once more. -/
def again : SecretCommits (ZMod 11) :=
  let sc : SecretCommits (ZMod 11) := ⟨2, [8, 7], ((netR envRI).D 2).dealer.sessionId, []⟩
  { sc with signature := Schnorr.sign envRI.suite 4 2 (sc.hash envRI.suite) }

theorem before : (qRun envRI ((netR envRI).D 1) done).distKeyShare MapOrder.id = .ok ⟨[2, 7], ⟨1, 8⟩⟩ := by
  decide +kernel

theorem after : (qRun envRI ((netR envRI).D 1) (done ++ [.commits MapOrder.id other 1])).distKeyShare MapOrder.id =
    .ok ⟨[9, 9], ⟨1, 8⟩⟩ := by
  decide +kernel

end RabinKeyChangeExample

open RabinKeyChangeExample Kyber.Toy DkgRExample in
/-- C157, violated: participant 1 has its key, then other commitments of dealer 2 arrive that fit the share of
participant 1, and the public key is another one. -/
theorem C157_violated : ¬ C157_statement := by
  intro h
  have := h (ZMod 11) (ZMod 11) _ _ _ _ envRI envRI_lawful prims_lawful (fun _ _ h => h)
    codecR_lawful _ _ netRI_honest.nodup _ _ _ _ ((netR envRI).D 1) (netRI_honest.start 1 (by decide))
    done [.commits MapOrder.id other 1] MapOrder.id MapOrder.id _
    (fun c hc => by rw [List.mem_singleton] at hc; subst hc; exact True.intro) before
  rw [after] at this
  revert this
  decide

namespace RabinKeyChangeExample

open Kyber.Toy DkgRExample

/-- `C157_share_partial`, with the commitments of `C157_violated`. -/
example (k' : DistKeyShare (ZMod 11) (ZMod 11))
    (hk' : (qRun envRI ((netR envRI).D 1) (done ++ [.commits MapOrder.id other 1])).distKeyShare MapOrder.id = .ok k') :
    k'.share = ⟨1, 8⟩ :=
  C157_share_partial envRI _ _ _ _ _ _ _ (netRI_honest.start 1 (by decide)) done [.commits MapOrder.id other 1]
    (fun c hc => by rw [List.mem_singleton] at hc; subst hc; exact True.intro) MapOrder.id MapOrder.id _ k' before hk'

/-- `C157_same_commitments_partial`: a share that participant 2 made up, and the commitments of dealer 2 again. -/
example : (qRun envRI ((netR envRI).D 1) (done ++ [.reconstruct MapOrder.id forgedRc,
    .commits MapOrder.id again 1])).distKeyShare MapOrder.rev = .ok ⟨[2, 7], ⟨1, 8⟩⟩ := by
  refine C157_same_commitments_partial envRI _ _ _ _ _ _ _ (netRI_honest.start 1 (by decide)) done _
    (fun c hc => ?_) (fun o sc k p hm hp => ?_) MapOrder.id MapOrder.rev _ before
  · simp only [List.mem_cons, List.not_mem_nil, or_false] at hc
    rcases hc with rfl | rfl <;> exact True.intro
  · simp only [List.mem_cons, List.not_mem_nil, or_false, reduceCtorEq, false_or, QCall.commits.injEq] at hm
    obtain ⟨-, rfl, -⟩ := hm
    have h2 : (qRun envRI ((netR envRI).D 1) done).commitments.get 2 = some ⟨some envRI.suite.base, [8, 7]⟩ := by
      decide +kernel
    have hp : (qRun envRI ((netR envRI).D 1) done).commitments.get 2 = some p := hp
    rw [h2] at hp
    cases hp
    rfl

/-- The index in the deal of dealer `j`. -/
def shareIdx (d : Dkg (ZMod 11) (ZMod 11)) (j : Nat) : Option Nat :=
  (((d.verifiers.get j).bind (·.aggregator)).bind (·.deal)).map (·.secShare.i)

/-- `C157_chosen_key`: dealer 2 makes 7 the public key of participant 1, who has finished. -/
example : ∃ sc : SecretCommits (ZMod 11), sc.index = 2 ∧
    sc.signature = Schnorr.sign envRI.suite 4 2 (sc.hash envRI.suite) ∧ sc.commitments.length = 2 ∧
    ((qRun envRI ((netR envRI).D 1) done).processSecretCommits envRI MapOrder.rev sc 1).2 = .ok none ∧
    ∃ cm, (qRun envRI ((netR envRI).D 1) (done ++ [.commits MapOrder.rev sc 1])).distKeyShare MapOrder.id =
      .ok ⟨7 :: cm, ⟨1, 8⟩⟩ := by
  refine C157_chosen_key envRI envRI_lawful _ _ _ _ _ _ _ (netRI_honest.start 1 (by decide)) done MapOrder.id
    MapOrder.rev MapOrder.id ⟨[2, 7], ⟨1, 8⟩⟩ before (by decide) 2 ?_ 2 (by decide +kernel)
    (by unfold Usable; decide +kernel) 4 (by unfold Usable; decide +kernel) ?_ 7 1
  · exact (isInQual_iff (DkgR.reach_nodup (netRI_honest.start 1 (by decide)) done) MapOrder.id 2).1 (by decide +kernel)
  · rintro dl ⟨v, a, hv, ha, hd⟩
    have h1 : shareIdx (qRun envRI ((netR envRI).D 1) done) 2 = some dl.secShare.i := by
      unfold shareIdx; rw [hv]; simp [ha, hd]
    have h2 : shareIdx (qRun envRI ((netR envRI).D 1) done) 2 = some 1 := by decide +kernel
    rw [h2] at h1
    rw [← Option.some.inj h1]
    decide

/-- `C157_after_honest_run`: dealer 2 makes the key with the secret 6 the public key of participant 1. -/
example : ∃ k sc cm, (qRun envRI ((netR envRI).D 1) done).distKeyShare MapOrder.rev = .ok k ∧ sc.index = 2 ∧
    sc.signature = Schnorr.sign envRI.suite 4 ((netR envRI).x 2) (sc.hash envRI.suite) ∧
    ((qRun envRI ((netR envRI).D 1) done).processSecretCommits envRI MapOrder.rev sc 1).2 = .ok none ∧
    (qRun envRI ((netR envRI).D 1) (done ++ [.commits MapOrder.rev sc 1])).distKeyShare MapOrder.id =
      .ok ⟨((6 : ZMod 11) • envRI.suite.base) :: cm, k.share⟩ :=
  C157_after_honest_run envRI envRI_lawful prims_lawful
    (fun _ => ⟨fun a b => add_smul a b _, fun a b => mul_smul a b _⟩) primsOkRI (netR envRI) netRI_honest
    (fun _ _ dl _ => codecR_lawful dl) 1 MapOrder.id 1 (by decide) sched sched_ok.1 sched_ok.2 (by decide) 2 (by decide)
    4 (by unfold Usable; decide +kernel) 6 MapOrder.rev MapOrder.id 1

end RabinKeyChangeExample

end Kyber.Props
