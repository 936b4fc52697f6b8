/-
C158: the participants of an honest Rabin key generation sign together with the keys they obtain.
-/
import Verif.Props.ShareHash
import Verif.Props.EdKeyChange
import Verif.Lemmas.Orders

set_option linter.unusedSectionVars false

namespace Kyber.Props

open Kyber Kyber.Poly Kyber.Schnorr Kyber.Dss Kyber.Spec Kyber.VssR Kyber.DkgR

variable {F G : Type} [Field F] [AddCommGroup G] [DecidableEq G] [DistribSMul F G]

namespace SignAfter

/-- What `new_dss` puts into a session. -/
theorem newDss_ok {S : Suite F G} {x : F} {ps : List G} {long random : Dss.DistKeyShare F G} {msg : Bytes} {t : Nat}
    {d : DSS F G} (h : newDss S x ps long random msg t = .ok d) :
    ps[d.index]? = some (x • S.base) ∧ d.participants = ps ∧ d.secret = x ∧ d.long = long ∧ d.random = random ∧
      d.t = t ∧ d.msg = msg ∧ d.partials = [] ∧ d.signed = false ∧ d.partialsIdx = [] ∧
      d.sessionId = Dss.sessionId S long random := by
  unfold newDss at h
  simp only at h
  split at h
  · cases h
  · rename_i i hi
    obtain rfl := Res.ok.inj h
    refine ⟨?_, rfl, rfl, rfl, rfl, rfl, rfl, rfl, rfl, rfl, rfl⟩
    obtain ⟨h1, h2, -⟩ := List.findIdx?_eq_some_iff_getElem.1 hi
    rw [List.getElem?_eq_getElem h1, of_decide_eq_true h2]

theorem secret_step (S : Suite F G) (d : DSS F G) (c : DssCall F) : (dssStep S d c).secret = d.secret := by
  cases c with
  | own k =>
    simp only [dssStep]
    split
    · rename_i r hr
      obtain ⟨_, _, _, _, _, h | h⟩ := partialSig_ok S k d r.2 r.1 hr
      · rw [h]
      · rw [h.2]
    · rfl
  | recv ps =>
    simp only [dssStep]
    split
    · rename_i d' hr
      obtain ⟨_, _, _, _, _, _, _, _, _, _, rfl⟩ := (processPartialSig_ok_iff S d d' ps).1 hr
      rfl
    · rfl

theorem secret_run (S : Suite F G) (d : DSS F G) (cs : List (DssCall F)) : (dssRun S d cs).secret = d.secret := by
  induction cs generalizing d with
  | nil => rfl
  | cons c cs ih => exact (ih (dssStep S d c)).trans (secret_step S d c)

end SignAfter

open SignAfter

/-- C158: two sessions that differ in a commitment of the long-term key or of the random key refuse each other's partial
signatures, whatever was called before, unless the hash function collides on the commitments. -/
theorem C158_refused (S : Suite F G) (hS : S.Lawful) (hp : 0 < S.pointLen) (x y : F) (ps : List G)
    (la lb ra rb : Dss.DistKeyShare F G) (msg msg' : Bytes) (t t' : Nat) (d e : DSS F G)
    (hd : newDss S x ps la ra msg t = .ok d) (he : newDss S y ps lb rb msg' t' = .ok e)
    (hne : la.commits ++ ra.commits ≠ lb.commits ++ rb.commits)
    (ha : Apart S ((la.commits.map S.encG).flatten ++ (ra.commits.map S.encG).flatten)
      ((lb.commits.map S.encG).flatten ++ (rb.commits.map S.encG).flatten))
    (hy : Usable S (y • S.base)) (k : F) (hk : Usable S (k • S.base)) (cs cs' : List (DssCall F))
    (sig : PartialSig F) (e' : DSS F G) (hsig : partialSig S k (dssRun S e cs') = .ok (sig, e')) :
    processPartialSig S (dssRun S d cs) sig = .err .invalidSessionId := by
  obtain ⟨-, d2, -, d4, -, -, -, -, -, -, d11⟩ := newDss_ok hd
  obtain ⟨e1, -, e3, e4, -, -, -, -, -, -, e11⟩ := newDss_ok he
  obtain ⟨p1, -, -, -, -, p6, -⟩ := C18_parameters_fixed S d cs
  obtain ⟨-, -, -, -, -, q6, q7⟩ := C18_parameters_fixed S e cs'
  have hs := secret_run S e cs'
  have hsid : Dss.sessionId S la ra ≠ Dss.sessionId S lb rb := by
    rw [Ne, C148_session_iff S hS hp _ _ _ _ ha]
    exact hne
  have hsh : sig.sessionId = e.sessionId ∧ sig.partialShare.i = e.index ∧
      sig.signature = sign S k y (partialHash S sig.partialShare sig.sessionId) := by
    unfold partialSig at hsig
    simp only [Res.bind_eq_ok] at hsig
    obtain ⟨h, -, hsig⟩ := hsig
    split at hsig <;>
    · simp only [Res.ok.injEq, Prod.mk.injEq] at hsig
      obtain ⟨rfl, -⟩ := hsig
      exact ⟨q6, q7, by rw [hs, e3]⟩
  obtain ⟨s1, s2, s3⟩ := hsh
  have hver : Schnorr.verify S (y • S.base) (partialHash S sig.partialShare sig.sessionId) sig.signature = .ok () := by
    rw [s3]
    exact C11_sign_verify S hS k y _ hk.1 hk.2 hy.1 hy.2
  unfold processPartialSig
  rw [p1, d2, s2, e1]
  simp only [Res.ofOption, Res.bind_ok, hver, Res.mapErr]
  rw [if_pos]
  rw [p6, s1, d11, e11]
  exact fun h => hsid h.symm

/-- C158: two sessions whose long-term keys have different public keys refuse each other's partial signatures, whatever
was called before, unless the hash function collides on the commitments. -/
theorem C158_other_key_refused (S : Suite F G) (hS : S.Lawful) (hp : 0 < S.pointLen) (x y : F) (ps : List G)
    (la lb ra rb : Dss.DistKeyShare F G) (msg msg' : Bytes) (t t' : Nat) (d e : DSS F G)
    (hd : newDss S x ps la ra msg t = .ok d) (he : newDss S y ps lb rb msg' t' = .ok e)
    (A B : G) (hA : la.commits.head? = some A) (hB : lb.commits.head? = some B) (hne : A ≠ B)
    (ha : Apart S ((la.commits.map S.encG).flatten ++ (ra.commits.map S.encG).flatten)
      ((lb.commits.map S.encG).flatten ++ (rb.commits.map S.encG).flatten))
    (hy : Usable S (y • S.base)) (k : F) (hk : Usable S (k • S.base)) (cs cs' : List (DssCall F))
    (sig : PartialSig F) (e' : DSS F G) (hsig : partialSig S k (dssRun S e cs') = .ok (sig, e')) :
    processPartialSig S (dssRun S d cs) sig = .err .invalidSessionId := by
  refine C158_refused S hS hp x y ps la lb ra rb msg msg' t t' d e hd he (fun h => ?_) ha hy k hk cs cs' sig e' hsig
  have := congrArg List.head? h
  rw [List.head?_append, List.head?_append, hA, hB] at this
  exact hne (Option.some.inj this)

/-- C158: a session that is given only partial signatures of other sessions has its own at most. With a threshold of two
or more it never has a signature. -/
theorem C158_alone (S : Suite F G) (x : F) (ps : List G) (long random : Dss.DistKeyShare F G) (msg : Bytes) (t : Nat)
    (ht : 2 ≤ t) (d : DSS F G) (hd : newDss S x ps long random msg t = .ok d) (cs : List (DssCall F))
    (hcs : ∀ sig, .recv sig ∈ cs → sig.sessionId ≠ Dss.sessionId S long random) (ord : MapOrder) :
    signature S ord (dssRun S d cs) = .err .notEnoughPartials := by
  obtain ⟨-, -, -, -, -, d6, -, d8, d9, -, d11⟩ := newDss_ok hd
  have key : ∀ cs : List (DssCall F), (∀ sig, .recv sig ∈ cs → sig.sessionId ≠ Dss.sessionId S long random) →
      (dssRun S d cs).partials.length ≤ (dssRun S d cs).signed.toNat := by
    intro cs
    induction cs using List.reverseRecOn with
    | nil => intro _; show d.partials.length ≤ _; rw [d8]; exact Nat.zero_le _
    | append_singleton cs c ih =>
      intro h
      have hi := ih (fun sig hm => h sig (List.mem_append_left _ hm))
      have hsid := (C18_parameters_fixed S d cs).2.2.2.2.2.1
      have hrun : dssRun S d (cs ++ [c]) = dssStep S (dssRun S d cs) c := by
        unfold dssRun; rw [List.foldl_append]; rfl
      rw [hrun]
      cases c with
      | own k =>
        simp only [dssStep]
        split
        · rename_i r hr
          obtain ⟨_, _, _, _, _, hh | ⟨h1, h2⟩⟩ := partialSig_ok S k _ r.2 r.1 hr
          · rw [hh]; exact hi
          · rw [h1] at hi
            rw [h2]
            simp only [List.length_append, List.length_singleton, Bool.toNat_true]
            simp only [Bool.toNat_false] at hi
            omega
        · exact hi
      | recv sig =>
        simp only [dssStep]
        cases hr : processPartialSig S (dssRun S d cs) sig with
        | ok d' =>
          obtain ⟨_, _, _, _, _, h3, -⟩ := (C18_accepts_iff S _ d' sig).1 hr
          exact absurd (h3.trans (hsid.trans d11)) (h sig (by simp))
        | err e => exact hi
        | panic => exact hi
  have hle : (dssRun S d cs).partials.length ≤ 1 := by
    exact (key cs hcs).trans (Bool.toNat_le _)
  have htd : (dssRun S d cs).t = t := (C18_parameters_fixed S d cs).2.1.trans d6
  unfold signature
  rw [if_pos]
  unfold enoughPartialSig
  rw [decide_eq_false_iff_not, htd]
  omega

/-- C158: after an honest run of the Rabin DKG, dealer `j` shuts participant `i` out of signing by one message of its
own. Participant `i` accepts it; the key that it obtains afterwards has its share and another public key, and sessions
with this key and sessions with the key of the honest run, which everybody else has, refuse each other's partial
signatures. If these are all that it receives and the threshold is at least two, it never has a signature. -/
theorem C158_shut_out (E : Env F G) (hS : E.suite.Lawful) (hpl : 0 < E.suite.pointLen) (hP : E.prims.Lawful)
    (hH : ∀ b, Lin F (E.pickFrom b)) (hO : PrimsOkR E) (N : RNet F G) (h : N.Honest E)
    (hC : ∀ j < N.n, ∀ dl ∈ (N.D j).dealer.deals, E.codec.dec (E.codec.enc dl) = some dl) (z : F) (ord : MapOrder)
    (hB : ∀ s : F, s • E.suite.base = 0 → s = 0)
    (i : Nat) (hi : i < N.n) (s : List RMsg) (hs : RSchedule N.n i s) (hcomp : RComplete N.n i s)
    (hi0 : ((i + 1 : Nat) : F) ≠ 0) (j : Nat) (hj : j < N.n) (nonce : F)
    (hun : Usable E.suite (nonce • E.suite.base)) (ord' ord'' : MapOrder) (k1 : F) :
    ∃ k sc k', (qRun E (N.D i) (s.map (RMsg.call E N z ord i))).distKeyShare ord' = .ok k ∧ sc.index = j ∧
      sc.signature = Schnorr.sign E.suite nonce (N.x j) (sc.hash E.suite) ∧
      ((qRun E (N.D i) (s.map (RMsg.call E N z ord i))).processSecretCommits E ord' sc k1).2 = .ok none ∧
      (qRun E (N.D i) (s.map (RMsg.call E N z ord i) ++ [.commits ord' sc k1])).distKeyShare ord'' = .ok k' ∧
      k'.share = k.share ∧
      (∀ l < N.n, ∀ sl, RSchedule N.n l sl → RComplete N.n l sl → ∃ kl,
        (qRun E (N.D l) (sl.map (RMsg.call E N z ord l))).distKeyShare ord' = .ok kl ∧ kl.commits = k.commits) ∧
      ∀ l < N.n, ∀ (share : Share F) (ri rl : Dss.DistKeyShare F G) (msg : Bytes) (t : Nat) (d e : DSS F G),
        newDss E.suite (N.x i) (N.pubs E) ⟨k'.share, k'.commits⟩ ri msg t = .ok e →
        newDss E.suite (N.x l) (N.pubs E) ⟨share, k.commits⟩ rl msg t = .ok d →
        Apart E.suite ((k.commits.map E.suite.encG).flatten ++ (rl.commits.map E.suite.encG).flatten)
          ((k'.commits.map E.suite.encG).flatten ++ (ri.commits.map E.suite.encG).flatten) →
        ∀ (c : F) (cs cs' : List (DssCall F)) (sig : PartialSig F), Usable E.suite (c • E.suite.base) →
          (∀ e', partialSig E.suite c (dssRun E.suite e cs') = .ok (sig, e') →
            processPartialSig E.suite (dssRun E.suite d cs) sig = .err .invalidSessionId) ∧
          (∀ d', partialSig E.suite c (dssRun E.suite d cs) = .ok (sig, d') →
            processPartialSig E.suite (dssRun E.suite e cs') sig = .err .invalidSessionId) ∧
          (2 ≤ t → (∀ sig, .recv sig ∈ cs' → sig.sessionId = d.sessionId) → ∀ ord,
            signature E.suite ord (dssRun E.suite e cs') = .err .notEnoughPartials) := by
  have hkey := fun l hl sl hsl hcl =>
    ((C39_honest_run E hS hP hH hO N h hC z ord l hl sl hsl).2 hcl ord').2
  have ht := thresholdR (h.start i hi)
  obtain ⟨k, sc, cm, g1, g2, g3, g4, g5⟩ := C157_after_honest_run E hS hP hH hO N h hC z ord i hi s hs hcomp hi0 j hj
    nonce hun ((rSumPoly N).getD 0 0 + 1) ord' ord'' k1
  have hk : k = _ := Res.ok.inj (g1.symm.trans (hkey i hi s hs hcomp))
  have hL := hS.base_lin
  have hhead : k.commits.head? = some ((rSumPoly N).getD 0 0 • E.suite.base) := by
    rw [hk]
    have hlr : (rSumPoly N).length = N.t := by unfold rSumPoly; rw [List.length_map, List.length_range]
    cases hr : rSumPoly N with
    | nil => rw [hr] at hlr; have := ht.1; simp at hlr; omega
    | cons c l => rfl
  have hne : (rSumPoly N).getD 0 0 • E.suite.base ≠ ((rSumPoly N).getD 0 0 + 1) • E.suite.base := by
    rw [hL.add]
    intro hq
    exact one_ne_zero (hB 1 (left_eq_add.1 hq))
  refine ⟨k, sc, _, g1, g2, g3, g4, g5, rfl, ?_, ?_⟩
  · intro l hl sl hsl hcl
    exact ⟨_, hkey l hl sl hsl hcl, by rw [hk]⟩
  · intro l hl share ri rl msg t d e he hd ha c cs cs' sig hc
    refine ⟨fun e' hq => ?_, fun d' hq => ?_, fun ht2 hall o => ?_⟩
    · exact C158_other_key_refused E.suite hS hpl _ _ _ _ _ _ _ _ _ _ _ d e hd he _ _ hhead rfl hne ha (h.x i hi) c hc cs
        cs' sig e' hq
    · exact C158_other_key_refused E.suite hS hpl _ _ _ _ _ _ _ _ _ _ _ e d he hd _ _ rfl hhead hne.symm
        (fun hq => (ha hq.symm).symm) (h.x l hl) c hc cs' cs sig d' hq
    · refine C158_alone E.suite _ _ _ _ _ t ht2 e he cs' (fun sg hm => ?_) o
      rw [hall sg hm, (newDss_ok hd).2.2.2.2.2.2.2.2.2.2, Ne, C148_session_iff E.suite hS hpl _ _ _ _ ha]
      intro hq
      have := congrArg List.head? hq
      rw [List.head?_append, List.head?_append, hhead] at this
      exact hne (Option.some.inj this)

/-- C158, what holds: if the commitments that come again are those known already, the partial signature of participant
`i` is accepted. Missing: other commitments. -/
theorem C158_same_commitments_partial (E : Env F G) (hS : E.suite.Lawful) (hP : E.prims.Lawful)
    (hH : ∀ b, Lin F (E.pickFrom b)) (hO : PrimsOkR E) (N : RNet F G) (h : N.Honest E)
    (hC : ∀ j < N.n, ∀ dl ∈ (N.D j).dealer.deals, E.codec.dec (E.codec.enc dl) = some dl) (z : F) (ord : MapOrder)
    (i l : Nat) (hi : i < N.n) (hl : l < N.n) (s sl : List RMsg)
    (hs : RSchedule N.n i s ∧ RComplete N.n i s) (hsl : RSchedule N.n l sl ∧ RComplete N.n l sl)
    (later : List (QCall F G)) (hlater : ∀ c ∈ later, Reveals c)
    (heq : ∀ ord' sc k p, QCall.commits ord' sc k ∈ later →
      (qRun E (N.D i) (s.map (RMsg.call E N z ord i))).commitments.get sc.index = some p →
      p = ⟨some E.suite.base, sc.commitments⟩)
    (ord' : MapOrder) (ki kl : DkgR.DistKeyShare F G)
    (hki : (qRun E (N.D i) (s.map (RMsg.call E N z ord i) ++ later)).distKeyShare ord' = .ok ki)
    (hkl : (qRun E (N.D l) (sl.map (RMsg.call E N z ord l))).distKeyShare ord' = .ok kl)
    (rs : List F) (msg : Bytes) (t : Nat) (d e e' : DSS F G)
    (hd : newDss E.suite (N.x l) (N.pubs E) ⟨kl.share, kl.commits⟩
      ⟨⟨l, polyVal rs ((l + 1 : Nat) : F)⟩, rs.map (· • E.suite.base)⟩ msg t = .ok d)
    (he : newDss E.suite (N.x i) (N.pubs E) ⟨ki.share, ki.commits⟩
      ⟨⟨i, polyVal rs ((i + 1 : Nat) : F)⟩, rs.map (· • E.suite.base)⟩ msg t = .ok e)
    (c : F) (hc : Usable E.suite (c • E.suite.base)) (sig : PartialSig F)
    (hsig : partialSig E.suite c e = .ok (sig, e')) :
    ∃ d', processPartialSig E.suite d sig = .ok d' := by
  have k1 := ((C39_honest_run E hS hP hH hO N h hC z ord i hi s hs.1).2 hs.2 ord').2
  have k2 := ((C39_honest_run E hS hP hH hO N h hC z ord l hl sl hsl.1).2 hsl.2 ord').2
  have k3 := C157_same_commitments_partial E _ _ _ _ _ _ _ (h.start i hi) _ later hlater heq ord' ord' _ k1
  have eki := Res.ok.inj (hki.symm.trans k3)
  have ekl := Res.ok.inj (hkl.symm.trans k2)
  obtain ⟨-, d2, -, d4, d5, -, d7, -, -, d10, d11⟩ := newDss_ok hd
  obtain ⟨e1, -, e3, e4, e5, -, e7, -, -, -, e11⟩ := newDss_ok he
  have hidx : e.index = i := by
    have hpi : (N.pubs E)[i]? = some (N.x i • E.suite.base) := by
      unfold RNet.pubs; rw [List.getElem?_map, List.getElem?_range hi]; rfl
    have hlt : e.index < (N.pubs E).length := by
      rw [List.getElem?_eq_some_iff] at e1; exact e1.1
    exact (List.getElem?_inj hlt h.nodup).1 (e1.trans hpi.symm)
  have hcom : ki.commits = (rSumPoly N).map (· • E.suite.base) := by rw [eki]
  have hcom' : kl.commits = (rSumPoly N).map (· • E.suite.base) := by rw [ekl]
  obtain ⟨d', hd', -⟩ := C17_honest_accepted E.suite hS c d e e' sig (rSumPoly N) rs (by rw [d4]; exact hcom')
    (by rw [d5]) (by rw [e4]; exact hcom) (by rw [e5]) (by rw [d7, e7])
    (by rw [e11, d11]; unfold Dss.sessionId; simp only [hcom, hcom']) (by rw [d2, e3]; exact e1)
    (by rw [e4, hidx, eki]) (by rw [e5, hidx]) (by rw [d10]; rfl) hc (by rw [e3]; exact h.x i hi) hsig
  exact ⟨d', hd'⟩

/-- C158, the intended property: after an honest run of the Rabin DKG, the partial signatures of participant `i`, who
obtains its key at any time later, are accepted by participant `l`. The random key is any other shared polynomial. -/
def C158_statement : Prop :=
  ∀ (F G : Type) (_ : Field F) (_ : AddCommGroup G) (_ : Module F G) (_ : DecidableEq G)
    (E : Env F G) (_ : E.suite.Lawful) (_ : E.prims.Lawful) (_ : Function.Injective E.suite.hash) (_ : PrimsOkR E)
    (_ : ∀ d, E.codec.dec (E.codec.enc d) = some d) (N : RNet F G) (_ : N.Honest E) (z : F) (ord : MapOrder)
    (i l : Nat) (_ : i < N.n) (_ : l < N.n) (s sl : List RMsg)
    (_ : RSchedule N.n i s ∧ RComplete N.n i s) (_ : RSchedule N.n l sl ∧ RComplete N.n l sl)
    (later : List (QCall F G)) (_ : ∀ c ∈ later, Reveals c) (ord' : MapOrder) (ki kl : DkgR.DistKeyShare F G)
    (_ : (qRun E (N.D i) (s.map (RMsg.call E N z ord i) ++ later)).distKeyShare ord' = .ok ki)
    (_ : (qRun E (N.D l) (sl.map (RMsg.call E N z ord l))).distKeyShare ord' = .ok kl)
    (rs : List F) (msg : Bytes) (t : Nat) (d e e' : DSS F G)
    (_ : newDss E.suite (N.x l) (N.pubs E) ⟨kl.share, kl.commits⟩
      ⟨⟨l, polyVal rs ((l + 1 : Nat) : F)⟩, rs.map (· • E.suite.base)⟩ msg t = .ok d)
    (_ : newDss E.suite (N.x i) (N.pubs E) ⟨ki.share, ki.commits⟩
      ⟨⟨i, polyVal rs ((i + 1 : Nat) : F)⟩, rs.map (· • E.suite.base)⟩ msg t = .ok e)
    (c : F) (_ : Usable E.suite (c • E.suite.base)) (sig : PartialSig F),
    partialSig E.suite c e = .ok (sig, e') → ∃ d', processPartialSig E.suite d sig = .ok d'

namespace SignAfterExample

open Kyber.Toy DkgRExample RabinKeyChangeExample

/-- The calls of participant 0. -/
def done0 : List (QCall (ZMod 11) (ZMod 11)) := (rOrder 3 0).map (RMsg.call envRI (netR envRI) 1 MapOrder.id 0)

/-- The key of participant 0. -/
theorem key0 : ∃ v, (qRun envRI ((netR envRI).D 0) done0).distKeyShare MapOrder.id = .ok ⟨[2, 7], ⟨0, v⟩⟩ := by
  refine ⟨polyVal (rSumPoly (netR envRI)) ((0 + 1 : Nat) : ZMod 11), ?_⟩
  have := ((C39_honest_run envRI envRI_lawful prims_lawful
    (fun _ => ⟨fun a b => add_smul a b _, fun a b => mul_smul a b _⟩) primsOkRI (netR envRI) netRI_honest
    (fun _ _ dl _ => codecR_lawful dl) 1 MapOrder.id 0 (by decide) _ (rOrder_ok 3 0 (by decide)).1).2
    (rOrder_ok 3 0 (by decide)).2 MapOrder.id).2
  have hc : (rSumPoly (netR envRI)).map (fun c => c • envRI.suite.base) = [2, 7] := by decide +kernel
  rw [hc] at this
  exact this

end SignAfterExample

open SignAfterExample RabinKeyChangeExample Kyber.Toy DkgRExample in
/-- C158, violated: participant 1 obtains its key after other commitments of dealer 2 have arrived, and participant 0
refuses its partial signature. -/
theorem C158_violated : ¬ C158_statement := by
  intro h
  obtain ⟨v, hk0⟩ := key0
  obtain ⟨d', hd'⟩ := h (ZMod 11) (ZMod 11) _ _ _ _ envRI envRI_lawful prims_lawful (fun _ _ h => h) primsOkRI
    codecR_lawful (netR envRI) netRI_honest 1 MapOrder.id 1 0 (by decide) (by decide) sched (rOrder 3 0) sched_ok
    (rOrder_ok 3 0 (by decide)) [.commits MapOrder.id other 1]
    (fun c hc => by rw [List.mem_singleton] at hc; subst hc; exact True.intro) MapOrder.id _ _ after hk0 [4, 6] [1] 2
    _ _ _ rfl rfl 4 (by unfold Usable; decide +kernel) _ rfl
  obtain ⟨_, _, _, _, _, h3, -⟩ := (C18_accepts_iff _ _ _ _).1 hd'
  have h3 : Dss.sessionId envRI.suite ⟨⟨1, 0⟩, [9, 9]⟩ ⟨⟨1, 0⟩, [4, 6].map (· • envRI.suite.base)⟩ =
    Dss.sessionId envRI.suite ⟨⟨0, 0⟩, [2, 7]⟩ ⟨⟨0, 0⟩, [4, 6].map (· • envRI.suite.base)⟩ := h3
  revert h3
  decide +kernel

namespace SignAfterExample

open Kyber.Toy DkgRExample RabinKeyChangeExample

/-- `C158_other_key_refused` and `C158_alone`: a session of participant 1 with the key of `C158_violated` and one of
participant 0 with the key of the honest run. -/
example (msg : Bytes) (v : ZMod 11) : ∃ d e sig e', newDss envRI.suite 3 [6, 10, 4] ⟨⟨0, v⟩, [2, 7]⟩ ⟨⟨0, 10⟩, [8, 1]⟩
      msg 2 = .ok d ∧
    newDss envRI.suite 5 [6, 10, 4] ⟨⟨1, 8⟩, [9, 9]⟩ ⟨⟨1, 5⟩, [8, 1]⟩ msg 2 = .ok e ∧
    partialSig envRI.suite 4 (dssRun envRI.suite e [.own 4]) = .ok (sig, e') ∧
    processPartialSig envRI.suite (dssRun envRI.suite d [.recv sig, .own 4]) sig = .err .invalidSessionId ∧
    signature envRI.suite MapOrder.rev (dssRun envRI.suite d [.own 4, .recv sig, .recv sig]) =
      .err .notEnoughPartials := by
  refine ⟨_, _, _, _, rfl, rfl, rfl, ?_, ?_⟩
  · exact C158_other_key_refused envRI.suite envRI_lawful (by decide) 3 5 [6, 10, 4] ⟨⟨0, v⟩, [2, 7]⟩ ⟨⟨1, 8⟩, [9, 9]⟩
      ⟨⟨0, 10⟩, [8, 1]⟩ ⟨⟨1, 5⟩, [8, 1]⟩ msg msg 2 2 _ _ rfl rfl 2 9 rfl rfl (by decide) (fun h => h)
      (by unfold Usable; decide +kernel) 4
      (by unfold Usable; decide +kernel) _ [.own 4] _ _ rfl
  · refine C158_alone envRI.suite 3 [6, 10, 4] ⟨⟨0, v⟩, [2, 7]⟩ ⟨⟨0, 10⟩, [8, 1]⟩ msg 2 le_rfl _ rfl _ ?_ _
    intro sig hm
    simp only [List.mem_cons, List.not_mem_nil, or_false, reduceCtorEq, false_or, or_self, DssCall.recv.injEq] at hm
    subst hm
    show Dss.sessionId envRI.suite ⟨⟨1, 8⟩, [9, 9]⟩ ⟨⟨1, 5⟩, [8, 1]⟩ ≠
      Dss.sessionId envRI.suite ⟨⟨0, 0⟩, [2, 7]⟩ ⟨⟨0, 10⟩, [8, 1]⟩
    decide +kernel

/-- `C158_refused`: the same long-term key, and random keys that differ in the second commitment. -/
example (msg : Bytes) (v w : ZMod 11) : ∃ d e sig e', newDss envRI.suite 3 [6, 10, 4] ⟨⟨0, v⟩, [2, 7]⟩
      ⟨⟨0, w⟩, [8, 1]⟩ msg 2 = .ok d ∧
    newDss envRI.suite 5 [6, 10, 4] ⟨⟨1, 8⟩, [2, 7]⟩ ⟨⟨1, 5⟩, [8, 3]⟩ msg 2 = .ok e ∧
    partialSig envRI.suite 4 e = .ok (sig, e') ∧
    processPartialSig envRI.suite (dssRun envRI.suite d [.recv sig, .own 4]) sig = .err .invalidSessionId :=
  ⟨_, _, _, _, rfl, rfl, rfl, C158_refused envRI.suite envRI_lawful (by decide) 3 5 [6, 10, 4] ⟨⟨0, v⟩, [2, 7]⟩
    ⟨⟨1, 8⟩, [2, 7]⟩ ⟨⟨0, w⟩, [8, 1]⟩ ⟨⟨1, 5⟩, [8, 3]⟩ msg msg 2 2 _ _ rfl rfl
    (show [(2 : ZMod 11), 7, 8, 1] ≠ [2, 7, 8, 3] by decide) (fun h => h)
    (by unfold Usable; decide +kernel) 4 (by unfold Usable; decide +kernel) _ [] _ _ rfl⟩

/-- `C158_shut_out`: dealer 2 shuts out participant 1. -/
example := C158_shut_out envRI envRI_lawful (by decide) prims_lawful
  (fun _ => ⟨fun a b => add_smul a b _, fun a b => mul_smul a b _⟩) primsOkRI (netR envRI) netRI_honest
  (fun _ _ dl _ => codecR_lawful dl) 1 MapOrder.id Toy.base_inj 1 (by decide) sched sched_ok.1 sched_ok.2 (by decide) 2
  (by decide) 4 (by unfold Usable; decide +kernel) MapOrder.id MapOrder.rev 1

/-- `C158_same_commitments_partial`: dealer 2 only repeats its commitments, and participant 0 accepts. -/
example (msg : Bytes) (v : ZMod 11)
    (hv : (qRun envRI ((netR envRI).D 0) done0).distKeyShare MapOrder.id = .ok ⟨[2, 7], ⟨0, v⟩⟩) :
    ∃ d e sig e' d', newDss envRI.suite ((netR envRI).x 0) ((netR envRI).pubs envRI) ⟨⟨0, v⟩, [2, 7]⟩
      ⟨⟨0, polyVal [4, 6] 1⟩, [8, 1]⟩ msg 2 = .ok d ∧
    newDss envRI.suite ((netR envRI).x 1) ((netR envRI).pubs envRI) ⟨⟨1, 8⟩, [2, 7]⟩ ⟨⟨1, polyVal [4, 6] 2⟩, [8, 1]⟩
      msg 2 = .ok e ∧
    partialSig envRI.suite 4 e = .ok (sig, e') ∧ processPartialSig envRI.suite d sig = .ok d' := by
  have hre : ∀ o sc k p, QCall.commits o sc k ∈ [QCall.commits MapOrder.id again (1 : ZMod 11)] →
      (qRun envRI ((netR envRI).D 1) done).commitments.get sc.index = some p →
      p = ⟨some envRI.suite.base, sc.commitments⟩ := by
    intro o sc k p hm hp
    rw [List.mem_singleton, QCall.commits.injEq] at hm
    obtain ⟨-, rfl, -⟩ := hm
    have h2 : (qRun envRI ((netR envRI).D 1) done).commitments.get 2 = some ⟨some envRI.suite.base, [8, 7]⟩ := by
      decide +kernel
    have hp : (qRun envRI ((netR envRI).D 1) done).commitments.get 2 = some p := hp
    rw [h2] at hp
    cases hp
    rfl
  have hrev : ∀ c ∈ [QCall.commits MapOrder.id again (1 : ZMod 11)], Reveals c :=
    fun c hc => by rw [List.mem_singleton] at hc; subst hc; exact True.intro
  obtain ⟨d', h⟩ := C158_same_commitments_partial envRI envRI_lawful prims_lawful
    (fun _ => ⟨fun a b => add_smul a b _, fun a b => mul_smul a b _⟩) primsOkRI (netR envRI) netRI_honest
    (fun _ _ dl _ => codecR_lawful dl) 1 MapOrder.id 1 0 (by decide) (by decide) sched (rOrder 3 0) sched_ok
    (rOrder_ok 3 0 (by decide)) _ hrev hre MapOrder.id ⟨[2, 7], ⟨1, 8⟩⟩ _
    (C157_same_commitments_partial envRI _ _ _ _ _ _ _ (netRI_honest.start 1 (by decide)) done _ hrev hre MapOrder.id
      MapOrder.id _ before) hv [4, 6] msg 2 _ _ _ rfl rfl 4 (by unfold Usable; decide +kernel) _ rfl
  exact ⟨_, _, _, _, d', rfl, rfl, rfl, h⟩

end SignAfterExample

end Kyber.Props

namespace Kyber.Ed

open Kyber Kyber.ModInt Kyber.Schnorr Kyber.Poly Kyber.Spec Kyber.Props Kyber.Dss

/-- C158 on edwards25519: one message of dealer `j` after an honest run, and participant `i` obtains a key with which
neither it accepts the partial signatures of the others nor they accept its own, so that it never has a signature. -/
theorem C158_edwards25519 (sha hash : Bytes → Bytes) (E : VssR.Env (ZMod L) EdPt)
    (hE : E.suite = edSuite sha hash) (hP : E.prims.Lawful) (hH : ∀ b, Picked (E.pickFrom b))
    (hO : DkgR.PrimsOkR E) (N : RNet (ZMod L) EdPt) (h : RDkgOk E N)
    (hC : ∀ j < N.n, ∀ dl ∈ (N.D j).dealer.deals, E.codec.dec (E.codec.enc dl) = some dl)
    (hn : N.n < L) (z : ZMod L) (ord : MapOrder) (i : Nat) (hi : i < N.n) (s : List RMsg)
    (hs : RSchedule N.n i s) (hc : RComplete N.n i s) (j : Nat) (hj : j < N.n) (nonce : ZMod L)
    (hun : Accepted (nonce • basePt)) (ord' ord'' : MapOrder) (k1 : ZMod L) :
    ∃ k sc k', (qRun E (N.D i) (s.map (RMsg.call E N z ord i))).distKeyShare ord' = .ok k ∧ sc.index = j ∧
      ((qRun E (N.D i) (s.map (RMsg.call E N z ord i))).processSecretCommits E ord' sc k1).2 = .ok none ∧
      (qRun E (N.D i) (s.map (RMsg.call E N z ord i) ++ [.commits ord' sc k1])).distKeyShare ord'' = .ok k' ∧
      k'.share = k.share ∧
      (∀ l < N.n, ∀ sl, RSchedule N.n l sl → RComplete N.n l sl → ∃ kl,
        (qRun E (N.D l) (sl.map (RMsg.call E N z ord l))).distKeyShare ord' = .ok kl ∧ kl.commits = k.commits) ∧
      ∀ l < N.n, ∀ (share : Share (ZMod L)) (ri rl : Dss.DistKeyShare (ZMod L) EdPt) (msg : Bytes) (t : Nat)
        (d e : DSS (ZMod L) EdPt),
        newDss E.suite (N.x i) (N.pubs E) ⟨k'.share, k'.commits⟩ ri msg t = .ok e →
        newDss E.suite (N.x l) (N.pubs E) ⟨share, k.commits⟩ rl msg t = .ok d →
        Apart E.suite ((k.commits.map ptEnc).flatten ++ (rl.commits.map ptEnc).flatten)
          ((k'.commits.map ptEnc).flatten ++ (ri.commits.map ptEnc).flatten) →
        ∀ (c : ZMod L) (cs cs' : List (DssCall (ZMod L))) (sig : PartialSig (ZMod L)), Accepted (c • basePt) →
          (∀ e', partialSig E.suite c (dssRun E.suite e cs') = .ok (sig, e') →
            processPartialSig E.suite (dssRun E.suite d cs) sig = .err .invalidSessionId) ∧
          (∀ d', partialSig E.suite c (dssRun E.suite d cs) = .ok (sig, d') →
            processPartialSig E.suite (dssRun E.suite e cs') sig = .err .invalidSessionId) ∧
          (2 ≤ t → (∀ sig, .recv sig ∈ cs' → sig.sessionId = d.sessionId) → ∀ ord,
            signature E.suite ord (dssRun E.suite e cs') = .err .notEnoughPartials) := by
  have hS : E.suite.Lawful := hE ▸ edSuite_lawful sha hash
  have hb : E.suite.base = basePt := by rw [hE]; rfl
  have he : E.suite.encG = ptEnc := by rw [hE]; rfl
  have hu : ∀ p, Accepted p → Usable E.suite p := fun p hp => by rw [hE]; exact (usable_iff sha hash _).2 hp
  have hi0 : ((i + 1 : Nat) : ZMod L) ≠ 0 := by
    rw [Ne, ZMod.natCast_eq_zero_iff]
    intro hd
    have := Nat.le_of_dvd (Nat.succ_pos i) hd
    omega
  obtain ⟨k, sc, k', g1, g2, -, g4, g5, g6, g7, g8⟩ := C158_shut_out E hS (by rw [hE]; exact (by decide : 0 < 32)) hP
    (fun b => (hH b).lin) hO N (h.honest hE) hC z ord
    (fun s hs => base_inj (by rw [← hb, hs, (hS.base_lin).zero])) i hi s hs hc hi0 j hj nonce
    (by rw [hb]; exact hu _ hun) ord' ord'' k1
  refine ⟨k, sc, k', g1, g2, g4, g5, g6, g7, fun l hl share ri rl msg t d e h1 h2 h3 c cs cs' sig hcc => ?_⟩
  exact g8 l hl share ri rl msg t d e h1 h2 (by rw [he]; exact h3) c cs cs' sig (by rw [hb]; exact hu _ hcc)

/-- The hypotheses of `C158_edwards25519` hold for two participants with threshold 2. -/
example (sha hash : Bytes → Bytes) : ∃ (E : VssR.Env (ZMod L) EdPt) (d : DkgR.Dkg (ZMod L) EdPt)
    (sc : DkgR.SecretCommits EdPt) (k k' : DkgR.DistKeyShare (ZMod L) EdPt),
    d.distKeyShare MapOrder.id = .ok k ∧ (d.processSecretCommits E MapOrder.id sc 1).2 = .ok none ∧
    (d.processSecretCommits E MapOrder.id sc 1).1.distKeyShare MapOrder.id = .ok k' ∧ k'.share = k.share := by
  obtain ⟨E, N, hE, hP, hH, hC, hO, h, -, hn, -, hs, hc⟩ := RunsExample.rnet_example sha hash
  obtain ⟨k, sc, k', h1, -, h4, h5, h6, -⟩ := C158_edwards25519 sha hash E hE hP hH hO N h (fun _ _ dl _ => hC dl)
    (by rw [hn]; decide +kernel) 1 MapOrder.id 1 (by omega) _ hs hc 0 (by omega) 1 (RunsExample.accepted_one)
    MapOrder.id MapOrder.id 1
  rw [RabinKeyChange.run_append] at h5
  exact ⟨E, _, sc, k, k', h1, h4, h5, h6⟩

end Kyber.Ed
