/-
Property C137: t correct participants get the distributed signature, whatever else is delivered to them.
-/
import Verif.Props.Dss
import Verif.Props.EdFair
import Verif.Props.DkgPedersenHonest
import Verif.Props.DkgRabinHonest
import Verif.Lemmas.Orders

set_option linter.unusedSectionVars false

namespace Kyber.Props

open Kyber Kyber.Poly Kyber.Schnorr Kyber.Dss Kyber.Spec

variable {F G : Type} [Field F] [AddCommGroup G] [DecidableEq G]

section

variable [SMul F G]

/-- A correct participant of a signing session: `new_dss` made its value from its private key, and its two shares lie
on the long-term and on the random polynomial at its own index. -/
structure Signer (S : Suite F G) (participants : List G) (as rs : List F) (msg : Bytes) (t : Nat) (x : F)
    (d : DSS F G) : Prop where
  new : ∃ longShare randomShare : Share F,
    newDss S x participants ⟨longShare, as.map (· • S.base)⟩ ⟨randomShare, rs.map (· • S.base)⟩ msg t = .ok d ∧
    longShare.v = polyVal as ((d.index + 1 : Nat) : F) ∧ randomShare.v = polyVal rs ((d.index + 1 : Nat) : F)

/-- A partial signature that the correct participant with index `i` makes at some point of its own run, whatever it
has received until then; its key and the nonce are such that `schnorr::verify` takes them. -/
def SentBy (S : Suite F G) (participants : List G) (as rs : List F) (msg : Bytes) (t : Nat) (i : Nat)
    (ps : PartialSig F) : Prop :=
  ∃ (x k : F) (d d' : DSS F G) (calls : List (DssCall F)), Signer S participants as rs msg t x d ∧ d.index = i ∧
    (S.canonG (S.encG (k • S.base)) = true ∧ S.small (k • S.base) = false) ∧
    (S.canonG (S.encG (x • S.base)) = true ∧ S.small (x • S.base) = false) ∧
    partialSig S k (dssRun S d calls) = .ok (ps, d')

theorem newDss_fields (S : Suite F G) (x : F) (participants : List G) (long random : DistKeyShare F G) (msg : Bytes)
    (t : Nat) (d : DSS F G) (h : newDss S x participants long random msg t = .ok d) :
    participants[d.index]? = some (x • S.base) ∧ d.secret = x ∧ d.participants = participants ∧ d.t = t ∧
      d.long = long ∧ d.random = random ∧ d.msg = msg ∧ d.partials = [] ∧ d.partialsIdx = [] ∧ d.signed = false ∧
      d.sessionId = sessionId S long random := by
  unfold newDss at h
  simp only at h
  split at h
  · cases h
  · rename_i i hi
    simp only [Res.ok.injEq] at h
    subst h
    obtain ⟨h1, h2, -⟩ := List.findIdx?_eq_some_iff_getElem.1 hi
    refine ⟨?_, rfl, rfl, rfl, rfl, rfl, rfl, rfl, rfl, rfl, rfl⟩
    rw [List.getElem?_eq_getElem h1]
    simpa using h2

theorem mem_indices {α : Type} (l : List (Option (Share α))) (i : Nat) :
    i ∈ indices l ↔ ∃ s, some s ∈ l ∧ s.i = i := by
  simp only [indices, List.mem_toFinset, List.mem_map, List.mem_filterMap, id]
  constructor
  · rintro ⟨s, ⟨o, ho, rfl⟩, rfl⟩; exact ⟨s, ho, rfl⟩
  · rintro ⟨s, hs, rfl⟩; exact ⟨s, ⟨_, hs, rfl⟩, rfl⟩

/-- What `partials` holds covers the indices marked as received, and the own index once it has signed. -/
def Marked (d : DSS F G) : Prop :=
  (∀ i, d.partialsIdx.contains i = true → i ∈ indices d.partials) ∧ (d.signed = true → d.index ∈ indices d.partials)

theorem contains_insert {α : Type} (m : AMap α) (k : Nat) (v : α) (i : Nat)
    (h : (m.insert k v).contains i = true) : i = k ∨ m.contains i = true := by
  by_cases hi : i = k
  · exact Or.inl hi
  · right
    unfold AMap.contains at h ⊢
    rwa [AMap.get_insert, if_neg hi] at h

theorem indices_append {α : Type} (l m : List (Option (Share α))) (i : Nat) (h : i ∈ indices l) :
    i ∈ indices (l ++ m) := by
  rw [mem_indices] at h ⊢
  obtain ⟨s, hs, he⟩ := h
  exact ⟨s, List.mem_append_left _ hs, he⟩

theorem Marked.step (S : Suite F G) (d : DSS F G) (c : DssCall F) (h : Marked d) :
    Marked (dssStep S d c) ∧ ∀ i ∈ indices d.partials, i ∈ indices (dssStep S d c).partials := by
  cases c with
  | own k =>
    simp only [dssStep]
    split
    · rename_i r hr
      obtain ⟨_, _, _, _, hsh, h' | h'⟩ := partialSig_ok S k d r.2 r.1 hr
      · rw [h']; exact ⟨h, fun _ => _root_.id⟩
      · have hi : d.index ∈ indices (d.partials ++ [some r.1.partialShare]) :=
          (mem_indices _ _).2 ⟨r.1.partialShare, by simp, by rw [hsh]⟩
        rw [h'.2]
        refine ⟨⟨fun i hc => ?_, fun _ => hi⟩, fun i => indices_append _ _ i⟩
        rcases contains_insert _ _ _ _ hc with rfl | hc
        · exact hi
        · exact indices_append _ _ i (h.1 i hc)
    · exact ⟨h, fun _ => _root_.id⟩
  | recv ps =>
    simp only [dssStep]
    split
    · rename_i d' hr
      obtain ⟨_, _, _, _, _, _, _, _, _, _, rfl⟩ := (processPartialSig_ok_iff S d d' ps).1 hr
      refine ⟨⟨fun i hc => ?_, fun hs => indices_append _ _ _ (h.2 hs)⟩, fun i => indices_append _ _ i⟩
      rcases contains_insert _ _ _ _ hc with rfl | hc
      · exact (mem_indices _ _).2 ⟨ps.partialShare, by simp, rfl⟩
      · exact indices_append _ _ i (h.1 i hc)
    · exact ⟨h, fun _ => _root_.id⟩

theorem Marked.run (S : Suite F G) (d : DSS F G) (calls : List (DssCall F)) (h : Marked d) :
    Marked (dssRun S d calls) ∧ ∀ i ∈ indices d.partials, i ∈ indices (dssRun S d calls).partials := by
  induction calls generalizing d with
  | nil => exact ⟨h, fun _ => _root_.id⟩
  | cons c calls ih =>
    have h1 := Marked.step S d c h
    have h2 := ih _ h1.1
    exact ⟨h2.1, fun i hi => h2.2 i (h1.2 i hi)⟩

end

variable [DistribSMul F G]

/-- C137: once a correct participant has been handed a partial signature of another correct participant, it holds one
for that index, whatever arrived before, in between and after. -/
theorem C137_kept (S : Suite F G) (hS : S.Lawful) (participants : List G) (as rs : List F) (has : as ≠ [])
    (hrs : rs ≠ []) (msg : Bytes) (t : Nat) (x : F) (d : DSS F G) (hd : Signer S participants as rs msg t x d)
    (calls : List (DssCall F)) (i : Nat)
    (h : (i = d.index ∧ ∃ k, .own k ∈ calls) ∨ ∃ ps, SentBy S participants as rs msg t i ps ∧ .recv ps ∈ calls) :
    i ∈ indices (dssRun S d calls).partials := by
  obtain ⟨ls, rsh, hnew, hls, hrsh⟩ := hd.new
  obtain ⟨f1, f2, f3, f4, f5, f6, f7, f8, f9, f10, f11⟩ := newDss_fields _ _ _ _ _ _ _ _ hnew
  have hm : Marked d := by
    refine ⟨fun i hi => ?_, fun hs => ?_⟩
    · rw [f9] at hi; cases hi
    · rw [f10] at hs; cases hs
  -- the state just before the call, and after it
  have key : ∀ c ∈ calls, (∀ pre, Marked (dssRun S d pre) → i ∈ indices (dssStep S (dssRun S d pre) c).partials) →
      i ∈ indices (dssRun S d calls).partials := by
    intro c hc hstep
    obtain ⟨pre, post, rfl⟩ := List.append_of_mem hc
    have hp := (Marked.run S d pre hm).1
    have := (Marked.run S _ post (Marked.step S _ c hp).1).2 i (hstep pre hp)
    simpa [dssRun] using this
  rcases h with ⟨rfl, k, hk⟩ | ⟨ps, ⟨y, k, e, e', cs, he, hei, hk, hy, hps⟩, hc⟩
  · refine key _ hk fun pre hp => ?_
    obtain ⟨p1, p2, p3, p4, p5, p6, p7⟩ := C18_parameters_fixed S d pre
    have hok : ∃ r, partialSig S k (dssRun S d pre) = .ok r := by
      obtain ⟨a, as, rfl⟩ := List.exists_cons_of_ne_nil has
      obtain ⟨r, rs, rfl⟩ := List.exists_cons_of_ne_nil hrs
      unfold partialSig hashSig
      rw [p3, p4, f5, f6]
      simp only [List.map_cons, List.head?_cons, Res.unwrap_some, Res.bind_ok]
      split <;> exact ⟨_, rfl⟩
    obtain ⟨r, hr⟩ := hok
    simp only [dssStep, hr]
    obtain ⟨_, _, _, _, hsh, h' | h'⟩ := partialSig_ok S k _ r.2 r.1 hr
    · rw [h', ← p7]
      refine hp.2 ?_
      by_contra hs
      rw [Bool.not_eq_true] at hs
      unfold partialSig at hr
      simp only [Res.bind_eq_ok, hs] at hr
      obtain ⟨_, -, hr⟩ := hr
      simp only [Bool.false_eq_true, if_false, Res.ok.injEq] at hr
      have := congrArg (fun q => q.2.signed) hr
      simp only [h', hs] at this
      cases this
    · rw [h'.2, mem_indices]
      exact ⟨r.1.partialShare, by simp, by rw [hsh, p7]⟩
  · refine key _ hc fun pre hp => ?_
    obtain ⟨p1, p2, p3, p4, p5, p6, p7⟩ := C18_parameters_fixed S d pre
    obtain ⟨q1, q2, q3, q4, q5, q6, q7⟩ := C18_parameters_fixed S e cs
    obtain ⟨els, ersh, henew, hels, hersh⟩ := he.new
    obtain ⟨g1, g2, g3, g4, g5, g6, g7, g8, g9, g10, g11⟩ := newDss_fields _ _ _ _ _ _ _ _ henew
    have hsec : (dssRun S e cs).secret = y := by
      rw [← g2]
      clear * -
      induction cs generalizing e with
      | nil => rfl
      | cons c cs ih =>
        refine (ih _).trans ?_
        cases c with
        | own k =>
          simp only [dssStep]
          split
          · rename_i r hr
            obtain ⟨_, _, _, _, _, h | h⟩ := partialSig_ok S k e r.2 r.1 hr
            · rw [h]
            · rw [h.2]
          · rfl
        | recv ps =>
          simp only [dssStep]
          split
          · rename_i d' hr
            obtain ⟨_, _, _, _, _, _, _, _, _, _, rfl⟩ := (processPartialSig_ok_iff S e d' ps).1 hr
            rfl
          · rfl
    by_cases hfree : (dssRun S d pre).partialsIdx.contains i = true
    · exact (Marked.step S _ _ hp).2 i (hp.1 i hfree)
    · rw [Bool.not_eq_true] at hfree
      obtain ⟨d2, hd2, hpd⟩ := C17_honest_accepted S hS k (dssRun S d pre) (dssRun S e cs) e' ps as rs
        (by rw [p3, f5]) (by rw [p4, f6]) (by rw [q3, g5]) (by rw [q4, g6]) (by rw [q5, g7, p5, f7])
        (by rw [q6, g11, p6, f11]; rfl) (by rw [p1, f3, q7, hsec]; exact g1) (by rw [q3, g5, q7]; exact hels)
        (by rw [q4, g6, q7]; exact hersh) (by rw [q7, hei]; exact hfree) hk (by rw [hsec]; exact hy) hps
      obtain ⟨_, _, _, _, hsh, -⟩ := partialSig_ok S k _ e' ps hps
      simp only [dssStep, hd2]
      rw [hpd, mem_indices]
      exact ⟨ps.partialShare, by simp, by rw [hsh, q7, hei]⟩

/-- C137: a correct participant that is handed the partial signatures of enough correct participants, its own included
when it has signed, can make the signature, whatever else was delivered to it and in whatever order: `signature`
returns the Schnorr signature of the message under the distributed key with the distributed nonce. -/
theorem C137_signature (q : Nat) [CharP F q] (ord : MapOrder) (S : Suite F G) (hS : S.Lawful)
    (hB : ∀ s : F, s • S.base = 0 → s = 0) (participants : List G) (hn : participants.length ≤ q)
    (a r : F) (as rs : List F) (t : Nat) (has : (a :: as).length = t) (hrs : (r :: rs).length = t)
    (msg : Bytes) (x : F) (d : DSS F G) (hd : Signer S participants (a :: as) (r :: rs) msg t x d)
    (calls : List (DssCall F)) (correct : Finset Nat) (hcount : t ≤ correct.card)
    (h : ∀ i ∈ correct, (i = d.index ∧ ∃ k, .own k ∈ calls) ∨
      ∃ ps, SentBy S participants (a :: as) (r :: rs) msg t i ps ∧ .recv ps ∈ calls) :
    signature S ord (dssRun S d calls) = .ok (S.encG (r • S.base) ++
      S.encS (r + dssChallenge S (r • S.base) (a • S.base) msg * a)) := by
  obtain ⟨ls, rsh, hnew, hls, hrsh⟩ := hd.new
  refine C17_signature q ord S hS.base_lin hB x participants hn a r as rs t has hrs ls rsh msg d hnew hls hrsh calls ?_
  refine hcount.trans (Finset.card_le_card fun i hi => ?_)
  exact C137_kept S hS participants _ _ (by simp) (by simp) msg t x d hd calls i (h i hi)

/-- The threshold a key generation uses: `minimum_t` when none is given. -/
def usedT (N : Net F G) : Nat := if N.t ≠ 0 then N.t else VssP.minimumT N.n

theorem sumPoly_cons (N : Net F G) (T : Nat) (hT : 0 < T) :
    sumPoly N T = (∑ j ∈ Finset.range N.n, N.sec j) :: (sumPoly N T).tail ∧ (sumPoly N T).length = T := by
  obtain ⟨T', rfl⟩ : ∃ T', T = T' + 1 := ⟨T - 1, by omega⟩
  refine ⟨?_, by simp [sumPoly]⟩
  unfold sumPoly
  rw [List.range_succ_eq_map, List.map_cons, List.tail_cons]
  rfl

/-- C137: everyone's session opens, and `t` of them are enough: `n` participants with keys `x` hold shares of the
secrets `a` and `r`. Whoever is handed the partial signatures of at least `t` of them, its own included when it has
signed, gets from `signature` the Schnorr signature of the message under `a` with the nonce `r`, whatever else was
delivered to it. -/
theorem C137_group (q : Nat) [CharP F q] (S : Suite F G) (hS : S.Lawful) (hB : ∀ s : F, s • S.base = 0 → s = 0)
    (n : Nat) (x : Nat → F) (hnd : ((List.range n).map (fun i => x i • S.base)).Nodup)
    (hx : ∀ i < n, Usable S (x i • S.base)) (hq : n ≤ q) (a r : F) (as rs : List F) (t : Nat)
    (has : (a :: as).length = t) (hrs : (r :: rs).length = t) (msg : Bytes) :
    ∃ ds : Nat → DSS F G,
      (∀ i < n, newDss S (x i) ((List.range n).map (fun i => x i • S.base))
        ⟨⟨i, polyVal (a :: as) ((i + 1 : Nat) : F)⟩, (a :: as).map (fun c => c • S.base)⟩
        ⟨⟨i, polyVal (r :: rs) ((i + 1 : Nat) : F)⟩, (r :: rs).map (fun c => c • S.base)⟩ msg t = .ok (ds i)) ∧
      ∀ i < n, ∀ (calls : List (DssCall F)) (correct : Finset Nat), t ≤ correct.card →
        (∀ j ∈ correct, j < n ∧ ((j = i ∧ ∃ k, .own k ∈ calls) ∨
          ∃ (k : F) (ps : PartialSig F) (d' : DSS F G) (theirs : List (DssCall F)), Usable S (k • S.base) ∧
            partialSig S k (dssRun S (ds j) theirs) = .ok (ps, d') ∧ .recv ps ∈ calls)) →
        ∀ ord, signature S ord (dssRun S (ds i) calls) =
          .ok (S.encG (r • S.base) ++ S.encS (r + dssChallenge S (r • S.base) (a • S.base) msg * a)) := by
  set pubs := (List.range n).map (fun i => x i • S.base) with hpubs
  have hlen : pubs.length = n := by simp [hpubs]
  have hnew : ∀ i, i < n → ∃ d, newDss S (x i) pubs
      ⟨⟨i, polyVal (a :: as) ((i + 1 : Nat) : F)⟩, (a :: as).map (fun c => c • S.base)⟩
      ⟨⟨i, polyVal (r :: rs) ((i + 1 : Nat) : F)⟩, (r :: rs).map (fun c => c • S.base)⟩ msg t = .ok d ∧
      d.index = i := by
    intro i hi
    have hf : pubs.findIdx? (fun p => decide (p = x i • S.base)) = some i := by
      rw [List.findIdx?_eq_some_iff_getElem]
      have hg : ∀ j (hj : j < pubs.length), pubs[j] = x j • S.base := by
        intro j hj
        simp [hpubs]
      refine ⟨by omega, by simpa using hg i (by omega), fun j hj => ?_⟩
      simp only [decide_eq_true_eq]
      intro he
      have h1 := hg i (by omega)
      have := (List.Nodup.getElem_inj_iff hnd (hi := by omega) (hj := by omega)).1 (he.trans h1.symm)
      omega
    unfold newDss
    simp only [hf]
    exact ⟨_, rfl, rfl⟩
  have : Nonempty (DSS F G) := ⟨⟨0, 0, 0, [], 0, ⟨⟨0, 0⟩, []⟩, ⟨⟨0, 0⟩, []⟩, [], [], [], false, []⟩⟩
  choose! ds hds hidx using hnew
  have hsig : ∀ i < n, Signer S pubs (a :: as) (r :: rs) msg t (x i) (ds i) := fun i hi =>
    ⟨_, _, hds i hi, by rw [hidx i hi], by rw [hidx i hi]⟩
  refine ⟨ds, hds, ?_⟩
  intro i hi calls correct hcount h ord
  refine C137_signature q ord S hS hB pubs (hlen.trans_le hq) a r as rs t has hrs msg (x i) (ds i) (hsig i hi) calls
    correct hcount fun j hj => ?_
  obtain ⟨hjn, hj⟩ := h j hj
  rcases hj with ⟨rfl, hk⟩ | ⟨k, ps, d', cs, hk, hps, hc⟩
  · exact Or.inl ⟨(hidx j hjn).symm, hk⟩
  · exact Or.inr ⟨ps, ⟨x j, k, ds j, d', cs, hsig j hjn, hidx j hjn, hk, hx j hjn, hps⟩, hc⟩

/-- C137: from two Pedersen key generations to the signature. The same participants run one generation for the
long-term key and one for the nonce, in any two orders of messages, and each opens a signing session with the two
results (the keys used inside the second generation need not be those of the first). Then C137_group applies, with the
sum of the long-term secrets and the sum of the nonces. -/
theorem C137_generated (q : Nat) [CharP F q] (E : DkgP.DkgEnv F G) (hS : E.suite.Lawful) (hP : E.prims.Lawful)
    (hB : ∀ s : F, s • E.suite.base = 0 → s = 0)
    (hO : DkgP.PrimsOk E) (N M : Net F G) (hN : N.Honest E) (hM : M.Honest E) (hn : M.n = N.n) (ht : M.t = N.t)
    (hCN : ∀ j < N.n, ∀ dl ∈ (N.D j).dealer.deals, E.codec.dec (E.codec.enc dl) = some dl)
    (hCM : ∀ j < M.n, ∀ dl ∈ (M.D j).dealer.deals, E.codec.dec (E.codec.enc dl) = some dl) (hq : N.n ≤ q) (z : F)
    (sN sM : Nat → List HMsg) (hsN : ∀ i < N.n, Schedule N.n i (sN i) ∧ Complete N.n i (sN i))
    (hsM : ∀ i < N.n, Schedule N.n i (sM i) ∧ Complete N.n i (sM i)) (ord : Nat → MapOrder) (msg : Bytes) :
    ∃ (ds : Nat → DSS F G) (a r : F),
      a = ∑ j ∈ Finset.range N.n, N.sec j ∧ r = ∑ j ∈ Finset.range N.n, M.sec j ∧
      (∀ i < N.n, ∃ kl kr,
        (dRun E (N.D i) ((sN i).map (HMsg.call E N z i))).distKeyShare E.suite (ord i) = .ok kl ∧
        (dRun E (M.D i) ((sM i).map (HMsg.call E M z i))).distKeyShare E.suite (ord i) = .ok kr ∧
        kl.commits[0]? = some (a • E.suite.base) ∧ kr.commits[0]? = some (r • E.suite.base) ∧
        newDss E.suite (N.x i) (N.pubs E) ⟨kl.share, kl.commits⟩ ⟨kr.share, kr.commits⟩ msg (usedT N) = .ok (ds i)) ∧
      ∀ i < N.n, ∀ (calls : List (DssCall F)) (correct : Finset Nat), usedT N ≤ correct.card →
        (∀ j ∈ correct, j < N.n ∧ ((j = i ∧ ∃ k, .own k ∈ calls) ∨
          ∃ (k : F) (ps : PartialSig F) (d' : DSS F G) (theirs : List (DssCall F)),
            Usable E.suite (k • E.suite.base) ∧
            partialSig E.suite k (dssRun E.suite (ds j) theirs) = .ok (ps, d') ∧ .recv ps ∈ calls)) →
        ∀ ord', signature E.suite ord' (dssRun E.suite (ds i) calls) =
          .ok (E.suite.encG (r • E.suite.base) ++
            E.suite.encS (r + dssChallenge E.suite (r • E.suite.base) (a • E.suite.base) msg * a)) := by
  have hT : usedT M = usedT N := by unfold usedT; rw [hn, ht]
  rcases Nat.eq_zero_or_pos N.n with h0 | h0
  · refine ⟨fun _ => ⟨0, 0, 0, [], 0, ⟨⟨0, 0⟩, []⟩, ⟨⟨0, 0⟩, []⟩, [], [], [], false, []⟩, _, _, rfl, rfl,
      fun i hi => by omega, fun i hi => by omega⟩
  have hpos : 0 < usedT N := by
    unfold usedT
    split
    · omega
    · unfold VssP.minimumT; omega
  have hl : ∀ i < N.n, _ := fun i hi =>
    (C33_honest_run E hS hP hO N hN hCN z (usedT N) rfl i hi (sN i) (hsN i hi).1).2 (hsN i hi).2 (ord i)
  have hr : ∀ i < N.n, _ := fun i hi =>
    (C33_honest_run E hS hP hO M hM hCM z (usedT N) hT.symm i (by omega) (sM i)
      (by rw [hn]; exact (hsM i hi).1)).2 (by rw [hn]; exact (hsM i hi).2) (ord i)
  obtain ⟨e1, e2⟩ := sumPoly_cons N (usedT N) hpos
  obtain ⟨e3, e4⟩ := sumPoly_cons M (usedT N) hpos
  rw [hn] at e3
  rw [e1] at hl e2
  rw [e3] at hr e4
  obtain ⟨ds, h1, h2⟩ := C137_group q E.suite hS hB N.n N.x hN.nodup hN.x hq _ _ _ _ (usedT N) e2 e4 msg
  exact ⟨ds, _, _, rfl, rfl, fun i hi => ⟨_, _, (hl i hi).2, (hr i hi).2, rfl, rfl, h1 i hi⟩, h2⟩

theorem rSumPoly_cons (N : RNet F G) (hT : 0 < N.t) :
    rSumPoly N = (∑ j ∈ Finset.range N.n, N.sec j) :: (rSumPoly N).tail ∧ (rSumPoly N).length = N.t := by
  obtain ⟨T', hT'⟩ : ∃ T', N.t = T' + 1 := ⟨N.t - 1, by omega⟩
  refine ⟨?_, by simp [rSumPoly]⟩
  unfold rSumPoly
  rw [hT', List.range_succ_eq_map, List.map_cons, List.tail_cons]
  rfl

/-- C137: the same from two Rabin key generations. -/
theorem C137_generated_rabin (q : Nat) [CharP F q] (E : VssR.Env F G) (hS : E.suite.Lawful) (hP : E.prims.Lawful)
    (hH : ∀ b, Lin F (E.pickFrom b)) (hB : ∀ s : F, s • E.suite.base = 0 → s = 0)
    (hO : DkgR.PrimsOkR E) (N M : RNet F G) (hN : N.Honest E) (hM : M.Honest E) (hn : M.n = N.n) (ht : M.t = N.t)
    (hpos : 0 < N.t)
    (hCN : ∀ j < N.n, ∀ dl ∈ (N.D j).dealer.deals, E.codec.dec (E.codec.enc dl) = some dl)
    (hCM : ∀ j < M.n, ∀ dl ∈ (M.D j).dealer.deals, E.codec.dec (E.codec.enc dl) = some dl) (hq : N.n ≤ q) (z : F)
    (sN sM : Nat → List RMsg) (hsN : ∀ i < N.n, RSchedule N.n i (sN i) ∧ RComplete N.n i (sN i))
    (hsM : ∀ i < N.n, RSchedule N.n i (sM i) ∧ RComplete N.n i (sM i)) (ord ord₂ : Nat → MapOrder) (msg : Bytes) :
    ∃ (ds : Nat → DSS F G) (a r : F),
      a = ∑ j ∈ Finset.range N.n, N.sec j ∧ r = ∑ j ∈ Finset.range N.n, M.sec j ∧
      (∀ i < N.n, ∃ kl kr,
        (qRun E (N.D i) ((sN i).map (RMsg.call E N z (ord i) i))).distKeyShare (ord₂ i) = .ok kl ∧
        (qRun E (M.D i) ((sM i).map (RMsg.call E M z (ord i) i))).distKeyShare (ord₂ i) = .ok kr ∧
        kl.commits[0]? = some (a • E.suite.base) ∧ kr.commits[0]? = some (r • E.suite.base) ∧
        newDss E.suite (N.x i) (N.pubs E) ⟨kl.share, kl.commits⟩ ⟨kr.share, kr.commits⟩ msg N.t = .ok (ds i)) ∧
      ∀ i < N.n, ∀ (calls : List (DssCall F)) (correct : Finset Nat), N.t ≤ correct.card →
        (∀ j ∈ correct, j < N.n ∧ ((j = i ∧ ∃ k, .own k ∈ calls) ∨
          ∃ (k : F) (ps : PartialSig F) (d' : DSS F G) (theirs : List (DssCall F)),
            Usable E.suite (k • E.suite.base) ∧
            partialSig E.suite k (dssRun E.suite (ds j) theirs) = .ok (ps, d') ∧ .recv ps ∈ calls)) →
        ∀ ord', signature E.suite ord' (dssRun E.suite (ds i) calls) =
          .ok (E.suite.encG (r • E.suite.base) ++
            E.suite.encS (r + dssChallenge E.suite (r • E.suite.base) (a • E.suite.base) msg * a)) := by
  have hl : ∀ i < N.n, _ := fun i hi =>
    (C39_honest_run E hS hP hH hO N hN hCN z (ord i) i hi (sN i) (hsN i hi).1).2 (hsN i hi).2 (ord₂ i)
  have hr : ∀ i < N.n, _ := fun i hi =>
    (C39_honest_run E hS hP hH hO M hM hCM z (ord i) i (by omega) (sM i)
      (by rw [hn]; exact (hsM i hi).1)).2 (by rw [hn]; exact (hsM i hi).2) (ord₂ i)
  obtain ⟨e1, e2⟩ := rSumPoly_cons N hpos
  obtain ⟨e3, e4⟩ := rSumPoly_cons M (by omega)
  rw [hn] at e3
  rw [ht] at e4
  rw [e1] at hl e2
  rw [e3] at hr e4
  obtain ⟨ds, h1, h2⟩ := C137_group q E.suite hS hB N.n N.x hN.nodup hN.x hq _ _ _ _ N.t e2 e4 msg
  exact ⟨ds, _, _, rfl, rfl, fun i hi => ⟨_, _, (hl i hi).2, (hr i hi).2, rfl, rfl, h1 i hi⟩, h2⟩

/-! ## A case

The session of `exampleDss`: keys 5, 6, 7, threshold 2. -/

namespace LiveExample

theorem signer (i : Nat) (hi : i < 3) :
    Signer Toy.suite [10, 1, 3] [3, 2] [4, 1] [1] 2 ((5 + i : Nat) : ZMod 11) (exampleDss i) := by
  obtain rfl | rfl | rfl : i = 0 ∨ i = 1 ∨ i = 2 := by omega
  · exact ⟨⟨0, 5⟩, ⟨0, 5⟩, rfl, by decide +kernel, by decide +kernel⟩
  · exact ⟨⟨1, 7⟩, ⟨1, 6⟩, rfl, by decide +kernel, by decide +kernel⟩
  · exact ⟨⟨2, 9⟩, ⟨2, 7⟩, rfl, by decide +kernel, by decide +kernel⟩

/-- A message that no one should accept. -/
def junk : PartialSig (ZMod 11) := { examplePartial with partialShare := ⟨2, examplePartial.partialShare.v + 1⟩ }

theorem sent : SentBy Toy.suite [10, 1, 3] [3, 2] [4, 1] [1] 2 2 examplePartial := by
  have h2 : ∃ d', partialSig Toy.suite 1 (exampleDss 2) = .ok (examplePartial, d') := ⟨_, rfl⟩
  obtain ⟨d', h2⟩ := h2
  exact ⟨_, 1, exampleDss 2, d', [], signer 2 (by decide), rfl, by decide +kernel, by decide +kernel, h2⟩

/-- `C137_kept`, `C137_signature`: participant 0 gets junk, its own partial signature, that of participant 2, junk. -/
example : 2 ∈ indices (dssRun Toy.suite (exampleDss 0)
      [.recv junk, .own 1, .recv examplePartial, .recv junk]).partials ∧
    signature Toy.suite MapOrder.rev
      (dssRun Toy.suite (exampleDss 0) [.recv junk, .own 1, .recv examplePartial, .recv junk]) =
      .ok (Toy.enc 8 ++ Toy.enc (4 + dssChallenge Toy.suite 8 6 [1] * 3)) := by
  refine ⟨C137_kept Toy.suite Toy.lawful [10, 1, 3] [3, 2] [4, 1] (by decide) (by decide) [1] 2 _ _
    (signer 0 (by decide)) _ 2 (Or.inr ⟨_, sent, by simp⟩), ?_⟩
  refine C137_signature 11 MapOrder.rev Toy.suite Toy.lawful (by decide +kernel) [10, 1, 3] (by decide) 3 4 [2] [1] 2
    rfl rfl [1] _ _ (signer 0 (by decide)) _ {0, 2} (by decide) ?_
  intro i hi
  obtain rfl | rfl : i = 0 ∨ i = 2 := by simpa using hi
  · exact Or.inl ⟨rfl, 1, by simp⟩
  · exact Or.inr ⟨_, sent, by simp⟩

/-- `C137_generated`: three participants of the toy group; the second generation is the first one again. -/
example : ∃ ds : Nat → DSS (ZMod 11) (ZMod 11), ∀ i < 3, ∀ ps d', partialSig Toy.suite 1 (ds 2) = .ok (ps, d') →
    signature Toy.suite MapOrder.rev (dssRun Toy.suite (ds i) [.recv junk, .own 1, .recv ps]) =
      .ok (Toy.enc (12 * 2) ++ Toy.enc (12 + dssChallenge Toy.suite (12 * 2) (12 * 2) [1] * 12)) ∨ i = 2 := by
  obtain ⟨ds, a, r, ha, hr, -, h⟩ := C137_generated 11 Toy.envD Toy.lawful Toy.prims_lawful (by decide +kernel)
    ⟨fun _ _ => rfl, fun _ _ _ _ => rfl⟩ (Toy.net Toy.envD) (Toy.net Toy.envD) DkgPExample.net_honest
    DkgPExample.net_honest rfl rfl (fun _ _ d _ => Toy.codecP_lawful d) (fun _ _ d _ => Toy.codecP_lawful d)
    (by decide) 1
    (hOrder 3) (hOrder 3) (fun i _ => hOrder_ok 3 i) (fun i _ => hOrder_ok 3 i) (fun _ => MapOrder.id) [1]
  obtain rfl : a = 12 := by rw [ha]; decide +kernel
  obtain rfl : r = 12 := by rw [hr]; decide +kernel
  refine ⟨ds, fun i hi ps d' hps => ?_⟩
  by_cases h2 : i = 2
  · exact Or.inr h2
  · refine Or.inl ((h i hi [.recv junk, .own 1, .recv ps] {i, 2} ?_ ?_ MapOrder.rev).trans (by decide +kernel))
    · rw [Finset.card_pair h2]; decide
    · intro j hj
      obtain rfl | rfl : j = i ∨ j = 2 := by simpa using hj
      · exact ⟨hi, Or.inl ⟨rfl, 1, by simp⟩⟩
      · exact ⟨by decide, Or.inr ⟨1, ps, d', [], by unfold Usable; decide +kernel, hps, by simp⟩⟩

/-- `C137_group`, `C137_generated_rabin`: the same with the Rabin generation. -/
example : ∃ ds : Nat → DSS (ZMod 11) (ZMod 11), ∀ i < 3, ∀ ps d', partialSig Toy.suite 1 (ds 2) = .ok (ps, d') →
    signature Toy.suite MapOrder.rev (dssRun Toy.suite (ds i) [.recv junk, .own 1, .recv ps]) =
      .ok (Toy.enc (12 * 2) ++ Toy.enc (12 + dssChallenge Toy.suite (12 * 2) (12 * 2) [1] * 12)) ∨ i = 2 := by
  obtain ⟨ds, a, r, ha, hr, -, h⟩ := C137_generated_rabin 11 Toy.envR Toy.lawful Toy.prims_lawful
    (fun _ => Lin.of_module _) (by decide +kernel)
    ⟨fun _ _ => rfl, fun _ _ _ _ => rfl⟩ (Toy.netR Toy.envR) (Toy.netR Toy.envR) DkgRExample.netR_honest
    DkgRExample.netR_honest rfl rfl (by decide) (fun _ _ d _ => Toy.codecR_lawful d)
    (fun _ _ d _ => Toy.codecR_lawful d) (by decide) 1
    (rOrder 3) (rOrder 3) (fun i hi => rOrder_ok 3 i hi) (fun i hi => rOrder_ok 3 i hi) (fun _ => MapOrder.id)
    (fun _ => MapOrder.rev) [1]
  obtain rfl : a = 12 := by rw [ha]; decide +kernel
  obtain rfl : r = 12 := by rw [hr]; decide +kernel
  refine ⟨ds, fun i hi ps d' hps => ?_⟩
  by_cases h2 : i = 2
  · exact Or.inr h2
  · refine Or.inl ((h i hi [.recv junk, .own 1, .recv ps] {i, 2} ?_ ?_ MapOrder.rev).trans (by decide +kernel))
    · rw [Finset.card_pair h2]; decide
    · intro j hj
      obtain rfl | rfl : j = i ∨ j = 2 := by simpa using hj
      · exact ⟨hi, Or.inl ⟨rfl, 1, by simp⟩⟩
      · exact ⟨by decide, Or.inr ⟨1, ps, d', [], by unfold Usable; decide +kernel, hps, by simp⟩⟩

end LiveExample

end Kyber.Props

namespace Kyber.Ed

open Kyber Kyber.ModInt Kyber.Poly Kyber.Spec Kyber.Props Kyber.Dss

theorem sig_bytes (sha hash : Bytes → Bytes) (a r : ZMod L) (msg : Bytes) :
    (edSuite sha hash).encG (r • basePt) ++ (edSuite sha hash).encS
      (r + dssChallenge (edSuite sha hash) (r • basePt) (a • basePt) msg * a) =
      ptEnc (r • basePt) ++ leBytes 32 ((r.val + a.val *
        leNat (sha (ptEnc (r • basePt) ++ ptEnc (a • basePt) ++ msg))) % L) := by
  refine congrArg (fun n => ptEnc (r • basePt) ++ leBytes 32 n) ?_
  rw [← ZMod.val_natCast]
  congr 1
  push_cast
  rw [ZMod.natCast_zmod_val, ZMod.natCast_zmod_val, mul_comm a]
  rfl

/-- C137 on edwards25519: two key generations among honest participants, then signing. Whoever is handed the partial
signatures of at least `t` of them, whatever else is delivered, gets the bytes of the EdDSA signature of the message
under the generated key; RFC 8032 accepts it, and the library does unless it refuses one of the two points. -/
theorem C137_edwards25519 (sha hash : Bytes → Bytes) (E : DkgP.DkgEnv (ZMod L) EdPt)
    (hE : E.suite = edSuite sha hash) (hP : E.prims.Lawful) (hO : DkgP.PrimsOk E) (N M : Net (ZMod L) EdPt)
    (hN : DkgOk E N) (hM : DkgOk E M) (hn : M.n = N.n) (ht : M.t = N.t)
    (hC : ∀ j < N.n, ∀ dl ∈ (N.D j).dealer.deals, E.codec.dec (E.codec.enc dl) = some dl)
    (hC' : ∀ j < N.n, ∀ dl ∈ (M.D j).dealer.deals, E.codec.dec (E.codec.enc dl) = some dl) (hL : N.n ≤ L) (z : ZMod L)
    (sN sM : Nat → List HMsg) (hsN : ∀ i < N.n, Schedule N.n i (sN i) ∧ Complete N.n i (sN i))
    (hsM : ∀ i < N.n, Schedule N.n i (sM i) ∧ Complete N.n i (sM i)) (ord : Nat → MapOrder) (msg : Bytes) :
    ∃ (ds : Nat → DSS (ZMod L) EdPt) (a r : ZMod L),
      a = ∑ j ∈ Finset.range N.n, N.sec j ∧ r = ∑ j ∈ Finset.range N.n, M.sec j ∧
      (∀ i < N.n, ∃ kl kr,
        (dRun E (N.D i) ((sN i).map (HMsg.call E N z i))).distKeyShare E.suite (ord i) = .ok kl ∧
        (dRun E (M.D i) ((sM i).map (HMsg.call E M z i))).distKeyShare E.suite (ord i) = .ok kr ∧
        kl.commits[0]? = some (a • basePt) ∧ kr.commits[0]? = some (r • basePt) ∧
        newDss E.suite (N.x i) (N.pubs E) ⟨kl.share, kl.commits⟩ ⟨kr.share, kr.commits⟩ msg (usedT N) = .ok (ds i)) ∧
      ∀ i < N.n, ∀ (calls : List (DssCall (ZMod L))) (correct : Finset Nat), usedT N ≤ correct.card →
        (∀ j ∈ correct, j < N.n ∧ ((j = i ∧ ∃ k, .own k ∈ calls) ∨
          ∃ (k : ZMod L) (ps : PartialSig (ZMod L)) (d' : DSS (ZMod L) EdPt) (theirs : List (DssCall (ZMod L))),
            Accepted (k • basePt) ∧ partialSig E.suite k (dssRun E.suite (ds j) theirs) = .ok (ps, d') ∧
            .recv ps ∈ calls)) →
        ∀ ord', ∃ sig, signature E.suite ord' (dssRun E.suite (ds i) calls) = .ok sig ∧
          sig = ptEnc (r • basePt) ++ leBytes 32 ((r.val + a.val *
            leNat (sha (ptEnc (r • basePt) ++ ptEnc (a • basePt) ++ msg))) % L) ∧
          Rfc8032.Verifies sha 1 (ptEnc (a • basePt)) msg sig ∧
          (eddsaVerify sha (ptEnc (a • basePt)) msg sig = .ok () ↔
            Accepted (r • basePt) ∧ Accepted (a • basePt)) := by
  have hS : E.suite.Lawful := hE ▸ edSuite_lawful sha hash
  have hb : E.suite.base = basePt := by rw [hE]; rfl
  obtain ⟨ds, a, r, ha, hr, h1, h2⟩ := C137_generated L E hS hP
    (fun s h => by
      rw [hb] at h
      exact base_inj (a := s) (b := 0) (h.trans (lin_of_order L_smul_base).zero.symm))
    hO N M (hN.honest hE) (hM.honest hE) hn ht hC (hn ▸ hC') hL z sN sM hsN hsM ord msg
  rw [hb] at h1
  refine ⟨ds, a, r, ha, hr, h1, fun i hi calls correct hc h ord' => ?_⟩
  · have h3 := h2 i hi calls correct hc (fun j hj => by
      obtain ⟨hjn, hj⟩ := h j hj
      refine ⟨hjn, hj.imp_right ?_⟩
      rintro ⟨k, ps, d', cs, hk, hps, hin⟩
      exact ⟨k, ps, d', cs, by rw [hb, hE]; exact (usable_iff sha hash _).2 hk, hps, hin⟩) ord'
    rw [hb] at h3
    have h4 := h3.trans (congrArg Res.ok ((congrArg (fun T : Suite (ZMod L) EdPt => T.encG _ ++ T.encS (_ +
      dssChallenge T _ _ msg * _)) hE).trans (sig_bytes sha hash _ _ msg)))
    refine ⟨_, h4, rfl, ?_, ?_⟩
    · exact rfc_verifies sha _ _ msg
    · rw [eddsaVerify_iff]
      exact sigOk_iff sha _ _ msg

/-- The hypotheses are met, also those about what is delivered: three participants with threshold 2; participant 2
signs, its partial signature and junk reach participant 0, which signs as well. -/
example (sha hash : Bytes → Bytes) (junk : PartialSig (ZMod L)) (msg : Bytes) :
    ∃ (E : DkgP.DkgEnv (ZMod L) EdPt) (d e : DSS (ZMod L) EdPt) (ps : PartialSig (ZMod L)) (a : ZMod L) (sig : Bytes),
      E.suite = edSuite sha hash ∧ (∃ d', partialSig E.suite 1 e = .ok (ps, d')) ∧ d.index ≠ e.index ∧
      signature E.suite MapOrder.rev (dssRun E.suite d [.recv junk, .recv ps, .recv junk, .own 1]) = .ok sig ∧
      Rfc8032.Verifies sha 1 (ptEnc (a • basePt)) msg sig := by
  obtain ⟨E, N, h1, h2, h3, h4, h5, h6, h7, h8⟩ := FairExample.net3 sha hash
  have hs : ∀ i < N.n, Schedule N.n i (FairExample.msgs i) ∧ Complete N.n i (FairExample.msgs i) := h8
  obtain ⟨ds, a, r, -, -, k1, k2⟩ := C137_edwards25519 sha hash E h1 h2 h4 N N h5 h5 rfl rfl
    (fun _ _ dl _ => h3 dl) (fun _ _ dl _ => h3 dl) (by rw [h7]; decide +kernel) 0 _ _ hs hs (fun _ => MapOrder.id) msg
  have hU : usedT N = 2 := by unfold usedT; rw [h6]; rfl
  obtain ⟨kl, kr, e1, e2, e3, e4, e5⟩ := k1 2 (by omega)
  obtain ⟨kl', kr', e1', e2', e3', e4', e5'⟩ := k1 0 (by omega)
  obtain ⟨g1, -, -, -, g5, g6, -⟩ := newDss_fields _ _ _ _ _ _ _ _ e5
  obtain ⟨g1', -⟩ := newDss_fields _ _ _ _ _ _ _ _ e5'
  have hok : ∃ r, partialSig E.suite 1 (ds 2) = .ok r := by
    unfold partialSig hashSig
    rw [g5, g6]
    simp only [List.head?_eq_getElem?, e3, e4, Res.unwrap_some, Res.bind_ok]
    split <;> exact ⟨_, rfl⟩
  obtain ⟨⟨ps, d'⟩, hps⟩ := hok
  obtain ⟨sig, s1, -, s3, -⟩ := k2 0 (by omega) [.recv junk, .recv ps, .recv junk, .own 1] {0, 2} (by rw [hU]; decide)
    (by
      intro j hj
      obtain rfl | rfl : j = 0 ∨ j = 2 := by simpa using hj
      · exact ⟨by omega, Or.inl ⟨rfl, 1, by simp⟩⟩
      · exact ⟨by omega, Or.inr ⟨1, ps, d', [], RunsExample.accepted_one, hps, by simp⟩⟩) MapOrder.rev
  refine ⟨E, ds 0, ds 2, ps, a, sig, h1, ⟨d', hps⟩, ?_, s1, s3⟩
  intro he
  rw [he, g1] at g1'
  have hb : E.suite.base = basePt := by rw [h1]; rfl
  have := base_inj (Option.some.inj (hb ▸ g1'))
  have := h5.keys 2 (by omega) 0 (by omega) this
  omega

end Kyber.Ed
